import Verif.Spec.Fill
import Verif.Lemmas.Apply
import Verif.Lemmas.Call

/-! Expanding templates. -/

namespace Seam
open Spec

mutual
theorem fills_evals (ext : Ext) {given : Str → List PNode → Prop} {s : St} (hg : ∀ x vs, given x vs → Stands s.scope x vs) :
    ∀ {n : PNode} {out : List PNode}, Fills given n out → Evals ext [n] s (.ok out) s
  | _, _, .var a x vs ha hx => evals_var ha (hg x vs hx).1 (macrosFree_evals ext vs (hg x vs hx).2 s)
  | _, _, .symbol a ha => evals_symbol ext ha s
  | _, _, .number a => evals_number ext a s
  | _, _, .string a => evals_string ext a s
  | _, _, .raw a => evals_raw ext a s
  | _, _, .list ns ms si e w hh h => evals_list hh (fillsAll_evals ext hg h) si e w
  | _, _, .attr k n m ms si w h => evals_attr (fills_evals ext hg h) k si w
theorem fillsAll_evals (ext : Ext) {given : Str → List PNode → Prop} {s : St} (hg : ∀ x vs, given x vs → Stands s.scope x vs) :
    ∀ {ns out : List PNode}, FillsAll given ns out → Evals ext ns s (.ok out) s
  | _, _, .nil => .nil ext s
  | _, _, .cons _ _ _ _ h h' => (fills_evals ext hg h).cons (fillsAll_evals ext hg h')
end

theorem macrosFree_mem : ∀ {vs : List PNode} {v : PNode}, MacrosFree vs → v ∈ vs → MacroFree v
  | _ :: _, _, .cons _ _ h h', hv => by
    rcases List.mem_cons.1 hv with rfl | hv
    · exact h
    · exact macrosFree_mem h' hv

theorem macrosFree_drop : ∀ {vs : List PNode} (n : Nat), MacrosFree vs → MacrosFree (vs.drop n)
  | [], n, _ => by simpa using MacrosFree.nil
  | v :: vs, 0, h => h
  | v :: vs, n + 1, h => by
    cases h with
    | cons _ _ _ h' => exact macrosFree_drop n h'

/-- A loop over a template. -/
theorem fills_loops (ext : Ext) {a : Node} {body : List PNode} {sc : Scope} : ∀ {ys : List PNode} {chunks : List (List PNode)} (s : St),
    MacrosFree ys → (∀ y, y ≠ a.value → s.scope y = sc y) →
    Pairs (fun y chunk => FillsAll (GivenArgs sc [a.value] [y]) body chunk) ys chunks →
    ∃ t, Loops ext (.symbol a) body ys s (.ok chunks.flatten) t ∧ SameEffects s t
  | [], _, s, _, _, h => by
    cases h
    exact ⟨s, .done s, rfl, rfl, rfl⟩
  | y :: ys, [], _, _, _, h => by cases h
  | y :: ys, chunk :: chunks, s, hy, hs, h => by
    have ⟨h, hr⟩ : FillsAll (GivenArgs sc [a.value] [y]) body chunk ∧
        Pairs (fun y chunk => FillsAll (GivenArgs sc [a.value] [y]) body chunk) ys chunks := by
      cases h with
      | cons h hr => exact ⟨h, hr⟩
    cases hy with
    | cons _ _ hy hys =>
      let u : St := { s with scope := s.scope.insert a.value (Macro.var [y]) }
      have hu : ∀ x, x ≠ a.value → u.scope x = sc x := fun x hx => by
        show (if (x == a.value) = true then _ else _) = _
        rw [if_neg (by simpa using hx)]
        exact hs x hx
      have h1 : Evals ext body u (.ok chunk) u := by
        refine fillsAll_evals ext ?_ h
        rintro x as (⟨i, v, h5, h6, rfl⟩ | ⟨h5, h6, h7⟩)
        · cases i with
          | zero =>
            simp only [List.getElem?_cons_zero, Option.some.injEq] at h5 h6
            subst h5 h6
            exact ⟨by simp [u, Scope.insert, Macro.var], .cons _ _ hy .nil⟩
          | succ i => simp at h5
        · exact ⟨(hu x (by simpa using h5)).trans h6, h7⟩
      obtain ⟨t, h2, h3⟩ := fills_loops ext u hys hu hr
      exact ⟨t, .item y ys chunk s u u t (.ok chunks.flatten) rfl h1 h2, h3⟩

end Seam
