import Verif.Lemmas.Sort
import Verif.Lemmas.Fill
import Verif.Props.Lists
import Verif.Props.Get
import Verif.Props.Fill
import Verif.Lemmas.Data
import Verif.Lemmas.Moved

/-! Lemmas about combinations of list macros. -/

namespace Seam
open Spec

theorem pairs_weaken {α β : Type} {R R' : α → β → Prop} (h : ∀ a b, R a b → R' a b) {as : List α} {bs : List β}
    (hp : Pairs R as bs) : Pairs R' as bs := by
  induction hp with
  | nil => exact .nil
  | cons h1 _ ih => exact .cons (h _ _ h1) ih

theorem sublist_eq {α : Type} {a b : List α} (h : a.Sublist b) (hp : b.Perm a) : b = a :=
  (h.eq_of_length hp.length_eq.symm).symm

/-- Two arrangements of the same elements that are both in order are equal. -/
theorem arranged_unique {α : Type} {R : α → α → Prop} : ∀ {as bs : List α}, as.Perm bs →
    (∀ a ∈ as, ∀ b ∈ as, R a b → R b a → a = b) → as.Pairwise R → bs.Pairwise R → as = bs
  | [], bs, hp, _, _, _ => by rw [hp.symm.eq_nil]
  | a :: as, [], hp, _, _, _ => by simpa using hp.length_eq
  | a :: as, b :: bs, hp, ha, h1, h2 => by
    have hab : a = b := by
      have ma : a ∈ b :: bs := hp.mem_iff.1 (by simp)
      have mb : b ∈ a :: as := hp.mem_iff.2 (by simp)
      rcases List.mem_cons.1 ma with h | h
      · exact h
      · rcases List.mem_cons.1 mb with h' | h'
        · exact h'.symm
        · exact ha a (by simp) b mb ((List.pairwise_cons.1 h1).1 b h') ((List.pairwise_cons.1 h2).1 a h)
    subst hab
    rw [arranged_unique ((List.perm_cons a).1 hp) (fun x hx y hy => ha x (by simp [hx]) y (by simp [hy]))
      (List.pairwise_cons.1 h1).2 (List.pairwise_cons.1 h2).2]

/-- `%sort` of literals without macros. -/
theorem sort_values {ext : Ext} {c : PNode} {args vs ns : List PNode} {xs : List Str} {si : Site} {e : Token} {w : Str}
    {order : Option Node} {s u : St} (hc : IsCall (str! "sort") args c) (ha : Evals ext args s (.ok vs) u)
    (hp : positional vs = [.list ns si e w]) (hn : NamedArgs SortOption vs) (ho : Given (str! "order") vs order)
    (hk : Given (str! "key") vs none) (hm : MacrosFree ns) (hx : Values ns xs) (hcmp : Comparable ext xs) :
    ∃ ms ys, Evals ext [c] s (.ok [.list ms si e c.lw]) u ∧ Values ms ys ∧ ms.map (·.lw) = ns.map (·.lw) ∧
      (ms.map bare).Perm (ns.map bare) ∧ ys.Perm xs ∧
      ys.Pairwise fun x y => if order.map (·.value) = some (str! "descending") then KeyLe ext y x else KeyLe ext x y := by
  have hlen : xs.length = ns.length := values_length hx
  have hxs : (xs.zip ns).map (·.1) = xs := List.map_fst_zip (by omega)
  have hns : (xs.zip ns).map (·.2) = ns := List.map_snd_zip (by omega)
  obtain ⟨ms, sorted, h1, h2, h3, h4, h5, _⟩ := C45_sorts_partial ext c args vs ns si e w order none (xs.zip ns) s u u hc ha hp hn
    ho hk (keyed_plain u hm hx) (by rw [hxs]; exact hcmp)
  have hv : ∀ a ∈ sorted, ∃ b, Literal a.2 b ∧ b.value = a.1 := fun a ha => values_zip hx a (h4.mem_iff.1 ha)
  refine ⟨ms, sorted.map (·.1), h1, values_bare h2 hv, h3, ?_, ?_, ?_⟩
  · rw [h2, ← hns, List.map_map]
    exact h4.map _
  · rw [← hxs]
    exact h4.map _
  · rw [List.pairwise_map]
    exact h5

theorem values_unique : ∀ {ns : List PNode} {xs ys : List Str}, Values ns xs → Values ns ys → xs = ys
  | [], _, _, h1, h2 => by cases h1; cases h2; rfl
  | n :: ns, _, _, h1, h2 => by
    obtain ⟨x, xs, ⟨a, h3, h4⟩, h, rfl⟩ := pairs_cons h1
    obtain ⟨y, ys, ⟨b, h5, h6⟩, h', rfl⟩ := pairs_cons h2
    have : a = b := Option.some.inj ((literal_atomic h3).symm.trans (literal_atomic h5))
    rw [← h4, ← h6, this, values_unique h h']

theorem macroFree_setLw {n : PNode} {w : Str} (h : MacroFree n) : MacroFree (n.setLw w) := by
  cases h with
  | symbol a h => exact .symbol _ h
  | number a => exact .number _
  | string a => exact .string _
  | raw a => exact .raw _
  | list ns s e w h => exact .list _ _ _ _ h
  | attr k n s w h => exact .attr _ _ _ _ h

theorem macroFree_of_setLw {n : PNode} {w : Str} (h : MacroFree (n.setLw w)) : MacroFree n := by
  have := macroFree_setLw (w := n.lw) h
  have e : (n.setLw w).setLw n.lw = n := by cases n <;> rfl
  rwa [e] at this

theorem macrosFree_perm {ns ms : List PNode} (h : (ms.map bare).Perm (ns.map bare)) (hf : MacrosFree ns) : MacrosFree ms := by
  have key : ∀ ks : List PNode, (∀ k ∈ ks, MacroFree k) → MacrosFree ks := by
    intro ks
    induction ks with
    | nil => exact fun _ => .nil
    | cons k ks ih => exact fun h => .cons _ _ (h k (by simp)) (ih fun x hx => h x (by simp [hx]))
  refine key ms fun m hm => ?_
  have : bare m ∈ ns.map bare := h.mem_iff.1 (List.mem_map_of_mem hm)
  obtain ⟨n, hn, hb⟩ := List.mem_map.1 this
  refine macroFree_of_setLw (w := []) ?_
  show MacroFree (bare m)
  rw [← hb]
  exact macroFree_setLw (macrosFree_mem hf hn)

theorem numeral_no_slash {x : Str} {i : Nat} (h : Numeral x i) : ∀ a b, x ≠ a ++ ['/'] ++ b := by
  obtain ⟨ds, hx, _, hd, _⟩ := h
  intro a b hab
  have hm : '/' ∈ x := by rw [hab]; simp
  have hs : '/' ∉ ds := fun hm => by
    have := hd _ hm
    exact absurd this (by decide)
  rcases hx with rfl | rfl
  · exact hs hm
  · rcases List.mem_cons.1 hm with h | h
    · exact absurd h (by decide)
    · exact hs h

mutual
theorem fills_weaken {g g' : Str → List PNode → Prop} (h : ∀ x vs, g x vs → g' x vs) : ∀ {n : PNode} {out : List PNode},
    Fills g n out → Fills g' n out
  | _, _, .var a x vs ha hx => .var a x vs ha (h x vs hx)
  | _, _, .symbol a ha => .symbol a ha
  | _, _, .number a => .number a
  | _, _, .string a => .string a
  | _, _, .raw a => .raw a
  | _, _, .list ns ms si e w hh h' => .list ns ms si e w hh (fillsAll_weaken h h')
  | _, _, .attr k n m ms si w h' => .attr k n m ms si w (fills_weaken h h')
theorem fillsAll_weaken {g g' : Str → List PNode → Prop} (h : ∀ x vs, g x vs → g' x vs) : ∀ {ns out : List PNode},
    FillsAll g ns out → FillsAll g' ns out
  | _, _, .nil => .nil
  | _, _, .cons _ _ _ _ h1 h2 => .cons _ _ _ _ (fills_weaken h h1) (fillsAll_weaken h h2)
end

/-- Calling a macro with one parameter and a template as its body on each of some values. -/
theorem fills_calls (ext : Ext) {a : Node} {f : Str} {c : PNode} {body : List PNode} (hb : builtin? f = none)
    (ha : ∀ r, a.value ≠ '&' :: r) : ∀ {ys : List PNode} {chunks : List (List PNode)} (s : St),
    MacrosFree ys → NoNamed ys → Fair s.order → s.scope f = some { params := [.symbol a], body := body } →
    Pairs (fun y chunk => FillsAll (GivenArgs s.scope [a.value] [y]) body chunk) ys chunks →
    ∃ t, Calls ext f c ys s (.ok chunks) t ∧ t.scope = s.scope ∧ SameEffects s t
  | [], _, s, _, _, _, _, h => by
    cases h
    exact ⟨s, .nil s, rfl, rfl, rfl, rfl⟩
  | y :: ys, [], _, _, _, _, _, h => by cases h
  | y :: ys, chunk :: chunks, s, hy, hn, hf, hm, h => by
    have ⟨h, hr⟩ : FillsAll (GivenArgs s.scope [a.value] [y]) body chunk ∧
        Pairs (fun y chunk => FillsAll (GivenArgs s.scope [a.value] [y]) body chunk) ys chunks := by
      cases h with
      | cons h hr => exact ⟨h, hr⟩
    cases hy with
    | cons _ _ hy hys =>
      have hp : NameParams [.symbol a] [a.value] := .cons _ _ _ ha .nil
      have hny : NoNamed [y] := fun v hv => hn v (by simp at hv; simp [hv])
      have hev : Evals ext [y] s (.ok [y]) s := macrosFree_evals ext [y] (.cons _ _ hy .nil) s
      obtain ⟨sc, hsc⟩ := (matches_count _ [y] [a.value] s.scope hp).2 ⟨hny, rfl⟩
      rcases bindList_cases c [.symbol a] [y] s hf with ⟨v, h1, h2, h3⟩ | ⟨e, v, _, h2, _⟩
      · obtain ⟨h4, h5⟩ := matches_bound _ [y] [a.value] _ _ hp (by simp) h2
        have h6 : Evals ext body v (.ok chunk) v := by
          refine fillsAll_evals ext ?_ h
          rintro x as (⟨i, w, h7, h8, rfl⟩ | ⟨h7, h8, h9⟩)
          · refine ⟨h4 i x w h7 h8, .cons _ _ ?_ .nil⟩
            have := List.mem_of_getElem? h8
            simp at this
            rw [this]
            exact hy
          · exact ⟨(h5 x h7).trans h8, h9⟩
        have h7 : Invokes ext f c [y] s (.ok chunk) { v with scope := s.scope } :=
          (invokes_user_ok hb hev hm h1).2 ⟨v, h6, rfl⟩
        obtain ⟨t, h8, h9, h10⟩ := fills_calls ext (c := c) hb ha { v with scope := s.scope } hys (fun v hv => hn v (by simp [hv]))
          (by show Fair v.order; rw [h3.2.2]; exact hf) hm hr
        exact ⟨t, .cons _ _ _ _ _ _ _ h7 h8, h9, h10.1.trans h3.1, h10.2.1.trans h3.2.1, h10.2.2.trans h3.2.2⟩
      · exact absurd hsc (h2 sc)

end Seam
