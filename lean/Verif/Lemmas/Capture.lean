import Verif.Lemmas.Looks
import Verif.Lemmas.Call
import Verif.Spec.Capture

/-! Calls of a macro in two places. -/

namespace Seam
open Spec

theorem nameParam_plain {a : Node} (ha : ∀ r, a.value ≠ '&' :: r) : isKwRest (.symbol a) = false ∧ isRest (.symbol a) = false := by
  rcases hv : a.value with _ | ⟨c, cs⟩
  · constructor <;> simp [isKwRest, isRest, PNode.symbol?, hv, startsWith]
  · have hc : c ≠ '&' := by rintro rfl; exact ha _ hv
    constructor <;> simp [isKwRest, isRest, PNode.symbol?, hv, startsWith, List.isPrefixOf, Ne.symm hc]

theorem bindLoop_names (d : PNode) {ps : List PNode} {xs : List Str} (hp : NameParams ps xs) : ∀ (vs : List PNode) (n : Nat) (w : St),
    NoNamed vs → vs.length = xs.length →
    bindLoop d { rest := none, kwRest := none, expected := n, rhs := [], lhs := [] } ps vs w =
      (.ok (), { w with scope := given xs vs w.scope }) := by
  induction hp with
  | nil =>
    intro vs n w _ hl
    cases vs with
    | nil => rfl
    | cons v vs => simp at hl
  | cons a ps xs ha hp ih =>
    intro vs n w hn hl
    cases vs with
    | nil => simp at hl
    | cons v vs =>
      have hv := hn v List.mem_cons_self
      have hs : skipNamed [] (v :: vs) = ([], v :: vs) := by
        cases v <;> first | rfl | simp [PNode.attribute?] at hv
      obtain ⟨h1, h2⟩ := nameParam_plain ha
      simp only [bindLoop, h1, h2, hs, Bool.false_eq_true, if_false]
      have e : bind (.symbol a) v w = (.ok (), { w with scope := w.scope.insert a.value (Macro.var [v]) }) := by
        simp only [bind]
        rfl
      rw [M.bind_ok e]
      rw [ih vs _ _ (fun v hv => hn v (List.mem_cons_of_mem _ hv)) (by simpa using hl)]
      have e : w.scope.insert a.value (Macro.var [v]) = bound w.scope a.value [v] := by
        funext x
        simp [Scope.insert, bound, Macro.var]
      simp only [e, given]

theorem given_agree : ∀ (xs : List Str) (vs : List PNode) (sc sc' : Scope) (x : Str), vs.length = xs.length → (x ∉ xs → sc' x = sc x) →
    given xs vs sc' x = given xs vs sc x
  | [], _, _, _, _, _, h => h (by simp)
  | y :: xs, [], _, _, _, hl, _ => by simp at hl
  | y :: xs, v :: vs, sc, sc', x, hl, h => by
    refine given_agree xs vs _ _ x (by simpa using hl) fun hx => ?_
    simp only [bound]
    split
    · rfl
    · exact h (by simp_all)

end Seam
