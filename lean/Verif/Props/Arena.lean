import Verif.Lemmas.Arena
import Verif.Props.Lists

/-!
# The node of a macro call during its expansion (C61)

A macro is handed a reference to its call's node in a growing vector of the expander.
`callRefs v args` (Model/Arena) is what a macro such as `%list` has in hand after it has
expanded its arguments: the vector, and the reference.
-/

namespace Seam
open Spec

/-- C61: the reference is still valid after the expansion of arguments without macros iff the
vector had room for all nodes registered meanwhile: one for each list that starts with a symbol. -/
theorem C61_valid_partial (v : VecState) (args : List PNode) (hv : v.len ≤ v.cap) :
    (callRefs v args).2.valid (callRefs v args).1 ↔
      (if v.len < v.cap then v.len + 1 + symbolListsIn args ≤ v.cap else v.len + 1 + symbolListsIn args ≤ max (2 * v.cap) 4) := by
  refine (callRefs_valid v hv args).trans ?_
  show v.push.len + _ ≤ v.push.cap ↔ _
  rw [VecState.push_len]
  unfold VecState.push
  split <;> exact Iff.rfl

/-- C61: in the body of a macro, a `%for` or a `%match`, which works on a copy of the vector that
has no room to spare, that is so iff twice the registered nodes are enough. -/
theorem C61_copy_partial (v : VecState) (alloc : Nat) (args : List PNode) :
    (callRefs (v.clone alloc) args).2.valid (callRefs (v.clone alloc) args).1 ↔
      v.len + 1 + symbolListsIn args ≤ max (2 * v.len) 4 := by
  rw [C61_valid_partial _ _ (Nat.le_refl _)]
  show (if v.len < v.len then _ else v.len + 1 + _ ≤ max (2 * v.len) 4) ↔ _
  rw [if_neg (Nat.lt_irrefl _)]

/-- C61 is false: in the first macro call of a program, here `(%list (a) (a) ...)` with four or
more lists as arguments, the reference is used after the vector has moved. -/
theorem C61_first_call_false (n : Nat) (hn : 4 ≤ n) :
    ¬ (callRefs .new (List.replicate n (exList [exSym ['a']]))).2.valid (callRefs .new (List.replicate n (exList [exSym ['a']]))).1 := by
  have hr : ∀ n, symbolListsIn (List.replicate n (exList [exSym ['a']])) = n := by
    intro n
    induction n with
    | zero => rfl
    | succ n ih =>
      rw [List.replicate_succ, symbolListsIn, ih, show symbolLists (exList [exSym ['a']]) = 1 from rfl]
      omega
  rw [C61_valid_partial _ _ (by decide), hr, if_neg (by decide)]
  show ¬ (0 + 1 + n ≤ max (2 * 0) 4)
  omega

/-- C61 is false in every context: however large the vector is, there are arguments for which the
reference dangles. -/
theorem C61_every_context_false (v : VecState) (hv : v.len ≤ v.cap) : ∃ args, MacrosFree args ∧
    ¬ (callRefs v args).2.valid (callRefs v args).1 := by
  have hr : ∀ n, symbolListsIn (List.replicate n (exList [exSym ['a']])) = n := by
    intro n
    induction n with
    | zero => rfl
    | succ n ih =>
      rw [List.replicate_succ, symbolListsIn, ih, show symbolLists (exList [exSym ['a']]) = 1 from rfl]
      omega
  have hm : ∀ n, MacrosFree (List.replicate n (exList [exSym ['a']])) := by
    intro n
    induction n with
    | zero => exact .nil
    | succ n ih => exact .cons _ _ (.list _ _ _ _ (.cons _ _ (.symbol _ (fun _ h => by cases h)) .nil)) ih
  refine ⟨List.replicate (2 * v.cap + 4) (exList [exSym ['a']]), hm _, ?_⟩
  rw [C61_valid_partial _ _ hv, hr]
  split <;> omega

/-- Up to three lists are fine in the first call; the four lists of the theorem above are not. -/
example : (callRefs .new [exList [exSym ['a']], exList [exSym ['b']], exSym ['c']]).2.valid
    (callRefs .new [exList [exSym ['a']], exList [exSym ['b']], exSym ['c']]).1 :=
  (C61_valid_partial _ _ (by decide)).2 (by decide)

end Seam
