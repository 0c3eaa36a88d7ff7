import Verif.Spec.Arena

/-! # The store of macro-call nodes -/

namespace Seam
open Spec

theorem VecState.push_len (v : VecState) : v.push.len = v.len + 1 := by unfold push; split <;> rfl

theorem VecState.pushes_len (v : VecState) : ∀ n, (v.pushes n).len = v.len + n
  | 0 => rfl
  | n + 1 => by rw [pushes, push_len, pushes_len v n]; omega

/-- While there is room nothing moves. -/
theorem VecState.pushes_room (v : VecState) : ∀ n, v.len + n ≤ v.cap → v.pushes n = { v with len := v.len + n }
  | 0, _ => rfl
  | n + 1, h => by
    rw [pushes, pushes_room v n (by omega), push, if_pos (by show v.len + n < v.cap; omega)]
    rfl

theorem VecState.push_alloc (v : VecState) : v.alloc ≤ v.push.alloc ∧ v.cap ≤ v.push.cap := by
  unfold push
  split
  · exact ⟨Nat.le_refl _, Nat.le_refl _⟩
  · exact ⟨Nat.le_succ _, by show v.cap ≤ max (2 * v.cap) 4; omega⟩

theorem VecState.pushes_alloc (v : VecState) : ∀ n, v.alloc ≤ (v.pushes n).alloc
  | 0 => Nat.le_refl _
  | n + 1 => Nat.le_trans (v.pushes_alloc n) (push_alloc _).1

theorem VecState.pushes_full (v : VecState) (hv : v.len ≤ v.cap) : ∀ n, v.cap < v.len + n → v.alloc < (v.pushes n).alloc
  | 0, h => by omega
  | n + 1, h => by
    rw [pushes]
    by_cases h1 : v.cap < v.len + n
    · exact Nat.lt_of_lt_of_le (v.pushes_full hv n h1) (push_alloc _).1
    · rw [pushes_room v n (by omega), push, if_neg (by show ¬ (v.len + n < v.cap); omega)]
      exact Nat.lt_succ_self _

theorem VecState.push_fits (v : VecState) (hv : v.len ≤ v.cap) : v.push.len ≤ v.push.cap := by
  unfold push
  split
  · show v.len + 1 ≤ v.cap; omega
  · show v.len + 1 ≤ max (2 * v.cap) 4; omega

theorem ref_valid_iff (v : VecState) (hv : v.len ≤ v.cap) (n : Nat) :
    v.register.2.valid (v.register.1.pushes n) ↔ v.register.1.len + n ≤ v.register.1.cap := by
  have hf := v.push_fits hv
  constructor
  · intro h
    apply Classical.byContradiction
    intro hc
    have h1 := VecState.pushes_full v.push hf n (by simpa [VecState.register] using hc)
    have h2 : v.push.alloc = (v.push.pushes n).alloc := h.1
    omega
  · intro h
    have : v.register.1.pushes n = { v.register.1 with len := v.register.1.len + n } := VecState.pushes_room _ n h
    rw [this]
    refine ⟨rfl, ?_⟩
    show v.push.len - 1 < v.push.len + n
    rw [VecState.push_len]
    omega

theorem VecState.pushes_succ (v : VecState) : ∀ n, v.pushes (n + 1) = v.push.pushes n
  | 0 => rfl
  | n + 1 => by rw [pushes, pushes_succ v n]; rfl

theorem VecState.pushes_add (v : VecState) (m : Nat) : ∀ n, v.pushes (m + n) = (v.pushes m).pushes n
  | 0 => rfl
  | n + 1 => by rw [← Nat.add_assoc, pushes, pushes_add v m n]; rfl

theorem symbolLists_list (ns : List PNode) (s : Site) (e : Token) (w : Str) :
    symbolLists (.list ns s e w) = (if symbolHead ns then 1 else 0) + symbolListsIn ns := by
  cases ns with
  | nil => simp [symbolLists, symbolHead]
  | cons n ns => cases n <;> simp [symbolLists, symbolHead]

mutual
theorem expandReg_eq (v : VecState) : ∀ n : PNode, expandReg v n = (v.pushes (symbolLists n), [n])
  | .list ns s e w => by
    rw [expandReg, symbolLists_list]
    simp only [expandRegs_eq _ ns]
    refine Prod.ext ?_ rfl
    show (if symbolHead ns = true then v.register.1 else v).pushes _ = v.pushes _
    split
    · rw [Nat.add_comm, VecState.pushes_succ]
      rfl
    · rw [Nat.zero_add]
  | .attr k n s w => by
    rw [expandReg, expandReg_eq v n, symbolLists]
  | .symbol n => rfl
  | .number n => rfl
  | .string n => rfl
  | .raw n => rfl
theorem expandRegs_eq (v : VecState) : ∀ ns : List PNode, expandRegs v ns = (v.pushes (symbolListsIn ns), ns)
  | [] => rfl
  | n :: ns => by
    rw [expandRegs, expandReg_eq v n]
    simp only [expandRegs_eq _ ns]
    rw [← VecState.pushes_add]
    rfl
end

theorem callRefs_valid (v : VecState) (hv : v.len ≤ v.cap) (args : List PNode) :
    (callRefs v args).2.valid (callRefs v args).1 ↔ v.register.1.len + symbolListsIn args ≤ v.register.1.cap := by
  unfold callRefs
  simp only [expandRegs_eq]
  exact ref_valid_iff v hv _

end Seam
