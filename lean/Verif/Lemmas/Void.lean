import Verif.Spec.Markup
import Verif.Model.Assemble

/-! The binary search in the table of void elements. -/

namespace Seam
open Spec

theorem strCmp_eq : ∀ (a b : Str), strCmp a b = .eq ↔ a = b
  | [], [] => by simp [strCmp]
  | [], _ :: _ => by simp [strCmp]
  | _ :: _, [] => by simp [strCmp]
  | a :: as, b :: bs => by
    rw [strCmp]
    by_cases h1 : a.toNat < b.toNat
    · simp only [h1, if_true, reduceCtorEq, List.cons.injEq, false_iff]
      rintro ⟨rfl, _⟩; omega
    · by_cases h2 : b.toNat < a.toNat
      · simp only [h1, h2, if_true, if_false, reduceCtorEq, List.cons.injEq, false_iff]
        rintro ⟨rfl, _⟩; omega
      · have h : a = b := Char.ext (UInt32.toNat_inj.1 (by
          have e : a.toNat = b.toNat := by omega
          exact e))
        subst h
        simp [strCmp_eq]

theorem strCmp_swap : ∀ (a b : Str), strCmp b a = (strCmp a b).swap
  | [], [] => rfl
  | [], _ :: _ => rfl
  | _ :: _, [] => rfl
  | a :: as, b :: bs => by
    rw [strCmp, strCmp]
    by_cases h1 : a.toNat < b.toNat
    · have : ¬ b.toNat < a.toNat := by omega
      simp [h1, this, Ordering.swap]
    · by_cases h2 : b.toNat < a.toNat
      · simp [h1, h2, Ordering.swap]
      · simp [h1, h2, strCmp_swap as bs]

/-- Strictly ascending. -/
def Ascending (v : List Str) : Prop := v.Pairwise fun a b => strCmp a b = .lt

theorem binLoop_spec {v : List Str} (hv : Ascending v) {x : Str} {i : Nat} (hi : v[i]? = some x) :
    ∀ (fuel size base : Nat), size ≤ fuel → 1 ≤ size → base ≤ i → i < base + size → base + size ≤ v.length →
      binLoop v x fuel size base = i
  | 0, size, base, h, h1, _, _, _ => by omega
  | fuel + 1, size, base, h, h1, hb, hs, hl => by
    rw [binLoop]
    by_cases hsz : size > 1
    · simp only [hsz, if_true]
      have hmid : base + size / 2 < v.length := by omega
      rw [List.getElem?_eq_getElem hmid]
      obtain ⟨hi', hx⟩ := List.getElem?_eq_some_iff.1 hi
      simp only []
      by_cases hgt : strCmp v[base + size / 2] x = .gt
      · simp only [hgt, beq_self_eq_true, if_true]
        apply binLoop_spec hv hi
        · omega
        · omega
        · exact hb
        · have : i < base + size / 2 := by
            apply Classical.byContradiction; intro hn
            rcases Nat.lt_or_ge (base + size / 2) i with hlt | hge
            · have := List.pairwise_iff_getElem.1 hv _ _ hmid hi' hlt
              rw [hx, hgt] at this; cases this
            · have he : i = base + size / 2 := by omega
              subst he
              rw [hx, (strCmp_eq x x).2 rfl] at hgt; cases hgt
          omega
        · omega
      · have hne : (strCmp v[base + size / 2] x == Ordering.gt) = false := by simp [hgt]
        simp only [hne, Bool.false_eq_true, if_false]
        apply binLoop_spec hv hi
        · omega
        · omega
        · apply Classical.byContradiction; intro hn
          have := List.pairwise_iff_getElem.1 hv _ _ hi' hmid (by omega)
          rw [hx] at this
          apply hgt
          rw [strCmp_swap, this]; rfl
        · omega
        · omega
    · simp only [hsz, if_false]
      omega

theorem binarySearch_iff {v : List Str} (hv : Ascending v) (x : Str) : binarySearch v x = true ↔ x ∈ v := by
  constructor
  · intro h
    unfold binarySearch at h
    split at h
    · rename_i m hm
      simp only [beq_iff_eq] at h
      rw [strCmp_eq] at h
      subst h
      exact List.mem_of_getElem? hm
    · cases h
  · intro h
    obtain ⟨i, hi, hx⟩ := List.getElem_of_mem h
    have h2 : v[i]? = some x := by rw [List.getElem?_eq_getElem hi, hx]
    have := binLoop_spec hv h2 v.length v.length 0 (Nat.le_refl _) (by omega) (by omega) (by omega) (by omega)
    unfold binarySearch
    rw [this, h2]
    simp [(strCmp_eq x x).2 rfl]

theorem voidElements_ascending : Ascending voidElements := by
  unfold Ascending voidElements
  decide

theorem void_iff (x : Str) : binarySearch voidElements x = decide (x ∈ voidNames) := by
  have h := binarySearch_iff voidElements_ascending x
  have : voidElements = voidNames := rfl
  rw [this] at h
  cases hb : binarySearch voidElements x with
  | true => rw [this] at hb; simp [h.1 hb]
  | false =>
    symm
    simp only [decide_eq_false_iff_not]
    intro hm
    rw [this] at hb
    rw [h.2 hm] at hb; cases hb

end Seam
