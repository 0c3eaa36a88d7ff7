import Verif.Lemmas.Date

/-! A parser of fixed-point numbers as it is assumed in C57 (so the assumption can be met). -/

namespace Seam
open Spec

/-- The sign and the rest. -/
def splitSign : Str → Int × Str
  | '+' :: r => (1, r)
  | '-' :: r => (-1, r)
  | r => (1, r)

/-- The numerator and the number of digits after the point. -/
def decodeDecimal (text : Str) : Int × Nat :=
  let (z, r) := splitSign text
  let ip := r.takeWhile (· ≠ '.')
  let fp := (r.dropWhile (· ≠ '.')).drop 1
  (z * digitsValue (ip ++ fp), fp.length)

/-- The nearest multiple of 2^-32. -/
def nearestFixed (text : Str) : Option Int :=
  let (n, k) := decodeDecimal text
  some ((2 * (n * 2 ^ 32) + 10 ^ k) / (2 * 10 ^ k))

theorem splitSign_sign {s : Str} {z : Int} (h : Sign s z) (r : Str) (hr : ∀ c ∈ r.head?, c ≠ '+' ∧ c ≠ '-') :
    splitSign (s ++ r) = (z, r) := by
  cases h with
  | none =>
    cases r with
    | nil => rfl
    | cons c cs =>
      have := hr c (by simp)
      simp only [List.nil_append]
      unfold splitSign
      split
      · rename_i h; cases h; exact absurd rfl this.1
      · rename_i h; cases h; exact absurd rfl this.2
      · rfl
  | plus => rfl
  | minus => rfl

theorem digit_not {c : Char} (h : '0'.toNat ≤ c.toNat ∧ c.toNat ≤ '9'.toNat) : c ≠ '+' ∧ c ≠ '-' ∧ c ≠ '.' := by
  refine ⟨?_, ?_, ?_⟩ <;> (rintro rfl; revert h; decide)

theorem decode_decimal {text : Str} {n : Int} {k : Nat} (h : Decimal text n k) : decodeDecimal text = (n, k) := by
  have hd : ∀ ip : Str, Digits ip → ∀ c ∈ ip, c ≠ '.' := fun ip h c hc => (digit_not (h c hc)).2.2
  cases h with
  | whole s ip z hs hi hne =>
    have h1 : splitSign (s ++ ip) = (z, ip) := splitSign_sign hs ip (fun c hc => by
      have := digit_not (hi c (List.mem_of_mem_head? hc))
      exact ⟨this.1, this.2.1⟩)
    have h2 : ip.takeWhile (fun c => decide (c ≠ '.')) = ip := by
      have := List.takeWhile_append_of_pos (p := fun c => decide (c ≠ '.')) (l₂ := []) (fun c hc => by simpa using hd ip hi c hc)
      simpa using this
    have h3 : ip.dropWhile (fun c => decide (c ≠ '.')) = [] := by
      have := List.dropWhile_append_of_pos (p := fun c => decide (c ≠ '.')) (l₂ := []) (fun c hc => by simpa using hd ip hi c hc)
      simpa using this
    simp only [decodeDecimal, h1, h2, h3]
    simp
  | point s ip fp z hs hi hf hne =>
    have h1 : splitSign (s ++ ip ++ '.' :: fp) = (z, ip ++ '.' :: fp) := by
      rw [List.append_assoc]
      refine splitSign_sign hs _ (fun c hc => ?_)
      cases ip with
      | nil => simp at hc; subst hc; decide
      | cons d ds =>
        simp at hc; subst hc
        have := digit_not (hi d (by simp))
        exact ⟨this.1, this.2.1⟩
    have h2 : (ip ++ '.' :: fp).takeWhile (fun c => decide (c ≠ '.')) = ip := by
      rw [List.takeWhile_append_of_pos (fun c hc => by simpa using hd ip hi c hc)]
      simp
    have h3 : (ip ++ '.' :: fp).dropWhile (fun c => decide (c ≠ '.')) = '.' :: fp := by
      rw [List.dropWhile_append_of_pos (fun c hc => by simpa using hd ip hi c hc)]
      simp
    simp only [decodeDecimal, h1, h2, h3]
    simp

/-- The assumption on the parser of fixed-point numbers can be met. -/
theorem nearestFixed_nearest : NearestFixed nearestFixed := by
  intro text n k h _
  refine ⟨_, by rw [nearestFixed, decode_decimal h], ?_⟩
  have hP := pow10_pos k
  generalize (10 : Int) ^ k = P at *
  have h1 := Int.emod_add_mul_ediv (2 * (n * 2 ^ 32) + P) (2 * P)
  have h2 := Int.emod_nonneg (2 * (n * 2 ^ 32) + P) (show 2 * P ≠ 0 by omega)
  have h3 := Int.emod_lt_of_pos (2 * (n * 2 ^ 32) + P) (show 0 < 2 * P by omega)
  generalize (2 * (n * 2 ^ 32) + P) % (2 * P) = m at *
  generalize (2 * (n * 2 ^ 32) + P) / (2 * P) = q at *
  have : 2 * P * q = 2 * (q * P) := by rw [Int.mul_assoc, Int.mul_comm P]
  rw [this] at h1
  generalize q * P = X at *
  omega

end Seam
