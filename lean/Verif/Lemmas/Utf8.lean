import Verif.Lemmas.Slices

/-! Helper lemmas: the bytes of UTF-8 text. -/

namespace Seam
open Spec

/-- ASCII characters are one byte with their number; others are a lead byte and
continuation bytes, all at least 128. -/
theorem encode_cases (c : Char) :
    (c.toNat < 128 ∧ String.utf8EncodeChar c = [UInt8.ofNat c.toNat]) ∨
    (128 ≤ c.toNat ∧ ∃ b bs, String.utf8EncodeChar c = b :: bs ∧ 192 ≤ b.toNat ∧
      bs ≠ [] ∧ ∀ x ∈ bs, 128 ≤ x.toNat ∧ x.toNat < 192) := by
  unfold String.utf8EncodeChar Char.toNat
  generalize c.val.toNat = v
  by_cases h1 : v ≤ 127
  · left
    simp [h1]; omega
  · right
    refine ⟨by omega, ?_⟩
    simp only [h1, if_false]
    by_cases h2 : v ≤ 2047
    · refine ⟨_, _, by rw [if_pos h2], ?_, by simp, ?_⟩
      · simp; omega
      · intro x hx
        simp only [List.mem_singleton] at hx
        subst hx
        simp; omega
    · by_cases h3 : v ≤ 65535
      · refine ⟨_, _, by rw [if_neg h2, if_pos h3], ?_, by simp, ?_⟩
        · simp; omega
        · intro x hx
          simp only [List.mem_cons, List.not_mem_nil, or_false] at hx
          rcases hx with rfl | rfl <;> (simp; omega)
      · refine ⟨_, _, by rw [if_neg h2, if_neg h3], ?_, by simp, ?_⟩
        · simp; omega
        · intro x hx
          simp only [List.mem_cons, List.not_mem_nil, or_false] at hx
          rcases hx with rfl | rfl | rfl <;> (simp; omega)

@[simp] theorem bytesOf_nil : bytesOf [] = [] := rfl
@[simp] theorem bytesOf_cons (c : Char) (s : Str) : bytesOf (c :: s) = String.utf8EncodeChar c ++ bytesOf s := rfl
@[simp] theorem bytesOf_append (a b : Str) : bytesOf (a ++ b) = bytesOf a ++ bytesOf b := by
  induction a with
  | nil => rfl
  | cons c a ih => simp [ih]
@[simp] theorem bytesOf_length (a : Str) : (bytesOf a).length = blen a := by
  induction a with
  | nil => rfl
  | cons c a ih => simp [ih]

/-- An ASCII byte occurs only as the encoding of its character. -/
theorem mem_encode_ascii {c : Char} {b : UInt8} (hb : b.toNat < 128) (h : b ∈ String.utf8EncodeChar c) :
    c.toNat = b.toNat := by
  rcases encode_cases c with ⟨h1, h2⟩ | ⟨h1, x, xs, h2, h3, _, h4⟩
  · rw [h2, List.mem_singleton] at h
    rw [h]
    simp; omega
  · rw [h2, List.mem_cons] at h
    rcases h with rfl | h
    · omega
    · have := h4 b h; omega

theorem char_of_toNat {c d : Char} (h : c.toNat = d.toNat) : c = d := by
  apply Char.ext
  apply UInt32.toNat_inj.1
  exact h

theorem newline_not_mem_encode {c : Char} (hc : c ≠ '\n') : (10 : UInt8) ∉ String.utf8EncodeChar c := by
  intro h
  have := mem_encode_ascii (b := 10) (by decide) h
  exact hc (char_of_toNat (d := '\n') (by rw [this]; rfl))

theorem eolLoop_skip (i : Nat) (bs : List UInt8) (r : List UInt8) (h : (10 : UInt8) ∉ bs) :
    eolLoop i (bs ++ r) = eolLoop (i + bs.length) r := by
  induction bs generalizing i with
  | nil => simp
  | cons b bs ih =>
    simp only [List.mem_cons, not_or] at h
    rw [List.cons_append, eolLoop, if_neg (Ne.symm h.1), ih _ h.2]
    simp only [List.length_cons]
    congr 1
    omega

/-- The line that a text starts with. -/
theorem eolLoop_line (i : Nat) (s : Str) : eolLoop i (bytesOf s) = i + blen (s.takeWhile (· != '\n')) := by
  induction s generalizing i with
  | nil => rfl
  | cons c s ih =>
    by_cases hc : c = '\n'
    · subst hc
      have : String.utf8EncodeChar '\n' = [10] := by decide
      simp [this, eolLoop]
    · rw [bytesOf_cons, eolLoop_skip _ _ _ (newline_not_mem_encode hc), ih]
      simp [hc]; omega

end Seam
