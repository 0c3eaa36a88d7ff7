import Verif.Model.Site
import Verif.Lemmas.Lexer

/-! Helper lemmas: byte slices at character boundaries. -/

namespace Seam
open Spec

theorem utf8Size_pos (c : Char) : 0 < c.utf8Size := Char.utf8Size_pos c

theorem dropBytes_append (a b : Str) : dropBytes (a ++ b) (blen a) = some b := by
  induction a with
  | nil => cases b <;> rfl
  | cons c a ih =>
    have hp := utf8Size_pos c
    obtain ⟨k, hk⟩ : ∃ k, blen (c :: a) = k + 1 := ⟨c.utf8Size + blen a - 1, by simp; omega⟩
    rw [List.cons_append, hk, dropBytes, ← hk]
    rw [if_pos (by simp)]
    simp [ih]

theorem takeBytes_append (a b : Str) : takeBytes (a ++ b) (blen a) = some a := by
  induction a with
  | nil => cases b <;> rfl
  | cons c a ih =>
    have hp := utf8Size_pos c
    obtain ⟨k, hk⟩ : ∃ k, blen (c :: a) = k + 1 := ⟨c.utf8Size + blen a - 1, by simp; omega⟩
    rw [List.cons_append, hk, takeBytes, ← hk]
    rw [if_pos (by simp)]
    simp [ih]

theorem sliceBytes_append (a b c : Str) :
    sliceBytes (a ++ (b ++ c)) (blen a) (blen a + blen b) = some b := by
  unfold sliceBytes
  rw [if_pos (by omega), dropBytes_append]
  simp [takeBytes_append]


end Seam
