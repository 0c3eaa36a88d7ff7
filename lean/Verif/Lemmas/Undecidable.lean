import Mathlib.Computability.Halting
import Mathlib.Computability.PartrecBasis
import Verif.Lemmas.CodeText

/-! What no program can decide. -/

namespace Seam
open Spec

theorem numeral_rep : ∀ n, numeral n = List.replicate (n + 1) '(' ++ List.replicate (n + 1) ')'
  | 0 => rfl
  | n + 1 => by
    rw [numeral, numeral_rep n, List.replicate_succ (n := n + 1), List.replicate_succ' (n := n + 1)]
    simp

/-- The numbers of the characters of the text. -/
theorem codes_primrec (before after : Str) : Primrec fun n => (before ++ numeral n ++ after).map Char.toNat := by
  have rep : ∀ k : Nat, Primrec fun n => List.replicate (n + 1) k := fun k =>
    (Primrec.list_map (g := fun _ _ => k) (Primrec.list_range.comp Primrec.succ) (Primrec.const k).to₂).of_eq fun n => by
      simp
  refine (Primrec.list_append.comp (Primrec.list_append.comp (Primrec.const (before.map Char.toNat))
    (Primrec.list_append.comp (rep 40) (rep 41))) (Primrec.const (after.map Char.toNat))).of_eq fun n => ?_
  rw [numeral_rep]
  simp

theorem chars_back (code : Str) : (code.map Char.toNat).map Char.ofNat = code := by
  induction code with
  | nil => rfl
  | cons c code ih => simp [Char.ofNat_toNat, ih]

/-- Whether the program with a number ends for nought. -/
def haltsAtZero : ℕ →. ℕ := fun n => (Nat.Partrec.Code.eval (Denumerable.ofNat Nat.Partrec.Code n) 0).map fun _ => 0

theorem haltsAtZero_partrec : Nat.Partrec haltsAtZero :=
  Partrec.nat_iff.1 (Partrec.map (Nat.Partrec.Code.eval_part.comp (Computable.ofNat Nat.Partrec.Code) (Computable.const 0)) (Computable.const 0).to₂)

theorem undecidable_of {p : Str → Prop} (before after : Str) (h : ∀ n, p (before ++ numeral n ++ after) ↔ (haltsAtZero n).Dom) :
    ¬ ComputablePred fun codes : List ℕ => p (codes.map Char.ofNat) := by
  rintro ⟨_, hc⟩
  refine ComputablePred.halting_problem 0 ⟨Classical.decPred _, ?_⟩
  have hk : Computable fun c : Nat.Partrec.Code => (before ++ numeral (Encodable.encode c) ++ after).map Char.toNat :=
    (codes_primrec before after).to_comp.comp Computable.encode
  refine (hc.comp hk).of_eq fun c => ?_
  rw [decide_eq_decide]
  show p (((before ++ numeral (Encodable.encode c) ++ after).map Char.toNat).map Char.ofNat) ↔ _
  rw [chars_back, h]
  simp [haltsAtZero]

end Seam
