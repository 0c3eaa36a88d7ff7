import Verif.Spec.Builtins

/-!
# Decimal numbers of hours (specification)
-/

namespace Seam.Spec

/-- The number written with these digits. -/
def digitsValue (ds : Str) : Nat := ds.foldl (fun n c => 10 * n + (c.toNat - '0'.toNat)) 0

def Digits (ds : Str) : Prop := ∀ c ∈ ds, '0'.toNat ≤ c.toNat ∧ c.toNat ≤ '9'.toNat

/-- An optional sign and the factor it stands for. -/
inductive Sign : Str → Int → Prop
  | none : Sign [] 1
  | plus : Sign ['+'] 1
  | minus : Sign ['-'] (-1)

/-- The text is a decimal number with `k` digits after the point; its value is `n / 10^k`. -/
inductive Decimal : Str → Int → Nat → Prop
  | whole (s ip : Str) (z : Int) : Sign s z → Digits ip → ip ≠ [] → Decimal (s ++ ip) (z * digitsValue ip) 0
  | point (s ip fp : Str) (z : Int) : Sign s z → Digits ip → Digits fp → ip ++ fp ≠ [] →
      Decimal (s ++ ip ++ '.' :: fp) (z * digitsValue (ip ++ fp)) fp.length

/-- What is assumed of the parser of fixed-point numbers (crate `fixed`, type `I32F32`): it
accepts decimal numbers between -2^30 and 2^30 and delivers the multiple of 2^-32 (or one of
the two multiples) nearest to the number. -/
def NearestFixed (fixed : Str → Option Int) : Prop :=
  ∀ text n k, Decimal text n k → -(2 ^ 30 * 10 ^ k) ≤ n ∧ n ≤ 2 ^ 30 * 10 ^ k →
    ∃ b : Int, fixed text = some b ∧ -(10 ^ k) ≤ 2 * (b * 10 ^ k - n * 2 ^ 32) ∧ 2 * (b * 10 ^ k - n * 2 ^ 32) ≤ 10 ^ k

/-- `r` seconds are `n / 10^k` hours, rounded to the nearest second. -/
def NearestSecond (n : Int) (k : Nat) (r : Int) : Prop :=
  -(10 ^ k) ≤ 2 * (r * 10 ^ k - 3600 * n) ∧ 2 * (r * 10 ^ k - 3600 * n) ≤ 10 ^ k

/-- An offset from UTC is less than a day. -/
def OffsetOk (r : Int) : Prop := -86400 < r ∧ r < 86400

/-- The time stamp argument of `%date`: absent, or an integer that is a time. -/
inductive TimeArg (ext : Ext) : List PNode → Option Int → Prop
  | now : TimeArg ext [] none
  | at (a : Node) (z : Int) : Integer a.value z → ext.validTime z = true → TimeArg ext [.number a] (some z)

end Seam.Spec
