import Verif.Spec.Machine

/-!
# Short programs for long documents

Macros that call each other, but none itself: the first puts what it is given twice into an element, and each of the others calls
the one before it twice.
-/

namespace Seam.Spec

/-- The definitions of the macros `q`, `qq`, `qqq`, ... up to the one with the number `n`. -/
def doublers : Nat → Str
  | 0 => str! "(%define (q x)(b %x %x))"
  | n + 1 => doublers n ++ str! "(%define (" ++ stateName (n + 1) ++ str! " x)(%" ++ stateName n ++ str! " (%" ++ stateName n ++ str! " %x)))"

/-- The definitions, and a call of the last macro. -/
def blowProgram (n : Nat) : Str := doublers n ++ str! "(%" ++ stateName n ++ str! " a)"

/-- An element with two elements in it, each of which has two in it, and so on, `d` times. -/
def bush : Nat → Str
  | 0 => str! "a"
  | d + 1 => str! "<b>" ++ bush d ++ str! " " ++ bush d ++ str! "</b>"

/-- The same as an expression. -/
def bushExpr : Nat → Str
  | 0 => str! "a"
  | d + 1 => str! "(b " ++ bushExpr d ++ str! " " ++ bushExpr d ++ str! ")"

end Seam.Spec
