import Verif.Model.Stack
import Verif.Spec.Tree

/-! How deeply a document is nested. -/

namespace Seam.Spec

mutual
/-- The nesting of a node: an atom is one deep, a list one more than its deepest element, an attribute
one more than its value. -/
def nesting : PNode → Nat
  | .list ns _ _ _ => nestings ns + 1
  | .attr _ v _ _ => nesting v + 1
  | .symbol _ | .number _ | .string _ | .raw _ => 1
/-- The nesting of the deepest of several nodes. -/
def nestings : List PNode → Nat
  | [] => 0
  | n :: ns => max (nesting n) (nestings ns)
end

/-- What is still open at some place of a source. -/
inductive Open
  /-- A parenthesis. -/
  | paren
  /-- A keyword that waits for the end of its value. -/
  | keyword
deriving DecidableEq

/-- A value has ended, and with it the keywords that waited for it. -/
def valueEnds : List Open → List Open
  | .keyword :: opens => valueEnds opens
  | opens => opens

/-- What is open after a token, given what was open before it, innermost first. -/
def afterToken (opens : List Open) : Kind → List Open
  | .lparen => .paren :: opens
  | .keyword => .keyword :: opens
  | .rparen =>
    match opens with
    | .paren :: opens => valueEnds opens
    | opens => opens
  | .symbol | .number | .string => valueEnds opens

/-- No token but closing parentheses has more than `levels - 1` parentheses and keywords open before
it. -/
def Shallow (levels : Nat) (opens : List Open) (kinds : List Kind) : Prop :=
  ∀ before k after, kinds = before ++ k :: after → k ≠ .rparen → (before.foldl afterToken opens).length < levels

end Seam.Spec
