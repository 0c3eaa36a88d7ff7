import Verif.Spec.Control

/-!
# Templates

A template is a tree in which symbols `%x` stand for the nodes given for `x`.
-/

namespace Seam.Spec

mutual
/-- `Fills given n out`: `out` is the template `n` with every `%x` replaced by nodes that are
`given` for `x`, of which the first gets the blanks of the `%x`.  Lists headed by a `%x`
are macro calls and no templates. -/
inductive Fills (given : Str → List PNode → Prop) : PNode → List PNode → Prop
  | var (a : Node) (x : Str) (vs : List PNode) : a.value = '%' :: x → given x vs →
      Fills given (.symbol a) (firstSpaced a.lw vs)
  | symbol (a : Node) : (∀ x, a.value ≠ '%' :: x) → Fills given (.symbol a) [.symbol a]
  | number (a : Node) : Fills given (.number a) [.number a]
  | string (a : Node) : Fills given (.string a) [.string a]
  | raw (a : Node) : Fills given (.raw a) [.raw a]
  | list (ns ms : List PNode) (s : Site) (e : Token) (w : Str) :
      (∀ a t x, ns = .symbol a :: t → a.value ≠ '%' :: x) → FillsAll given ns ms →
      Fills given (.list ns s e w) [.list ms s e w]
  /-- The value of a keyword is the first of the nodes; the others follow. -/
  | attr (k : Str) (n m : PNode) (ms : List PNode) (s : Site) (w : Str) : Fills given n (m :: ms) →
      Fills given (.attr k n s w) (.attr k m s w :: ms)
/-- The same for several nodes, one after the other. -/
inductive FillsAll (given : Str → List PNode → Prop) : List PNode → List PNode → Prop
  | nil : FillsAll given [] []
  | cons (n : PNode) (ns as bs : List PNode) : Fills given n as → FillsAll given ns bs →
      FillsAll given (n :: ns) (as ++ bs)
end

/-- The nodes `vs` without macros are the value of the variable `x`. -/
def Stands (sc : Scope) (x : Str) (vs : List PNode) : Prop :=
  sc x = some { params := [], body := vs } ∧ MacrosFree vs

/-- The i-th of the names `xs` stands for the i-th of `vs`; every other name for its value in
the scope. -/
def GivenArgs (sc : Scope) (xs : List Str) (vs : List PNode) (x : Str) (given : List PNode) : Prop :=
  (∃ (i : Nat) (v : PNode), xs[i]? = some x ∧ vs[i]? = some v ∧ given = [v]) ∨ x ∉ xs ∧ Stands sc x given

/-- The same with a name `r` for the values left over. -/
def GivenRest (sc : Scope) (xs : List Str) (r : Str) (vs : List PNode) (x : Str) (given : List PNode) : Prop :=
  (∃ (i : Nat) (v : PNode), xs[i]? = some x ∧ vs[i]? = some v ∧ given = [v]) ∨
  x = r ∧ given = vs.drop xs.length ∨ x ∉ xs ∧ x ≠ r ∧ Stands sc x given

end Seam.Spec
