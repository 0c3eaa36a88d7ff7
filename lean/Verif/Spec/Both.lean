import Verif.Spec.Layout
import Verif.Spec.Markup

/-! Documents that are written alike in HTML and in XML. -/

namespace Seam.Spec

/-- The HTML elements whose content is not HTML, apart from `svg` and `math`, whose content is XML. -/
def textNames : List Str := [str! "pre", str! "textarea", str! "title", str! "style", str! "script"]

/-- The name of an ordinary element: in lower case, not a declaration, and not one of the names
with a special meaning in HTML. -/
def EveryWay (name : Str) : Prop :=
  name.map lowerChar = name ∧ (∀ rest, name ≠ '!' :: rest ∧ name ≠ '?' :: rest) ∧ name ∉ voidNames ∧ name ∉ textNames

mutual
/-- A node with ordinary elements only, and without raw text.  What stands in an `svg` or `math`
element does not matter.  The blanks before attributes satisfy `P`. -/
inductive Shared (P : Str → Prop) : PNode → Prop
  | symbol (a : Node) : Shared P (.symbol a)
  | number (a : Node) : Shared P (.number a)
  | string (a : Node) : Shared P (.string a)
  | attr (k : Str) (v : PNode) (s : Site) (w : Str) : P w → Shared P (.attr k v s w)
  | element (h : Node) (rest : List PNode) (s : Site) (e : Token) (w : Str) : EveryWay h.value → Shareds P rest →
      Shared P (.list (.symbol h :: rest) s e w)
  | xml (h : Node) (rest : List PNode) (s : Site) (e : Token) (w : Str) : h.value ∈ [str! "svg", str! "math"] →
      (∀ k v s w, .attr k v s w ∈ rest → P w) → Shared P (.list (.symbol h :: rest) s e w)
  | empty (s : Site) (e : Token) (w : Str) : Shared P (.list [] s e w)
  | other (n : PNode) (rest : List PNode) (s : Site) (e : Token) (w : Str) : (∀ h, n ≠ .symbol h) →
      Shared P (.list (n :: rest) s e w)
/-- The same for several nodes. -/
inductive Shareds (P : Str → Prop) : List PNode → Prop
  | nil : Shareds P []
  | cons (n : PNode) (ns : List PNode) : Shared P n → Shareds P ns → Shareds P (n :: ns)
end

/-- The same text, according to `E`, or a complaint about the same place. -/
inductive SameMarkup (E : Str → Str → Prop) : Res Str → Res Str → Prop
  | ok (x y : Str) : E x y → SameMarkup E (.ok x) (.ok y)
  | err (e e' : Err) : e.site = e'.site → SameMarkup E (.err e) (.err e')
  | panic : SameMarkup E .panic .panic

end Seam.Spec
