import Verif.Spec.Markup
import Verif.Spec.Pairs
import Verif.Spec.Css

/-!
# The text of a style sheet

Which text a tree has as CSS, said as a grammar: each rule below pairs one shape of
tree with one shape of text.  Nothing here refers to how the text is computed.
-/

namespace Seam.Spec

/-- The characters with the Unicode property `White_Space`. -/
def whiteSpace : List Nat := [9, 10, 11, 12, 13, 0x20, 0x85, 0xA0, 0x1680, 0x2000, 0x2001, 0x2002, 0x2003, 0x2004,
  0x2005, 0x2006, 0x2007, 0x2008, 0x2009, 0x200A, 0x2028, 0x2029, 0x202F, 0x205F, 0x3000]

/-- A character of white space. -/
def Space (c : Char) : Prop := c.toNat ∈ whiteSpace

/-- `t` is `s` without the white space around it. -/
def Trimmed (s t : Str) : Prop :=
  ∃ a b, s = a ++ t ++ b ∧ (∀ c ∈ a, Space c) ∧ (∀ c ∈ b, Space c) ∧
    (∀ c ∈ t.head?, ¬ Space c) ∧ ∀ c ∈ t.getLast?, ¬ Space c

/-- The names that are written as functions. -/
def callNames : List Str := [
  str! "attr", str! "blur", str! "brightness", str! "calc", str! "circle", str! "color", str! "contrast",
  str! "counter", str! "counters", str! "cubic-bezier", str! "drop-shadow", str! "ellipse", str! "format",
  str! "grayscale", str! "hsl", str! "hsla", str! "hue-rotate", str! "hwb", str! "image", str! "inset",
  str! "invert", str! "lab", str! "lch", str! "linear-gradient", str! "matrix", str! "matrix3d",
  str! "opacity", str! "perspective", str! "polygon", str! "radial-gradient",
  str! "repeating-linear-gradient", str! "repeating-radial-gradient",
  str! "rgb", str! "rgba", str! "rotate", str! "rotate3d", str! "rotateX",
  str! "rotateY", str! "rotateZ", str! "saturate", str! "sepia", str! "scale", str! "scale3d",
  str! "scaleX", str! "scaleY", str! "scaleZ", str! "skew", str! "skewX", str! "skewY", str! "symbols",
  str! "translate", str! "translate3d", str! "translateX", str! "translateY", str! "translateZ",
  str! "url", str! "var", str! "supports"]

/-- The texts with a separator between them. -/
inductive Joined (sep : Str) : List Str → Str → Prop
  | nil : Joined sep [] []
  | one (s : Str) : Joined sep [s] s
  | more (s u t : Str) (ts : List Str) : Joined sep (u :: ts) t → Joined sep (s :: u :: ts) (s ++ sep ++ t)

/-- The text of a list once the texts of its parts are known: `f(a b)` for known
functions (`rgba(a, b)` and `hsla(a, b)` with commas), `(a + b)` for the four
operators, and the parts with blanks between them otherwise. -/
inductive CallText (f : Str) (args : List Str) : Str → Prop
  | comma (j t : Str) : f = str! "rgba" ∨ f = str! "hsla" → Joined (str! ", ") args j → Trimmed j t →
      CallText f args (f ++ str! "(" ++ t ++ str! ")")
  | blank (j t : Str) : f ∈ callNames → f ≠ str! "rgba" → f ≠ str! "hsla" → Joined (str! " ") args j → Trimmed j t →
      CallText f args (f ++ str! "(" ++ t ++ str! ")")
  | infix (j : Str) : f ∈ [str! "+", str! "-", str! "*", str! "/"] → Joined (str! " " ++ f ++ str! " ") args j →
      CallText f args (str! "(" ++ j ++ str! ")")
  | plain (j t : Str) : f ∉ callNames → f ∉ [str! "+", str! "-", str! "*", str! "/"] → Joined (str! " ") args j →
      Trimmed j t → CallText f args (f ++ str! " " ++ t)

mutual
/-- The text of the value of a property; `quote` is how a text with white space is
written. -/
inductive ValueText (quote : Str → Str) : PNode → Str → Prop
  | word (n : PNode) (a : Node) : n = .symbol a ∨ n = .number a ∨ n = .string a → (∀ c ∈ a.value, ¬ Space c) →
      ValueText quote n a.value
  | quoted (n : PNode) (a : Node) : n = .symbol a ∨ n = .number a ∨ n = .string a → (∃ c ∈ a.value, Space c) →
      ValueText quote n (quote a.value)
  | raw (a : Node) : ValueText quote (.raw a) a.value
  | empty (s : Site) (e : Token) (w : Str) : ValueText quote (.list [] s e w) []
  | call (h : PNode) (ns : List PNode) (s : Site) (e : Token) (w f : Str) (args : List Str) (t : Str) :
      ValueText quote h f → ValueTexts quote ns args → CallText f args t → ValueText quote (.list (h :: ns) s e w) t
/-- The texts of several values. -/
inductive ValueTexts (quote : Str → Str) : List PNode → List Str → Prop
  | nil : ValueTexts quote [] []
  | cons (n : PNode) (ns : List PNode) (t : Str) (ts : List Str) : ValueText quote n t → ValueTexts quote ns ts →
      ValueTexts quote (n :: ns) (t :: ts)
end

/-- The text of an argument of an `@`-rule. -/
inductive ArgText (quote : Str → Str) : PNode → Str → Prop
  | attr (k : Str) (n : PNode) (s : Site) (w v : Str) : ValueText quote n v →
      ArgText quote (.attr k n s w) (str! "(" ++ k ++ str! ": " ++ v ++ str! ") ")
  | value (n : PNode) (v : Str) : (∀ k m s w, n ≠ .attr k m s w) → ValueText quote n v → ArgText quote n (v ++ str! " ")

/-- The text of a property. -/
inductive PropText (quote : Str → Str) : PNode → Str → Prop
  | mk (k : Str) (n : PNode) (s : Site) (w v : Str) : ValueText quote n v →
      PropText quote (.attr k n s w) (str! "  " ++ k ++ str! ": " ++ v ++ str! ";\n")

/-- The text of a selector. -/
inductive SelText : PNode → Str → Prop
  | mk (n : PNode) (a : Node) : IsAtom n a → SelText n (a.value ++ str! " ")

mutual
/-- The text of a rule. -/
inductive RuleText (quote : Str → Str) : List PNode → Str → Prop
  /-- Selectors and at least one property. -/
  | plain (h : PNode) (a : Node) (sels props : List PNode) (ss ps : List Str) : IsAtom h a → a.value ∉ blockRules →
      a.value ∉ lineRules → Pairs SelText sels ss → props ≠ [] → Pairs (PropText quote) props ps →
      RuleText quote (h :: sels ++ props) (a.value ++ str! " " ++ ss.flatten ++ str! "{\n" ++ ps.flatten ++ str! "}")
  /-- A rule on one line. -/
  | line (h : PNode) (a : Node) (args : List PNode) (ts : List Str) : IsAtom h a → a.value ∈ lineRules →
      Pairs (ArgText quote) args ts → RuleText quote (h :: args) (a.value ++ str! " " ++ ts.flatten ++ str! ";\n")
  /-- A rule with nested rules, after its arguments. -/
  | block (h : PNode) (a : Node) (args rules : List PNode) (ts : List Str) (t : Str) : IsAtom h a →
      a.value ∈ blockRules → (∀ n ∈ args, ∀ ns s e w, n ≠ .list ns s e w) → Pairs (ArgText quote) args ts →
      rules ≠ [] → SheetText quote rules t →
      RuleText quote (h :: args ++ rules) (a.value ++ str! " " ++ ts.flatten ++ str! "{\n" ++ t ++ str! "}")
  /-- The same without nested rules: the opening brace is missing. -/
  | bare (h : PNode) (a : Node) (args : List PNode) (ts : List Str) : IsAtom h a →
      a.value ∈ blockRules → (∀ n ∈ args, ∀ ns s e w, n ≠ .list ns s e w) → Pairs (ArgText quote) args ts →
      RuleText quote (h :: args) (a.value ++ str! " " ++ ts.flatten ++ str! "}")
/-- The text of a series of rules, each after the whitespace before it. -/
inductive SheetText (quote : Str → Str) : List PNode → Str → Prop
  | nil : SheetText quote [] []
  | cons (ns : List PNode) (s : Site) (e : Token) (w : Str) (rest : List PNode) (t u : Str) : RuleText quote ns t →
      SheetText quote rest u → SheetText quote (.list ns s e w :: rest) (w ++ t ++ u)
end

end Seam.Spec
