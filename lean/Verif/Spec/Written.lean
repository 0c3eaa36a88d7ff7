import Verif.Spec.Sheet

/-!
# The text of a tree as XML and HTML

As for style sheets: a grammar that pairs shapes of trees with shapes of text, down
to the last blank.
-/

namespace Seam.Spec

/-- A node with other whitespace before it. -/
def withGap (g : Str) : PNode → PNode
  | .symbol n => .symbol { n with lw := g }
  | .number n => .number { n with lw := g }
  | .string n => .string { n with lw := g }
  | .raw n => .raw { n with lw := g }
  | .list ns s e _ => .list ns s e g
  | .attr k n s _ => .attr k n s g

/-- The whitespace before a node. -/
def gap : PNode → Str
  | .symbol n | .number n | .string n | .raw n => n.lw
  | .list _ _ _ w | .attr _ _ _ w => w

/-- The content of an element as it is written: the whitespace before the first
node is left out unless there is a line break in it. -/
inductive Settled : List PNode → List PNode → Prop
  | nil : Settled [] []
  | keep (n : PNode) (ns : List PNode) : '\n' ∈ gap n → Settled (n :: ns) (n :: ns)
  | drop (n : PNode) (ns : List PNode) : '\n' ∉ gap n → Settled (n :: ns) (withGap [] n :: ns)

/-- The whitespace before the closing tag of an element `tag` with whitespace `w` before
it and the content `kids`: that before the closing parenthesis; if there is none, that
of the element when its content starts on a new line (and for `style`), and nothing
otherwise. -/
inductive CloseGap (tag w : Str) (e : Token) (kids : List PNode) : Str → Prop
  | own : e.lw ≠ [] → CloseGap tag w e kids e.lw
  | line : e.lw = [] → (∃ n ∈ kids.head?, '\n' ∈ gap n) ∨ tag = str! "style" → CloseGap tag w e kids w
  | none : e.lw = [] → (∀ n ∈ kids.head?, '\n' ∉ gap n) → tag ≠ str! "style" → CloseGap tag w e kids []

/-- A node that is no attribute. -/
def NoAttr (n : PNode) : Prop := ∀ k v s w, n ≠ .attr k v s w

/-- The text of an attribute in XML. -/
inductive XmlAttr : PNode → Str → Prop
  | mk (k : Str) (v : PNode) (a : Node) (s : Site) (w : Str) : IsAtom v a →
      XmlAttr (.attr k v s w) (str! " " ++ k ++ str! "=\"" ++ a.value ++ str! "\"")

/-- The text of an item of an XML declaration. -/
inductive XmlItem : PNode → Str → Prop
  | word (n : PNode) (a : Node) : n = .symbol a ∨ n = .number a → XmlItem n a.value
  | attr (n : PNode) (t : Str) : XmlAttr n t → XmlItem n t

mutual
/-- The text of a node in XML. -/
inductive XmlText : PNode → Str → Prop
  | text (n : PNode) (a : Node) (t : Str) : n = .symbol a ∨ n = .number a ∨ n = .string a → EscText t a.value →
      XmlText n (a.lw ++ t)
  | decl (h : Node) (rest : List PNode) (s : Site) (e : Token) (w r : Str) (ts : List Str) : h.value = '!' :: r →
      Pairs XmlItem rest ts → XmlText (.list (.symbol h :: rest) s e w) (w ++ str! "<" ++ h.value ++ ts.flatten ++ str! ">")
  | pi (h : Node) (rest : List PNode) (s : Site) (e : Token) (w r : Str) (ts : List Str) : h.value = '?' :: r →
      Pairs XmlItem rest ts →
      XmlText (.list (.symbol h :: rest) s e w) (w ++ str! "<" ++ h.value ++ ts.flatten ++ str! " ?>")
  | elem (h : Node) (attrs kids kids' : List PNode) (s : Site) (e : Token) (w : Str) (ts : List Str) (t g : Str) :
      h.value ≠ [] → (∀ r, h.value ≠ '!' :: r) → (∀ r, h.value ≠ '?' :: r) → Pairs XmlAttr attrs ts →
      (∀ n ∈ kids.head?, NoAttr n) → Settled kids kids' → XmlTexts kids' t → CloseGap h.value w e kids g →
      XmlText (.list (.symbol h :: (attrs ++ kids)) s e w)
        (w ++ str! "<" ++ h.value ++ ts.flatten ++ str! ">" ++ t ++ g ++ str! "</" ++ h.value ++ str! ">")
/-- The text of several nodes. -/
inductive XmlTexts : List PNode → Str → Prop
  | nil : XmlTexts [] []
  | cons (n : PNode) (ns : List PNode) (t u : Str) : XmlText n t → XmlTexts ns u → XmlTexts (n :: ns) (t ++ u)
end

mutual
/-- The text of a node as plain text. -/
inductive PlainText : PNode → Str → Prop
  | atom (n : PNode) (a : Node) : IsAtom n a → PlainText n (a.lw ++ a.value)
  | list (ns : List PNode) (s : Site) (e : Token) (w t : Str) : PlainTexts ns t →
      PlainText (.list ns s e w) (w ++ str! "(" ++ t ++ e.lw ++ str! ")")
  | attr (k : Str) (n : PNode) (s : Site) (w t : Str) : PlainText n t →
      PlainText (.attr k n s w) (w ++ str! ":" ++ k ++ t)
/-- The text of several nodes. -/
inductive PlainTexts : List PNode → Str → Prop
  | nil : PlainTexts [] []
  | cons (n : PNode) (ns : List PNode) (t u : Str) : PlainText n t → PlainTexts ns u → PlainTexts (n :: ns) (t ++ u)
end

mutual
/-- The text of a node as an S-expression; `quote` is how strings are written. -/
inductive CodeText (quote : Str → Str) : PNode → Str → Prop
  | word (n : PNode) (a : Node) : n = .symbol a ∨ n = .number a → CodeText quote n (a.lw ++ a.value)
  | string (a : Node) : CodeText quote (.string a) (a.lw ++ quote a.value)
  | raw (a : Node) : CodeText quote (.raw a) (a.lw ++ str! "(%raw " ++ quote a.value ++ str! ")")
  | list (ns : List PNode) (s : Site) (e : Token) (w t : Str) : CodeTexts quote ns t →
      CodeText quote (.list ns s e w) (w ++ str! "(" ++ t ++ e.lw ++ str! ")")
  | attr (k : Str) (n : PNode) (s : Site) (w t : Str) : CodeText quote n t →
      CodeText quote (.attr k n s w) (w ++ str! ":" ++ k ++ t)
/-- The text of several nodes. -/
inductive CodeTexts (quote : Str → Str) : List PNode → Str → Prop
  | nil : CodeTexts quote [] []
  | cons (n : PNode) (ns : List PNode) (t u : Str) : CodeText quote n t → CodeTexts quote ns u →
      CodeTexts quote (n :: ns) (t ++ u)
end

/-- The text of an attribute in HTML. -/
inductive HtmlAttr : PNode → Str → Prop
  | mk (k : Str) (v : PNode) (a : Node) (s : Site) (w : Str) : IsAtom v a →
      HtmlAttr (.attr k v s w) (attrText w k a.value)

/-- The text of an item of an HTML declaration. -/
inductive HtmlItem : PNode → Str → Prop
  | word (n : PNode) (a : Node) : n = .symbol a ∨ n = .number a → HtmlItem n (str! " " ++ a.value)

/-- The piece of source text from the whitespace before `k` (one blank left out) to the
parenthesis `e`. -/
inductive SourceText (k : PNode) (e : Token) : Str → Prop
  | blank (before r t after : Str) : gap k = ' ' :: r → k.site.buf = e.site.buf → blen (gap k) ≤ k.site.off →
      e.site.code = before ++ t ++ after → blen before + blen (gap k) = k.site.off + 1 →
      e.site.off = blen before + blen t → SourceText k e t
  | other (before t after : Str) : (∀ r, gap k ≠ ' ' :: r) → k.site.buf = e.site.buf →
      e.site.code = before ++ t ++ after → blen before + blen (gap k) = k.site.off →
      e.site.off = blen before + blen t → SourceText k e t

/-- The elements whose content is not HTML. -/
def otherContent : List Str :=
  [str! "pre", str! "textarea", str! "title", str! "style", str! "script", str! "math", str! "svg"]

mutual
/-- The text of a node in HTML. -/
inductive HtmlText (quote : Str → Str) : PNode → Str → Prop
  | text (n : PNode) (a : Node) (t : Str) : n = .symbol a ∨ n = .number a ∨ n = .string a → EscText t a.value →
      HtmlText quote n (a.lw ++ t)
  | raw (a : Node) : HtmlText quote (.raw a) (a.lw ++ a.value)
  | decl (h : Node) (rest : List PNode) (s : Site) (e : Token) (w r : Str) (ts : List Str) : h.value = '!' :: r →
      Pairs HtmlItem rest ts →
      HtmlText quote (.list (.symbol h :: rest) s e w) (w ++ str! "<" ++ h.value ++ ts.flatten ++ str! ">")
  | void (h : Node) (attrs : List PNode) (s : Site) (e : Token) (w : Str) (ts : List Str) :
      h.value.map lowerChar ∈ voidNames → Pairs HtmlAttr attrs ts →
      HtmlText quote (.list (.symbol h :: attrs) s e w) (w ++ str! "<" ++ h.value ++ ts.flatten ++ str! ">")
  | elem (h : Node) (attrs kids : List PNode) (s : Site) (e : Token) (w : Str) (ts : List Str) (t g tag : Str) :
      tag = h.value.map lowerChar → tag ≠ [] → (∀ r, h.value ≠ '!' :: r) → tag ∉ voidNames → Pairs HtmlAttr attrs ts →
      (∀ n ∈ kids.head?, NoAttr n) → HtmlContent quote tag kids e t → CloseGap tag w e kids g →
      HtmlText quote (.list (.symbol h :: (attrs ++ kids)) s e w)
        (w ++ str! "<" ++ h.value ++ ts.flatten ++ str! ">" ++ t ++ g ++ str! "</" ++ tag ++ str! ">")
/-- The text of the content `kids` of an element `tag` that ends with the parenthesis `e`. -/
inductive HtmlContent (quote : Str → Str) : Str → List PNode → Token → Str → Prop
  | noPre (e : Token) : HtmlContent quote (str! "pre") [] e e.lw
  | pre (k : PNode) (kids : List PNode) (e : Token) (t : Str) : SourceText k e t →
      HtmlContent quote (str! "pre") (k :: kids) e t
  | plain (tag : Str) (kids kids' : List PNode) (e : Token) (t : Str) : tag = str! "title" ∨ tag = str! "textarea" →
      Settled kids kids' → PlainTexts kids' t → HtmlContent quote tag kids e t
  | css (a : Node) (e : Token) : HtmlContent quote (str! "style") [.string a] e a.value
  | style (kids kids' : List PNode) (e : Token) (t : Str) : (∀ n ∈ kids.head?, ∀ a, n ≠ .string a) → Settled kids kids' →
      SheetText quote kids' t → HtmlContent quote (str! "style") kids e (str! "\n" ++ t)
  | script (kids kids' : List PNode) (e : Token) (t : Str) : Settled kids kids' → CodeTexts quote kids' t →
      HtmlContent quote (str! "script") kids e t
  | xml (tag : Str) (kids kids' : List PNode) (e : Token) (t : Str) : tag = str! "math" ∨ tag = str! "svg" →
      Settled kids kids' → XmlTexts kids' t → HtmlContent quote tag kids e t
  | html (tag : Str) (kids kids' : List PNode) (e : Token) (t : Str) : tag ∉ otherContent → Settled kids kids' →
      HtmlTexts quote kids' t → HtmlContent quote tag kids e t
/-- The text of several nodes. -/
inductive HtmlTexts (quote : Str → Str) : List PNode → Str → Prop
  | nil : HtmlTexts quote [] []
  | cons (n : PNode) (ns : List PNode) (t u : Str) : HtmlText quote n t → HtmlTexts quote ns u →
      HtmlTexts quote (n :: ns) (t ++ u)
end

end Seam.Spec
