import Verif.Spec.Written

/-!
# Why a tree cannot be written

Nodes are looked at from left to right, an element before its content; the first node
that cannot be written decides.  The relations below pair a tree with this complaint, next
to the grammars of `Spec.Sheet` and `Spec.Written` for the trees that can be written.
-/

namespace Seam.Spec

/-- Why there is no output: an error message about a place, or a crash. -/
inductive Snag
  | error (msg : String) (place : Site)
  | crash

/-- The first of several nodes that is not fine has the fault `f`. -/
inductive First (Fine : PNode → Prop) (Bad : PNode → Snag → Prop) : List PNode → Snag → Prop
  | here (n : PNode) (ns : List PNode) (f : Snag) : Bad n f → First Fine Bad (n :: ns) f
  | later (n : PNode) (ns : List PNode) (f : Snag) : Fine n → First Fine Bad ns f → First Fine Bad (n :: ns) f

/-- An attribute whose value is a list or an attribute. -/
inductive AttrFault (msg : String) : PNode → Snag → Prop
  | mk (k : Str) (v : PNode) (s : Site) (w : Str) : (∀ a, ¬ IsAtom v a) → AttrFault msg (.attr k v s w) (.error msg v.site)

/-! ## XML -/

/-- What cannot stand in an XML declaration. -/
inductive XmlItemFault : PNode → Snag → Prop
  | attr (n : PNode) (f : Snag) : AttrFault "Attribute can only contain symbols, numbers or strings" n f → XmlItemFault n f
  | other (n : PNode) : NoAttr n → (∀ a, n ≠ .symbol a) → (∀ a, n ≠ .number a) →
      XmlItemFault n (.error "Only identifiers and attributes are allowed in declarations." n.site)

mutual
/-- Why a node cannot be written as XML. -/
inductive XmlFault : PNode → Snag → Prop
  | raw (a : Node) : XmlFault (.raw a) (.error "Unexpected node when generating." a.site)
  | attr (k : Str) (v : PNode) (s : Site) (w : Str) : XmlFault (.attr k v s w) (.error "Unexpected node when generating." s)
  | empty (s : Site) (e : Token) (w : Str) :
      XmlFault (.list [] s e w) (.error "Empty lists cannot be converted into a valid XML tag." s)
  | head (h : PNode) (rest : List PNode) (s : Site) (e : Token) (w : Str) : (∀ a, h ≠ .symbol a) →
      XmlFault (.list (h :: rest) s e w) (.error "XML tags can only be given as symbols." h.site)
  | noName (h : Node) (rest : List PNode) (s : Site) (e : Token) (w : Str) : h.value = [] →
      XmlFault (.list (.symbol h :: rest) s e w) .crash
  | item (h : Node) (rest : List PNode) (s : Site) (e : Token) (w r : Str) (f : Snag) :
      h.value = '!' :: r ∨ h.value = '?' :: r → First (fun n => ∃ t, XmlItem n t) XmlItemFault rest f →
      XmlFault (.list (.symbol h :: rest) s e w) f
  | attribute (h : Node) (rest : List PNode) (s : Site) (e : Token) (w : Str) (f : Snag) :
      h.value ≠ [] → (∀ r, h.value ≠ '!' :: r) → (∀ r, h.value ≠ '?' :: r) →
      First (fun n => ∃ t, XmlAttr n t) (AttrFault "Attribute can only contain symbols, numbers or strings") rest f →
      XmlFault (.list (.symbol h :: rest) s e w) f
  | content (h : Node) (attrs kids : List PNode) (s : Site) (e : Token) (w : Str) (ts : List Str) (f : Snag) :
      h.value ≠ [] → (∀ r, h.value ≠ '!' :: r) → (∀ r, h.value ≠ '?' :: r) → Pairs XmlAttr attrs ts →
      (∀ n ∈ kids.head?, NoAttr n) → XmlFaults kids f → XmlFault (.list (.symbol h :: (attrs ++ kids)) s e w) f
/-- The same for several nodes. -/
inductive XmlFaults : List PNode → Snag → Prop
  | here (n : PNode) (ns : List PNode) (f : Snag) : XmlFault n f → XmlFaults (n :: ns) f
  | later (n : PNode) (ns : List PNode) (f : Snag) (t : Str) : XmlText n t → XmlFaults ns f → XmlFaults (n :: ns) f
end

/-! ## Style sheets -/

mutual
/-- Why a node is no value of a property. -/
inductive ValueFault (quote : Str → Str) : PNode → Snag → Prop
  | attr (k : Str) (v : PNode) (s : Site) (w : Str) :
      ValueFault quote (.attr k v s w) (.error "Incompatible structure (attribute) found in CSS property value." s)
  | inside (ns : List PNode) (s : Site) (e : Token) (w : Str) (f : Snag) : ValueFaults quote ns f →
      ValueFault quote (.list ns s e w) f
/-- The same for several nodes. -/
inductive ValueFaults (quote : Str → Str) : List PNode → Snag → Prop
  | here (n : PNode) (ns : List PNode) (f : Snag) : ValueFault quote n f → ValueFaults quote (n :: ns) f
  | later (n : PNode) (ns : List PNode) (f : Snag) (t : Str) : ValueText quote n t → ValueFaults quote ns f →
      ValueFaults quote (n :: ns) f
end

/-- Why a node is no argument of an `@`-rule. -/
inductive ArgFault (quote : Str → Str) : PNode → Snag → Prop
  | attr (k : Str) (v : PNode) (s : Site) (w : Str) (f : Snag) : ValueFault quote v f → ArgFault quote (.attr k v s w) f
  | value (n : PNode) (f : Snag) : NoAttr n → ValueFault quote n f → ArgFault quote n f

/-- Why a node is no property. -/
inductive PropFault (quote : Str → Str) : PNode → Snag → Prop
  | value (k : Str) (v : PNode) (s : Site) (w : Str) (f : Snag) : ValueFault quote v f → PropFault quote (.attr k v s w) f
  | other (n : PNode) : NoAttr n →
      PropFault quote n (.error "CSS property-value pairs must be in the form of attributes." n.site)

/-- A node that is no list. -/
def NoList (n : PNode) : Prop := ∀ ns s e w, n ≠ .list ns s e w

mutual
/-- Why a list is no rule. -/
inductive RuleFault (quote : Str → Str) : List PNode → Snag → Prop
  | empty : RuleFault quote [] .crash
  | head (h : PNode) (rest : List PNode) : (∀ a, ¬ IsAtom h a) → RuleFault quote (h :: rest) .crash
  /-- Selectors only: the last one is taken for a property. -/
  | bare (h : PNode) (a : Node) (sels : List PNode) (last : PNode) : IsAtom h a → a.value ∉ blockRules →
      a.value ∉ lineRules → (∀ n ∈ h :: sels, ∃ b, IsAtom n b) → (h :: sels).getLast? = some last →
      RuleFault quote (h :: sels) (.error "CSS property-value pairs must be in the form of attributes." last.site)
  | property (h : PNode) (a : Node) (sels props : List PNode) (f : Snag) : IsAtom h a → a.value ∉ blockRules →
      a.value ∉ lineRules → (∀ n ∈ sels, ∃ b, IsAtom n b) → (∀ n ∈ props.head?, ∀ b, ¬ IsAtom n b) →
      First (fun n => ∃ t, PropText quote n t) (PropFault quote) props f → RuleFault quote (h :: (sels ++ props)) f
  | line (h : PNode) (a : Node) (args : List PNode) (f : Snag) : IsAtom h a → a.value ∈ lineRules →
      First (fun n => ∃ t, ArgText quote n t) (ArgFault quote) args f → RuleFault quote (h :: args) f
  | argument (h : PNode) (a : Node) (rest : List PNode) (f : Snag) : IsAtom h a → a.value ∈ blockRules →
      First (fun n => NoList n ∧ ∃ t, ArgText quote n t) (fun n f => NoList n ∧ ArgFault quote n f) rest f →
      RuleFault quote (h :: rest) f
  | rule (h : PNode) (a : Node) (args rules : List PNode) (ts : List Str) (f : Snag) : IsAtom h a →
      a.value ∈ blockRules → (∀ n ∈ args, NoList n) → Pairs (ArgText quote) args ts → (∀ n ∈ rules.head?, ¬ NoList n) →
      SheetFault quote "Expected list (i.e. a CSS rule) here!" rules f → RuleFault quote (h :: (args ++ rules)) f
/-- Why a series of nodes is no series of rules; `msg` is the complaint about nodes that are
no lists. -/
inductive SheetFault (quote : Str → Str) : String → List PNode → Snag → Prop
  | other (msg : String) (n : PNode) (ns : List PNode) : NoList n → SheetFault quote msg (n :: ns) (.error msg n.site)
  | here (msg : String) (rule : List PNode) (s : Site) (e : Token) (w : Str) (rest : List PNode) (f : Snag) : RuleFault quote rule f →
      SheetFault quote msg (.list rule s e w :: rest) f
  | later (msg : String) (rule : List PNode) (s : Site) (e : Token) (w : Str) (rest : List PNode) (f : Snag) (t : Str) :
      RuleText quote rule t → SheetFault quote msg rest f → SheetFault quote msg (.list rule s e w :: rest) f
end

/-! ## HTML -/

/-- What cannot stand in an HTML declaration. -/
inductive HtmlItemFault : PNode → Snag → Prop
  | mk (n : PNode) : (∀ a, n ≠ .symbol a) → (∀ a, n ≠ .number a) →
      HtmlItemFault n (.error "Non-symbolic item in declaration" n.site)

mutual
/-- Why a node cannot be written as HTML. -/
inductive HtmlFault (quote : Str → Str) : PNode → Snag → Prop
  | attr (k : Str) (v : PNode) (s : Site) (w : Str) : HtmlFault quote (.attr k v s w) (.error "Unexpected attribute encountered." s)
  | empty (s : Site) (e : Token) (w : Str) :
      HtmlFault quote (.list [] s e w) (.error "Empty lists cannot be converted into a valid HTML tag." s)
  | head (h : PNode) (rest : List PNode) (s : Site) (e : Token) (w : Str) : (∀ a, h ≠ .symbol a) →
      HtmlFault quote (.list (h :: rest) s e w) (.error "HTML tags can only be given as symbols." h.site)
  | noName (h : Node) (rest : List PNode) (s : Site) (e : Token) (w : Str) : h.value = [] →
      HtmlFault quote (.list (.symbol h :: rest) s e w) .crash
  | item (h : Node) (rest : List PNode) (s : Site) (e : Token) (w r : Str) (f : Snag) : h.value = '!' :: r →
      First (fun n => ∃ t, HtmlItem n t) HtmlItemFault rest f → HtmlFault quote (.list (.symbol h :: rest) s e w) f
  | attribute (h : Node) (rest : List PNode) (s : Site) (e : Token) (w : Str) (f : Snag) :
      h.value ≠ [] → (∀ r, h.value ≠ '!' :: r) →
      First (fun n => ∃ t, HtmlAttr n t) (AttrFault "Attribute cannot contain non-atomic data.") rest f →
      HtmlFault quote (.list (.symbol h :: rest) s e w) f
  | void (h : Node) (attrs kids : List PNode) (k : PNode) (s : Site) (e : Token) (w : Str) (ts : List Str) :
      h.value.map lowerChar ∈ voidNames → Pairs HtmlAttr attrs ts → NoAttr k →
      HtmlFault quote (.list (.symbol h :: (attrs ++ k :: kids)) s e w) (.error "A void element cannot have children." k.site)
  | content (h : Node) (attrs kids : List PNode) (s : Site) (e : Token) (w : Str) (ts : List Str) (f : Snag) :
      h.value ≠ [] → (∀ r, h.value ≠ '!' :: r) → h.value.map lowerChar ∉ voidNames → Pairs HtmlAttr attrs ts →
      (∀ n ∈ kids.head?, NoAttr n) → ContentFault quote (h.value.map lowerChar) kids e f →
      HtmlFault quote (.list (.symbol h :: (attrs ++ kids)) s e w) f
/-- Why the content of an element cannot be written. -/
inductive ContentFault (quote : Str → Str) : Str → List PNode → Token → Snag → Prop
  /-- The text of a `pre` element is no piece of one source text. -/
  | pre (k : PNode) (kids : List PNode) (e : Token) : (∀ t, ¬ SourceText k e t) →
      ContentFault quote (str! "pre") (k :: kids) e .crash
  | string (a : Node) (k : PNode) (kids : List PNode) (e : Token) :
      ContentFault quote (str! "style") (.string a :: k :: kids) e
        (.error "A `style' tag can have CSS rules or a single string." a.site)
  | style (kids : List PNode) (e : Token) (f : Snag) : (∀ n ∈ kids.head?, ∀ a, n ≠ .string a) →
      SheetFault quote "Node not expected here." kids f → ContentFault quote (str! "style") kids e f
  | xml (tag : Str) (kids : List PNode) (e : Token) (f : Snag) : tag = str! "math" ∨ tag = str! "svg" → XmlFaults kids f →
      ContentFault quote tag kids e f
  | html (tag : Str) (kids : List PNode) (e : Token) (f : Snag) : tag ∉ otherContent → HtmlFaults quote kids f →
      ContentFault quote tag kids e f
/-- The same for several nodes. -/
inductive HtmlFaults (quote : Str → Str) : List PNode → Snag → Prop
  | here (n : PNode) (ns : List PNode) (f : Snag) : HtmlFault quote n f → HtmlFaults quote (n :: ns) f
  | later (n : PNode) (ns : List PNode) (f : Snag) (t : Str) : HtmlText quote n t → HtmlFaults quote ns f →
      HtmlFaults quote (n :: ns) f
end

end Seam.Spec
