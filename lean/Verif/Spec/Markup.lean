import Verif.Spec.Reader

/-!
# What a reader of markup sees

Escaped text, a scanner that cuts markup into characters and tags, a reader for
the attributes of a tag, and the relation between trees and what is scanned.
-/

namespace Seam.Spec

/-! ## Escaped text -/

/-- The five characters with a meaning in markup, and their entities. -/
def entities : List (Char × Str) :=
  [('<', str! "&lt;"), ('>', str! "&gt;"), ('"', str! "&quot;"), ('\'', str! "&apos;"), ('&', str! "&amp;")]

/-- `EscText t v`: `t` is text without markup characters, in which every `&` starts
one of the five entities, and `v` is what it stands for. -/
inductive EscText : Str → Str → Prop
  | nil : EscText [] []
  | plain (c : Char) (t v : Str) : (∀ e ∈ entities, c ≠ e.1) → EscText t v → EscText (c :: t) (c :: v)
  | entity (c : Char) (e t v : Str) : (c, e) ∈ entities → EscText t v → EscText (e ++ t) (c :: v)

/-! ## Scanning -/

/-- What a scanner sees: a character of text, a tag (the text between `<` and `>`),
or a tag that is never closed. -/
inductive Item
  | char (c : Char)
  | tag (body : Str)
  | broken
deriving DecidableEq, Repr

/-- Where the scanner is: in text, in a tag, in a quoted part of a tag. -/
inductive ScanSt
  | text
  | tag (body : Str)
  | quoted (body : Str)

/-- Cutting markup into items.  A `>` inside double quotes does not end a tag. -/
def scan : ScanSt → Str → List Item
  | .text, [] => []
  | .text, c :: cs => if c = '<' then scan (.tag []) cs else .char c :: scan .text cs
  | .tag _, [] => [.broken]
  | .tag b, c :: cs =>
    if c = '>' then .tag b :: scan .text cs
    else if c = '"' then scan (.quoted (b ++ [c])) cs
    else scan (.tag (b ++ [c])) cs
  | .quoted _, [] => [.broken]
  | .quoted b, c :: cs =>
    if c = '"' then scan (.tag (b ++ [c])) cs else scan (.quoted (b ++ [c])) cs

/-- The tags among the items. -/
def tagsOf (is : List Item) : List Str :=
  is.filterMap fun i => match i with | .tag b => some b | _ => none

/-! ## Attributes -/

/-- Where the reader of attributes is. -/
inductive AttrSt
  | gap
  | key (k : Str)
  | eq (k : Str)
  | val (k v : Str)

/-- Reading ` key="value" ...`. -/
def readAttrs : AttrSt → Str → Option (List (Str × Str))
  | .gap, [] => some []
  | .gap, c :: cs => if blank c then readAttrs .gap cs else readAttrs (.key [c]) cs
  | .key _, [] => none
  | .key k, c :: cs => if c = '=' then readAttrs (.eq k) cs else readAttrs (.key (k ++ [c])) cs
  | .eq _, [] => none
  | .eq k, c :: cs => if c = '"' then readAttrs (.val k []) cs else none
  | .val _ _, [] => none
  | .val k v, c :: cs =>
    if c = '"' then (readAttrs .gap cs).map ((k, v) :: ·) else readAttrs (.val k (v ++ [c])) cs

/-- Name and attributes of an opening tag. -/
def readTag (body : Str) : Option (Str × List (Str × Str)) :=
  (readAttrs .gap (body.dropWhile (!blank ·))).map fun as => (body.takeWhile (!blank ·), as)

/-! ## Nesting -/

/-- The HTML elements without content and closing tag. -/
def voidNames : List Str := [
  str! "area", str! "base", str! "br", str! "col", str! "embed", str! "hr", str! "img", str! "input",
  str! "link", str! "meta", str! "param", str! "source", str! "track", str! "wbr"]

/-- A kind of markup: how the name in a closing tag is written, which elements
are void, and how declarations start. -/
structure Dialect where
  close : Str → Str
  void : Str → Bool
  decl : Char → Bool

/-- XML: closing names as written, no void elements, declarations `<!...>` and `<?...>`. -/
def xmlDialect : Dialect := { close := id, void := fun _ => false, decl := fun c => c == '!' || c == '?' }
/-- HTML: names in any case; closing names in small letters; declarations `<!...>`. -/
def htmlDialect : Dialect :=
  { close := fun n => n.map lowerChar, void := fun n => decide (n.map lowerChar ∈ voidNames),
    decl := fun c => c == '!' }

/-- A properly nested sequence of tags: elements opened and closed, void elements,
and declarations. -/
inductive Nested (d : Dialect) : List Str → Prop
  | nil : Nested d []
  | elem (body name : Str) (as : List (Str × Str)) (inner rest : List Str) : readTag body = some (name, as) →
      d.void name = false → Nested d inner → Nested d rest →
      Nested d (body :: (inner ++ ('/' :: d.close name) :: rest))
  | void (body name : Str) (as : List (Str × Str)) (rest : List Str) : readTag body = some (name, as) →
      d.void name = true → Nested d rest → Nested d (body :: rest)
  | decl (body : Str) (rest : List Str) : Starts d.decl body → Nested d rest →
      Nested d (body :: rest)

/-! ## Trees and what is scanned -/

/-- The items of plain text. -/
def chars (s : Str) : List Item := s.map .char

/-- `n` is an atom with the contents `a`. -/
def IsAtom (n : PNode) (a : Node) : Prop := n = .symbol a ∨ n = .number a ∨ n = .string a ∨ n = .raw a

/-- A list of attribute nodes and the keys and values they give. -/
inductive GivesAttrs : List PNode → List (Str × Str) → Prop
  | nil : GivesAttrs [] []
  | cons (k : Str) (v : PNode) (a : Node) (s : Site) (w : Str) (ns : List PNode) (as : List (Str × Str)) :
      IsAtom v a → GivesAttrs ns as → GivesAttrs (.attr k v s w :: ns) ((k, a.value) :: as)

mutual
/-- `Shows d n is`: the items `is` are the markup of the node `n` (layout aside): a
text is shown escaped; an element as its opening tag with exactly its attributes,
its children in order, and its closing tag. -/
inductive Shows (d : Dialect) : PNode → List Item → Prop
  | symbol (n : Node) (w t : Str) : Blanks w → EscText t n.value → Shows d (.symbol n) (chars (w ++ t))
  | number (n : Node) (w t : Str) : Blanks w → EscText t n.value → Shows d (.number n) (chars (w ++ t))
  | string (n : Node) (w t : Str) : Blanks w → EscText t n.value → Shows d (.string n) (chars (w ++ t))
  | elem (h : Node) (ans kids : List PNode) (as : List (Str × Str)) (s : Site) (e : Token) (w : Str)
      (ws body ws' : Str) (inner : List Item) : GivesAttrs ans as → readTag body = some (h.value, as) →
      d.void h.value = false → Blanks ws → Blanks ws' → ShowsAll d kids inner →
      Shows d (.list (.symbol h :: (ans ++ kids)) s e w)
        (chars ws ++ .tag body :: (inner ++ chars ws' ++ [.tag ('/' :: d.close h.value)]))
  | void (h : Node) (ans : List PNode) (as : List (Str × Str)) (s : Site) (e : Token) (w : Str)
      (ws body : Str) : GivesAttrs ans as → readTag body = some (h.value, as) → d.void h.value = true → Blanks ws →
      Shows d (.list (.symbol h :: ans) s e w) (chars ws ++ [.tag body])
  | decl (h : Node) (rest : List PNode) (s : Site) (e : Token) (w : Str) (ws body : Str) :
      Starts d.decl h.value → h.value <+: body → Blanks ws →
      Shows d (.list (.symbol h :: rest) s e w) (chars ws ++ [.tag body])
/-- The same for several nodes, one after the other. -/
inductive ShowsAll (d : Dialect) : List PNode → List Item → Prop
  | nil : ShowsAll d [] []
  | cons (n : PNode) (ns : List PNode) (is js : List Item) : Shows d n is → ShowsAll d ns js →
      ShowsAll d (n :: ns) (is ++ js)
end

/-- A character of an element or attribute name. -/
def nameChar (c : Char) : Bool :=
  !blank c && !(c == '<' || c == '>' || c == '"' || c == '=' || c == '/' || c == '!' || c == '?')

/-- An element or attribute name. -/
def NameOk (s : Str) : Prop := s ≠ [] ∧ ∀ c ∈ s, nameChar c = true

/-- A character that cannot disturb a declaration. -/
def declChar (c : Char) : Bool := !(c == '<' || c == '>' || c == '"')

mutual
/-- A tree of ordinary elements: whitespace is blank, names are names, attribute
values are without double quotes, items of declarations without quotes and angle
brackets; no raw text; `special` are the elements whose content is not markup. -/
inductive Ordinary (d : Dialect) (special : Str → Bool) : PNode → Prop
  | symbol (n : Node) : Blanks n.lw → Ordinary d special (.symbol n)
  | number (n : Node) : Blanks n.lw → Ordinary d special (.number n)
  | string (n : Node) : Blanks n.lw → Ordinary d special (.string n)
  | attr (k : Str) (v : PNode) (s : Site) (w : Str) : Blanks w → NameOk k →
      (∀ a, IsAtom v a → '"' ∉ a.value) → Ordinary d special (.attr k v s w)
  | elem (h : Node) (rest : List PNode) (s : Site) (e : Token) (w : Str) : Blanks w → Blanks e.lw →
      NameOk h.value → special h.value = false → Ordinaries d special rest →
      Ordinary d special (.list (.symbol h :: rest) s e w)
  | decl (h : Node) (rest : List PNode) (s : Site) (e : Token) (w : Str) : Blanks w →
      Starts d.decl h.value → (∀ c ∈ h.value, declChar c = true) →
      (∀ n ∈ rest, (∀ k v s w, n = .attr k v s w → NameOk k ∧ ∀ a, IsAtom v a → '"' ∉ a.value) ∧
        ∀ a, IsAtom n a → ∀ c ∈ a.value, declChar c = true) →
      Ordinary d special (.list (.symbol h :: rest) s e w)
/-- The same for several nodes. -/
inductive Ordinaries (d : Dialect) (special : Str → Bool) : List PNode → Prop
  | nil : Ordinaries d special []
  | cons (n : PNode) (ns : List PNode) : Ordinary d special n → Ordinaries d special ns → Ordinaries d special (n :: ns)
end

end Seam.Spec

namespace Seam.Spec

/-- `n` is a list whose head is an atom reading `name`, in any case. -/
def Headed (name : Str) (n : PNode) : Prop :=
  ∃ h a ns s e w, n = .list (h :: ns) s e w ∧ IsAtom h a ∧ a.value.map lowerChar = name.map lowerChar

/-- A node in the content of elements, at any depth of lists. -/
inductive InLists (n : PNode) : List PNode → Prop
  | here (ns : List PNode) : n ∈ ns → InLists n ns
  | deeper (ns kids : List PNode) (s : Site) (e : Token) (w : Str) : PNode.list kids s e w ∈ ns →
      InLists n kids → InLists n ns

/-- The node `k` and the parenthesis `e` stand in one source text, `e` behind `k`, and the
whitespace of `k` is what stands before it. -/
def InPlace (k : PNode) (e : Token) : Prop :=
  ∃ before text after, e.site.code = before ++ k.lw ++ text ++ after ∧ k.site.off = blen (before ++ k.lw) ∧
    e.site.off = blen (before ++ k.lw ++ text) ∧ k.site.buf = e.site.buf

/-- How attributes are written: whitespace (one blank if there is none), key, and
the value between quotes. -/
def attrText (w k v : Str) : Str := (if w = [] then [' '] else w) ++ k ++ ['=', '"'] ++ v ++ ['"']

/-- What a browser makes of the text of an attribute value: each of the five entities
is replaced by its character.  (The number counts the characters of an entity that
are still to be passed over.) -/
def decoded : Nat → Str → Str
  | _, [] => []
  | n + 1, _ :: cs => decoded n cs
  | 0, c :: cs =>
    match entities.find? fun e => e.2.isPrefixOf (c :: cs) with
    | some e => e.1 :: decoded (e.2.length - 1) cs
    | none => c :: decoded 0 cs

/-- `ReadsAs out w name as`: what comes after the whitespace `w` in `out` is a tag, and
a browser finds in it the name `name` and the attributes `as`. -/
def ReadsAs (out w name : Str) (as : List (Str × Str)) : Prop :=
  ∃ body tail raw, out = w ++ '<' :: body ++ '>' :: tail ∧ scan .text out = chars w ++ .tag body :: scan .text tail ∧
    readTag body = some (name, raw) ∧ raw.map (fun p => (p.1, decoded 0 p.2)) = as

end Seam.Spec
