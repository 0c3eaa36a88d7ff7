import Verif.Spec.Written

/-!
# Reading markup back

A reader of markup: it cuts the text into characters and tags (`scan`, Spec/Markup), replaces
the entities, and builds the tree of elements. And what a tree of nodes stands for, to
be compared with what is read.
-/

namespace Seam.Spec

/-- What a reader finds: a character, an element with its attributes and contents, or a declaration. -/
inductive Dom
  | char (c : Char)
  | elem (name : Str) (attrs : List (Str × Str)) (inner : List Dom)
  | decl (body : Str)

/-- The characters up to the next tag. -/
def textAhead : List Item → Str
  | .char c :: is => c :: textAhead is
  | _ => []

/-- Replacing the entities in the text between tags by their characters (the number counts the
characters of an entity still to be passed over). -/
def withoutEntities : Nat → List Item → List Item
  | _, [] => []
  | n + 1, _ :: is => withoutEntities n is
  | 0, .char c :: is =>
    match entities.find? fun e => e.2.isPrefixOf (c :: textAhead is) with
    | some e => .char e.1 :: withoutEntities (e.2.length - 1) is
    | none => .char c :: withoutEntities 0 is
  | 0, i :: is => i :: withoutEntities 0 is

/-- An element that has been opened: name, attributes, and what stands before it in the
element around it. -/
structure Opened where
  name : Str
  attrs : List (Str × Str)
  before : List Dom

/-- Building the tree: `open` are the elements not yet closed, the innermost first; `acc` is
what has been read of the contents of the innermost. There is no tree if a tag is broken, if a closing tag
does not belong to the innermost element, or if an element is not closed. -/
def build (d : Dialect) : List Opened → List Dom → List Item → Option (List Dom)
  | [], acc, [] => some acc
  | _ :: _, _, [] => none
  | os, acc, .char c :: is => build d os (acc ++ [.char c]) is
  | _, _, .broken :: _ => none
  | [], _, .tag ('/' :: _) :: _ => none
  | o :: os, acc, .tag ('/' :: n) :: is =>
    if d.close o.name = n then build d os (o.before ++ [.elem o.name o.attrs acc]) is else none
  | os, acc, .tag body :: is =>
    if body.head?.any d.decl then build d os (acc ++ [.decl body]) is
    else
      match readTag body with
      | none => none
      | some (name, raw) =>
        let as := raw.map fun p => (p.1, decoded 0 p.2)
        if d.void name then build d os (acc ++ [.elem name as []]) is
        else build d ({ name := name, attrs := as, before := acc } :: os) [] is

/-- What a reader makes of a text. -/
def readMarkup (d : Dialect) (text : Str) : Option (List Dom) := build d [] [] (withoutEntities 0 (scan .text text))

/-- The characters of a text. -/
def Dom.text (s : Str) : List Dom := s.map .char

/-- Keys with what their values stand for. -/
def readValues (f : Str → Str) (as : List (Str × Str)) : List (Str × Str) := as.map fun p => (p.1, f p.2)

mutual
/-- `DomOf d f n ds`: the node `n` stands for `ds`, when an attribute value `v` stands for `f v`: a text for its characters, after its
whitespace; a list for the element with the name at its head, its attributes, and what its contents
stand for; a list headed by `!...` (or `?...` in XML) for a declaration. -/
inductive DomOf (d : Dialect) (f : Str → Str) : PNode → List Dom → Prop
  | text (n : PNode) (a : Node) : n = .symbol a ∨ n = .number a ∨ n = .string a → DomOf d f n (Dom.text (a.lw ++ a.value))
  | elem (h : Node) (attrs kids kids' : List PNode) (s : Site) (e : Token) (w g : Str) (as : List (Str × Str)) (ds : List Dom) :
      d.void h.value = false → GivesAttrs attrs as → (∀ n ∈ kids.head?, NoAttr n) → Settled kids kids' → DomsOf d f kids' ds →
      CloseGap (d.close h.value) w e kids g →
      DomOf d f (.list (.symbol h :: (attrs ++ kids)) s e w) (Dom.text w ++ [.elem h.value (readValues f as) (ds ++ Dom.text g)])
  | void (h : Node) (attrs : List PNode) (s : Site) (e : Token) (w : Str) (as : List (Str × Str)) : d.void h.value = true →
      GivesAttrs attrs as → DomOf d f (.list (.symbol h :: attrs) s e w) (Dom.text w ++ [.elem h.value (readValues f as) []])
  | decl (h : Node) (rest : List PNode) (s : Site) (e : Token) (w body : Str) : Starts d.decl h.value → h.value <+: body →
      DomOf d f (.list (.symbol h :: rest) s e w) (Dom.text w ++ [.decl body])
/-- The same for several nodes. -/
inductive DomsOf (d : Dialect) (f : Str → Str) : List PNode → List Dom → Prop
  | nil : DomsOf d f [] []
  | cons (n : PNode) (ns : List PNode) (ds es : List Dom) : DomOf d f n ds → DomsOf d f ns es → DomsOf d f (n :: ns) (ds ++ es)
end

mutual
/-- No attribute value in the tree contains one of the five entities. -/
inductive NoEntities : PNode → Prop
  | symbol (n : Node) : NoEntities (.symbol n)
  | number (n : Node) : NoEntities (.number n)
  | string (n : Node) : NoEntities (.string n)
  | raw (n : Node) : NoEntities (.raw n)
  | attr (k : Str) (v : PNode) (s : Site) (w : Str) : (∀ a, IsAtom v a → ∀ e ∈ entities, ¬ e.2 <:+: a.value) →
      NoEntities (.attr k v s w)
  | list (ns : List PNode) (s : Site) (e : Token) (w : Str) : NoEntitiess ns → NoEntities (.list ns s e w)
/-- The same for several nodes. -/
inductive NoEntitiess : List PNode → Prop
  | nil : NoEntitiess []
  | cons (n : PNode) (ns : List PNode) : NoEntities n → NoEntitiess ns → NoEntitiess (n :: ns)
end

end Seam.Spec
