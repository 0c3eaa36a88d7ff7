import Verif.Spec.Tree

/-! What is meant by printing, equality and searching of trees. -/

namespace Seam.Spec

/-! ## Printing -/

/-- `Spaced before rest ss`: after `before`, the text `rest` is exactly the texts
selected by `ss`, in order, with only blanks between them and nothing behind the
last: a source without comments and trailing blanks. -/
inductive Spaced : Str → Str → List Site → Prop
  | nil (before : Str) : Spaced before [] []
  | cons (before gap text rest : Str) (s : Site) (ss : List Site) : Blanks gap →
      s.off = blen (before ++ gap) → s.span = blen text → Spaced (before ++ gap ++ text) rest ss →
      Spaced before (gap ++ (text ++ rest)) (s :: ss)

/-- A printable ASCII character that is not escaped in a quoted string. -/
def plainChar (c : Char) : Bool := 32 ≤ c.toNat && c.toNat ≤ 126 && c != '"' && c != '\\'

/-- What is assumed of Rust's `{:?}` on strings: one without characters to escape
is put between quotes. -/
def QuotesPlain (dbg : Str → Str) : Prop :=
  ∀ s : Str, (∀ c ∈ s, plainChar c = true) → dbg s = '"' :: s ++ ['"']

/-- A word: plain identifier characters, the first of them satisfying `p`. -/
def Word (p : Char → Bool) (s : Str) : Prop := Starts p s ∧ ∀ c ∈ s, identChar c = true

/-- The node's text ends in a symbol, number (or, nested, keyword value of this
kind). -/
def endsInWord : PNode → Bool
  | .symbol _ | .number _ => true
  | .attr _ n _ _ => endsInWord n
  | _ => false

/-- The node's text starts with a symbol, number or keyword. -/
def startsWithWord : PNode → Bool
  | .symbol _ | .number _ | .attr _ _ _ _ => true
  | _ => false

/-- The node's text ends in an empty string literal `""`. -/
def endsInEmptyString (dbg : Str → Str) : PNode → Bool
  | .string n => decide (dbg n.value = ['"', '"'])
  | .attr _ n _ _ => endsInEmptyString dbg n
  | _ => false

/-- The node is a string literal. -/
def isStringLit : PNode → Bool
  | .string _ => true
  | _ => false

/-- `b` may be printed behind `a`: if there is no blank between them then they are
not two words (which would run together) and not an empty string and a string
(whose quotes would become three). -/
def Apart (dbg : Str → Str) (a b : PNode) : Prop :=
  b.lw = [] → ¬ (endsInWord a = true ∧ startsWithWord b = true) ∧
    ¬ (endsInEmptyString dbg a = true ∧ isStringLit b = true)

mutual
/-- A tree that can be printed and read back: whitespace is blank, symbols and
numbers are words, keywords have plain names, strings are quoted so that
unescaping gives them back, and neighbours are apart. -/
inductive Printable (u : Unescape) (dbg : Str → Str) : PNode → Prop
  | symbol (n : Node) : Blanks n.lw → Word symbolStart n.value → Printable u dbg (.symbol n)
  | number (n : Node) : Blanks n.lw → Word numberStart n.value → Printable u dbg (.number n)
  | string (n : Node) (body : Str) : Blanks n.lw → dbg n.value = '"' :: body ++ ['"'] → Body q1 body →
      u body = some n.value → Printable u dbg (.string n)
  | list (ns : List PNode) (s : Site) (e : Token) (w : Str) : Blanks w → Blanks e.lw →
      Printables u dbg ns → Printable u dbg (.list ns s e w)
  | attr (k : Str) (n : PNode) (s : Site) (w : Str) : Blanks w → (∀ c ∈ k, identChar c = true) →
      Printable u dbg n → (n.lw = [] → startsWithWord n = false) → Printable u dbg (.attr k n s w)
/-- The same for neighbouring nodes. -/
inductive Printables (u : Unescape) (dbg : Str → Str) : List PNode → Prop
  | nil : Printables u dbg []
  | one (n : PNode) : Printable u dbg n → Printables u dbg [n]
  | cons (n m : PNode) (ns : List PNode) : Printable u dbg n → Apart dbg n m → Printables u dbg (m :: ns) →
      Printables u dbg (n :: m :: ns)
end

/-! ## Equality -/

mutual
/-- Two nodes with the same kind, text and structure; positions and whitespace
play no role. -/
inductive SameValue : PNode → PNode → Prop
  | symbol (a b : Node) : a.value = b.value → SameValue (.symbol a) (.symbol b)
  | number (a b : Node) : a.value = b.value → SameValue (.number a) (.number b)
  | string (a b : Node) : a.value = b.value → SameValue (.string a) (.string b)
  | raw (a b : Node) : a.value = b.value → SameValue (.raw a) (.raw b)
  | list (as bs : List PNode) (s s' : Site) (e e' : Token) (w w' : Str) : SameValues as bs →
      SameValue (.list as s e w) (.list bs s' e' w')
  | attr (k : Str) (a b : PNode) (s s' : Site) (w w' : Str) : SameValue a b →
      SameValue (.attr k a s w) (.attr k b s' w')
inductive SameValues : List PNode → List PNode → Prop
  | nil : SameValues [] []
  | cons (a b : PNode) (as bs : List PNode) : SameValue a b → SameValues as bs → SameValues (a :: as) (b :: bs)
end

/-! ## Searching -/

/-- Equality of texts, with or without regard to (ASCII) case. -/
def TextEq (insensitive : Bool) (a b : Str) : Prop :=
  if insensitive then a.map lowerChar = b.map lowerChar else a = b

/-- The capital letters, and the small letters in the same order. -/
def capitals : Str := str! "ABCDEFGHIJKLMNOPQRSTUVWXYZ"
@[inherit_doc capitals]
def smalls : Str := str! "abcdefghijklmnopqrstuvwxyz"

/-- The same character, or the same letter in upper and lower case. -/
def SameLetter (a b : Char) : Prop :=
  a = b ∨ ∃ i : Nat, (capitals[i]? = some a ∧ smalls[i]? = some b) ∨ (smalls[i]? = some a ∧ capitals[i]? = some b)

/-- The kind asked for admits the kind `k`. -/
def Admits (asked k : SearchType) : Prop := asked = .any ∨ asked = k

/-- `Hit kind value ins n r`: the node `n` itself matches the query, and `r` is
what is found: the node, or the value of the attribute. -/
inductive Hit (kind : SearchType) (value : Str) (ins : Bool) : PNode → PNode → Prop
  | symbol (n : Node) : Admits kind .symbol → TextEq ins n.value value → Hit kind value ins (.symbol n) (.symbol n)
  | number (n : Node) : Admits kind .number → TextEq ins n.value value → Hit kind value ins (.number n) (.number n)
  | string (n : Node) : Admits kind .string → TextEq ins n.value value → Hit kind value ins (.string n) (.string n)
  | raw (n : Node) : Admits kind .string → TextEq ins n.value value → Hit kind value ins (.raw n) (.raw n)
  | list (h : PNode) (a : Node) (ns : List PNode) (s : Site) (e : Token) (w : Str) : Admits kind .listHead →
      (h = .symbol a ∨ h = .number a ∨ h = .string a ∨ h = .raw a) → TextEq ins a.value value →
      Hit kind value ins (.list (h :: ns) s e w) (.list (h :: ns) s e w)
  | attr (k : Str) (n : PNode) (s : Site) (w : Str) : Admits kind .attribute → TextEq ins k value →
      Hit kind value ins (.attr k n s w) n

mutual
/-- The node and the nodes inside it down to `level` levels, in document order. -/
def downTo : Nat → PNode → List PNode
  | 0, _ => []
  | l + 1, .list ns s e w => .list ns s e w :: downTos l ns
  | l + 1, .attr k n s w => .attr k n s w :: downTo l n
  | _ + 1, n => [n]
/-- The same for several nodes. -/
def downTos : Nat → List PNode → List PNode
  | _, [] => []
  | l, n :: ns => downTo l n ++ downTos l ns
end

end Seam.Spec

namespace Seam.Spec

/-! ## Plain text -/

mutual
/-- What a reader of the plain text sees, in document order: for each piece of the
tree the whitespace in front of it and its text.  Strings show their contents. -/
def pieces : PNode → List (Str × Str)
  | .symbol n | .number n | .string n | .raw n => [(n.lw, n.value)]
  | .list ns _ e w => (w, ['(']) :: (piecess ns ++ [(e.lw, [')'])])
  | .attr k n _ w => (w, ':' :: k) :: pieces n
/-- The same for several nodes. -/
def piecess : List PNode → List (Str × Str)
  | [] => []
  | n :: ns => pieces n ++ piecess ns
end

end Seam.Spec
