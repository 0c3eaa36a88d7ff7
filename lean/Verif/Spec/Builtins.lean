import Verif.Spec.Args
import Verif.Spec.Pairs

/-!
# What the built-in macros are given and what they compute

The macros of this file expand their arguments first; `vs` are the expanded arguments.
-/

namespace Seam.Spec

/-- `mandatory(i): t`. -/
def req (i : Nat) (t : ArgType) : Entry := ⟨.int i, true, t⟩
/-- `optional(i): t`. -/
def optAt (i : Nat) (t : ArgType) : Entry := ⟨.int i, false, t⟩
/-- `optional("k"): t`. -/
def named (k : Str) (t : ArgType) : Entry := ⟨.str k, false, t⟩
/-- A literal with one of these values. -/
def oneOf (vs : List Str) : ArgType := .literal (vs.map .exactly)

/-- The arguments that the macros declare, and the type of further arguments. -/
def eagerMacros : List (Str × List Entry × Option ArgType) := [
  (str! "markdown", [req 1 (.string []), named (str! "only") (oneOf [str! "frontmatter", str! "content"]),
    named (str! "separator") (.literal [])], none),
  (str! "yaml", [req 1 (.string []), named (str! "separator") (.literal [])], none),
  (str! "json", [req 1 (.string []), named (str! "separator") (.literal [])], none),
  (str! "toml", [req 1 (.string []), named (str! "separator") (.literal [])], none),
  (str! "get", [req 1 (.literal []), req 2 (.any []), named (str! "separator") (.literal [])], none),
  (str! "date", [req 1 (.literal []), optAt 2 (.number []), named (str! "timezone") (.number [])], none),
  (str! "timestamp", [req 1 (.literal []), req 2 (.literal []), named (str! "timezone") (.number [])], none),
  (str! "glob", [req 1 (.literal []), named (str! "type") (oneOf [str! "file", str! "directory", str! "any"]),
    named (str! "sort") (oneOf [str! "modified", str! "created", str! "name", str! "type", str! "none"]),
    named (str! "order") (oneOf [str! "ascending", str! "descending"])], none),
  (str! "number", [], some (.literal [])),
  (str! "symbol", [], some (.literal [])),
  (str! "reverse", [req 1 (.list [])], none),
  (str! "sort", [req 1 (.any []), named (str! "order") (oneOf [str! "ascending", str! "descending"]),
    named (str! "key") (.symbol [])], none),
  (str! "join", [req 1 (.literal []), named (str! "trailing") (oneOf [str! "true", str! "false"])], some (.literal [])),
  (str! "concat", [], some (.literal [])),
  (str! "map", [req 1 (.symbol [])], some (.any [])),
  (str! "filter", [req 1 (.symbol [])], some (.any [])),
  (str! "apply", [req 1 (.symbol [])], some (.any []))]

/-- The node without its leading whitespace. -/
def bare (n : PNode) : PNode := n.setLw []

/-- The nodes are literals with these values. -/
def Values (ns : List PNode) (xs : List Str) : Prop := Pairs (fun n x => ∃ a, Literal n a ∧ a.value = x) ns xs

/-- The string node that a macro call yields. -/
def stringAt (c : PNode) (text : Str) : PNode := .string ⟨text, c.site, c.lw⟩

/-- Every named argument satisfies the condition. -/
def NamedArgs (ok : Str → PNode → Prop) (vs : List PNode) : Prop := ∀ k v s w, .attr k v s w ∈ vs → ok k v

/-- The literal that is given under the keyword, if one is given. -/
inductive Given (k : Str) (vs : List PNode) : Option Node → Prop
  | absent : lastNamed k vs = none → Given k vs none
  | literal (v : PNode) (a : Node) : lastNamed k vs = some v → Literal v a → Given k vs (some a)

/-- A literal with one of these values. -/
def LiteralIn (xs : List Str) (v : PNode) : Prop := ∃ a, Literal v a ∧ a.value ∈ xs

/-- A node in place of the lists that `%splat` removes. -/
def spliced : PNode → List PNode
  | .list ns _ _ w => firstSpaced w ns
  | n => [n]

/-- The options of `%markdown`. -/
def MarkdownOption (k : Str) (v : PNode) : Prop :=
  (k = str! "only" ∧ LiteralIn [str! "frontmatter", str! "content"] v) ∨ (k = str! "separator" ∧ ∃ a, Literal v a)

/-! ## `%sort` -/

/-- A decimal integer between -2^63 and 2^63 - 1, possibly with a sign. -/
def Integer (x : Str) (z : Int) : Prop :=
  ∃ ds, ds ≠ [] ∧ (∀ d ∈ ds, '0' ≤ d ∧ d ≤ '9') ∧ -(2 ^ 63) ≤ z ∧ z < 2 ^ 63 ∧
    let n : Nat := ds.foldl (fun n d => 10 * n + (d.toNat - '0'.toNat)) 0
    ((x = ds ∨ x = '+' :: ds) ∧ z = n) ∨ (x = '-' :: ds ∧ z = -n)

/-- Lexicographic order by code points. -/
inductive LexLe : Str → Str → Prop
  | nil (y : Str) : LexLe [] y
  | less (a b : Char) (x y : Str) : a.toNat < b.toNat → LexLe (a :: x) (b :: y)
  | same (a : Char) (x y : Str) : LexLe x y → LexLe (a :: x) (a :: y)

/-- The order of keys: two integers by value; otherwise, if both are floating-point
numbers which can be compared, by value; otherwise as text. -/
inductive KeyLe (ext : Ext) (a b : Str) : Prop
  | ints (x y : Int) : Integer a x → Integer b y → x ≤ y → KeyLe ext a b
  | floats (o : Ordering) : (¬ ∃ x y, Integer a x ∧ Integer b y) → ext.floatCmp a b = some o → o ≠ .gt → KeyLe ext a b
  | texts : (¬ ∃ x y, Integer a x ∧ Integer b y) → ext.floatCmp a b = none → LexLe a b → KeyLe ext a b

/-- The order of keys is a total preorder on these keys. -/
structure Comparable (ext : Ext) (ks : List Str) : Prop where
  total : ∀ a ∈ ks, ∀ b ∈ ks, KeyLe ext a b ∨ KeyLe ext b a
  trans : ∀ a ∈ ks, ∀ b ∈ ks, ∀ c ∈ ks, KeyLe ext a b → KeyLe ext b c → KeyLe ext a c

/-- The options of `%sort`. -/
def SortOption (k : Str) (v : PNode) : Prop :=
  (k = str! "order" ∧ LiteralIn [str! "ascending", str! "descending"] v) ∨ (k = str! "key" ∧ ∃ a, v = .symbol a)

/-- Calling the macro `f` on each element gives one literal, its key. -/
inductive Keyed (ext : Ext) (f : Str) (c : PNode) : List PNode → St → List (Str × PNode) → St → Prop
  | nil (s : St) : Keyed ext f c [] s [] s
  | cons (n k : PNode) (a : Node) (ns : List PNode) (rest : List (Str × PNode)) (s u t : St) :
      Invokes ext f c [n] s (.ok [k]) u → Literal k a → Keyed ext f c ns u rest t →
      Keyed ext f c (n :: ns) s ((a.value, n) :: rest) t

/-! ## `%map`, `%filter` -/

/-- Calling the macro `f` on each element, in order, up to the first failure. -/
inductive Calls (ext : Ext) (f : Str) (c : PNode) : List PNode → St → Res (List (List PNode)) → St → Prop
  | nil (s : St) : Calls ext f c [] s (.ok []) s
  | cons (n : PNode) (ns as : List PNode) (rest : List (List PNode)) (s u t : St) :
      Invokes ext f c [n] s (.ok as) u → Calls ext f c ns u (.ok rest) t → Calls ext f c (n :: ns) s (.ok (as :: rest)) t
  | later (n : PNode) (ns as : List PNode) (r : Res (List (List PNode))) (s u t : St) :
      Invokes ext f c [n] s (.ok as) u → Calls ext f c ns u r t → (∀ x, r ≠ .ok x) → Calls ext f c (n :: ns) s r t
  | err (n : PNode) (ns : List PNode) (e : Err) (s u : St) : Invokes ext f c [n] s (.err e) u →
      Calls ext f c (n :: ns) s (.err e) u
  | panic (n : PNode) (ns : List PNode) (s u : St) : Invokes ext f c [n] s .panic u → Calls ext f c (n :: ns) s .panic u

/-- The outcome with what was computed changed. -/
def mapRes {α β : Type} (f : α → β) : Res α → Res β
  | .ok a => .ok (f a)
  | .err e => .err e
  | .panic => .panic
  | .diverge => .diverge

/-- Is the result just the empty list? -/
def emptyList : List PNode → Bool
  | [.list [] _ _ _] => true
  | _ => false

/-- The parameters that the first argument of `%lambda` declares. -/
inductive LambdaParams : PNode → List PNode → Prop
  | one (a : Node) : LambdaParams (.symbol a) [.symbol a]
  | list (ns : List PNode) (s : Site) (e : Token) (w : Str) : LambdaParams (.list ns s e w) ns

/-! ## `%get` -/

/-- A decimal numeral below 2^64, possibly with a plus sign. -/
def Numeral (x : Str) (i : Nat) : Prop :=
  ∃ ds, (x = ds ∨ x = '+' :: ds) ∧ ds ≠ [] ∧ (∀ d ∈ ds, '0' ≤ d ∧ d ≤ '9') ∧
    i = ds.foldl (fun n d => 10 * n + (d.toNat - '0'.toNat)) 0 ∧ i < 2 ^ 64

/-- The value of the first attribute with the keyword. -/
inductive FirstNamed (k : Str) : List PNode → PNode → Prop
  | here (n : PNode) (s : Site) (w : Str) (ns : List PNode) : FirstNamed k (.attr k n s w :: ns) n
  | later (m n : PNode) (ns : List PNode) : (∀ v s w, m ≠ .attr k v s w) → FirstNamed k ns n → FirstNamed k (m :: ns) n

/-- `n` is the item `x` of the list `v`: the element with this index, counted from 0, or
else the value of the first attribute with this keyword. -/
inductive ItemOf (v : PNode) (x : Str) (n : PNode) : Prop
  | index (ns : List PNode) (s : Site) (e : Token) (w : Str) (i : Nat) : v = .list ns s e w → Numeral x i →
      ns[i]? = some n → ItemOf v x n
  | name (ns : List PNode) (s : Site) (e : Token) (w : Str) : v = .list ns s e w →
      (∀ i, Numeral x i → ns[i]? = none) → FirstNamed x ns n → ItemOf v x n

/-- Following a path, whose components end where the separator occurs first. -/
inductive Gets (sep : Str) : Str → PNode → PNode → Prop
  | last (p : Str) (v n : PNode) : (∀ a b, p ≠ a ++ sep ++ b) → ItemOf v p n → Gets sep p v n
  | step (p q : Str) (v m n : PNode) : (∀ a b, p ++ sep ++ q = a ++ sep ++ b → p.length ≤ a.length) →
      ItemOf v p m → Gets sep q m n → Gets sep (p ++ sep ++ q) v n

/-! ## `%include`, `%embed` -/

/-- The files that `%include` looks for: in each directory the path itself and then the path
with `.sex` appended. -/
def includeFiles (ext : Ext) (path : Str) : List Str :=
  ext.includes.flatMap fun dir => ext.join dir path :: (ext.sexPath (ext.join dir path)).toList

/-- The files that `%embed` looks for. -/
def embedFiles (ext : Ext) (path : Str) : List Str := ext.includes.map fun dir => ext.join dir path

/-- `file` is the first of the files that can be read; `code` is in it. -/
def FirstRead (ext : Ext) (files : List Str) (file code : Str) : Prop :=
  ∃ before after, files = before ++ file :: after ∧ (∀ q ∈ before, ext.readFile q = none) ∧ ext.readFile file = some code

end Seam.Spec
