import Verif.Spec.Eval
import Verif.Spec.Tree

/-!
# Where names and markup come from

Strings and numbers are printed as text.  What else a tree says are its marks: the
names (symbols) in it, its keywords, and its raw text.
-/

namespace Seam.Spec
open Seam

/-- A name, a keyword or raw text. -/
inductive Mark
  | name (text : Str)
  | key (text : Str)
  | raw (text : Str)
deriving DecidableEq

mutual
/-- The marks of a node. -/
def marksOf : PNode → List Mark
  | .symbol a => [.name a.value]
  | .raw a => [.raw a.value]
  | .number _ | .string _ => []
  | .attr k n _ _ => .key k :: marksOf n
  | .list ns _ _ _ => marksOfAll ns
/-- The marks of several nodes. -/
def marksOfAll : List PNode → List Mark
  | [] => []
  | n :: ns => marksOf n ++ marksOfAll ns
end

mutual
/-- The marks of a TOML value: the keys of its tables, and the values that are shown as
names (truth values and dates). -/
def tomlMarks : TVal → List Mark
  | .str _ | .num _ => []
  | .sym t => [.name t]
  | .arr vs => tomlMarksAll vs
  | .tab kvs => tableMarks kvs
/-- The marks of the entries of an array. -/
def tomlMarksAll : List TVal → List Mark
  | [] => []
  | v :: vs => tomlMarks v ++ tomlMarksAll vs
/-- The marks of a table. -/
def tableMarks : List (Str × TVal) → List Mark
  | [] => []
  | (k, v) :: kvs => .key k :: (tomlMarks v ++ tableMarks kvs)
end

mutual
/-- `Origin ext P m`: the mark `m` is in the program (whose marks are those in `P`), in a
file that the program can include, in a TOML or YAML text it reads, or it is made by
one of the macros that make raw text or names, if the program can call them. -/
inductive Origin (ext : Ext) (P : Mark → Prop) : Mark → Prop
  | program (m : Mark) : P m → Origin ext P m
  | file (path code : Str) (id : Nat) (tree : List PNode) (m : Mark) : CanCall ext P .include_ →
      ext.readFile path = some code → parse ext.unescape { path := path, id := id, code := code } = .ok tree →
      m ∈ marksOfAll tree → Origin ext P m
  | raw (t : Str) : CanCall ext P .raw → Origin ext P (.raw t)
  | markdown (text html : Str) : CanCall ext P .markdown → ext.mdHtml text = some html → Origin ext P (.raw html)
  | symbol (t : Str) : CanCall ext P .symbol → Origin ext P (.name t)
  | lambda (s : Site) : CanCall ext P .lambda → Origin ext P (.name (str! "__lambda" ++ ext.uuid s))
  | toml (b : Builtin) (text : Str) (table : List (Str × TVal)) (m : Mark) : b = .toml ∨ b = .markdown → CanCall ext P b →
      ext.toml text = some table → m ∈ tableMarks table → Origin ext P m
  | yaml (b : Builtin) (text v : Str) : b = .yaml ∨ b = .markdown → CanCall ext P b →
      .scalar v ∈ (ext.yaml text).1 → Origin ext P (.key v)
  | index (b : Builtin) (i : Nat) : b = .yaml ∨ b = .markdown → CanCall ext P b → Origin ext P (.key (natStr i))
/-- `CanCall ext P b`: the program can call the macro `b`, because the name of `b` with a
`%` is one of its names, or because its name without the `%` is and the program can call a macro that calls
macros by name; `%sort` calls `%do` without being told to. -/
inductive CanCall (ext : Ext) (P : Mark → Prop) : Builtin → Prop
  | name (b : Builtin) (t : Str) : Origin ext P (.name ('%' :: t)) → builtin? t = some b → CanCall ext P b
  | indirect (a b : Builtin) (t : Str) : a ∈ [Builtin.apply, .map, .filter, .sort] → CanCall ext P a → Origin ext P (.name t) →
      builtin? t = some b → CanCall ext P b
  | sort : CanCall ext P .sort → CanCall ext P .do_
end

end Seam.Spec
