import Verif.Model.Expander
import Verif.Spec.Builtins

/-!
# The order of the files listed by `%glob` (specification)
-/

namespace Seam.Spec

/-- Strictly before in the order of characters. -/
def LexLt (a b : Str) : Prop := LexLe a b ∧ a ≠ b

/-- The place of a kind of path component: `/`, `.`, `..`, names. -/
def compRank : PComp → Nat
  | .root => 0
  | .cur => 1
  | .parent => 2
  | .normal _ => 3

/-- Order of path components: by kind, names alphabetically. -/
def CompLt (a b : PComp) : Prop :=
  compRank a < compRank b ∨ ∃ x y, a = .normal x ∧ b = .normal y ∧ LexLt x y

/-- Order of paths: by the first component that differs; a directory is before what is in it. -/
inductive PathLt : List PComp → List PComp → Prop
  | inside (b : PComp) (bs : List PComp) : PathLt [] (b :: bs)
  | first (a b : PComp) (as bs : List PComp) : CompLt a b → PathLt (a :: as) (b :: bs)
  | same (a : PComp) (as bs : List PComp) : PathLt as bs → PathLt (a :: as) (a :: bs)

/-- Order of file name extensions: no extension first. -/
def ExtLt : Option Str → Option Str → Prop
  | none, some _ => True
  | some a, some b => LexLt a b
  | _, none => False

/-- The documented orders: `name` by path; `modified` and `created` newest first, then
by path; `type` directories first, then by extension, then by path. -/
def GlobBefore : SortBy → GFile → GFile → Prop
  | .name, f, g => PathLt f.comps g.comps
  | .modified, f, g => ∃ t t', f.modified = some t ∧ g.modified = some t' ∧ (t' < t ∨ t = t' ∧ PathLt f.comps g.comps)
  | .created, f, g => ∃ t t', f.created = some t ∧ g.created = some t' ∧ (t' < t ∨ t = t' ∧ PathLt f.comps g.comps)
  | .type, f, g => (f.isDir = true ∧ g.isDir = false) ∨
      (f.isDir = g.isDir ∧ (ExtLt f.ext g.ext ∨ (f.ext = g.ext ∧ PathLt f.comps g.comps)))
  | .none, _, _ => False

/-- The order makes sense for the file: it has the time asked for; it is either a
directory or a regular file. -/
def Orderable : SortBy → GFile → Prop
  | .name, _ => True
  | .modified, f => f.modified ≠ none
  | .created, f => f.created ≠ none
  | .type, f => f.isFile = !f.isDir
  | .none, _ => False

/-- The files asked for by the `type` option. -/
def globKept (type : Option Str) (files : List GFile) : List GFile :=
  files.filter fun f => (type != some (str! "file") || f.isFile) && (type != some (str! "directory") || f.isDir)

/-- The listed nodes: strings, with a blank between them. -/
def fileNodes (site : Site) : List GFile → List PNode
  | [] => []
  | f :: fs => .string { value := f.text, site := site, lw := [] } ::
      fs.map fun g => .string { value := g.text, site := site, lw := [' '] }

/-- The options of `%glob`. -/
def GlobOption (k : Str) (v : PNode) : Prop :=
  (k = str! "type" ∧ LiteralIn [str! "file", str! "directory", str! "any"] v) ∨
  (k = str! "sort" ∧ LiteralIn [str! "modified", str! "created", str! "name", str! "type", str! "none"] v) ∨
  (k = str! "order" ∧ LiteralIn [str! "ascending", str! "descending"] v)

/-- The meaning of the `sort` option. -/
inductive SortKey : Option Str → SortBy → Prop
  | absent : SortKey none .none
  | none : SortKey (some (str! "none")) .none
  | modified : SortKey (some (str! "modified")) .modified
  | created : SortKey (some (str! "created")) .created
  | name : SortKey (some (str! "name")) .name
  | type : SortKey (some (str! "type")) .type

end Seam.Spec
