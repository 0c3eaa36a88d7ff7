import Verif.Model.Context

/-!
# Structured data as nodes and variables (specification)
-/

namespace Seam.Spec

/-- Data of a YAML or TOML document. -/
inductive Data
  | text (v : Str)
  | number (v : Str)
  | symbol (v : Str)
  | items (ds : List Data)
  | entries (es : List (Str × Data))

/-- The blank before an item: none before the first one. -/
def blankUnless (first : Bool) : Str := if first then [] else [' ']

mutual
/-- The node for some data: texts, numbers and symbols are literals, an array is a
list of its items, a table is a list of attributes. -/
def dataNode (site : Site) (lw : Str) : Data → PNode
  | .text v => .string { value := v, site := site, lw := lw }
  | .number v => .number { value := v, site := site, lw := lw }
  | .symbol v => .symbol { value := v, site := site, lw := lw }
  | .items ds => .list (itemNodes site true ds) site { kind := .rparen, value := [')'], lw := [], site := site } lw
  | .entries es => .list (entryNodes site true es) site { kind := .rparen, value := [')'], lw := [], site := site } lw
/-- The nodes for items. -/
def itemNodes (site : Site) (first : Bool) : List Data → List PNode
  | [] => []
  | d :: ds => dataNode site (blankUnless first) d :: itemNodes site false ds
/-- The attributes for entries. -/
def entryNodes (site : Site) (first : Bool) : List (Str × Data) → List PNode
  | [] => []
  | (k, d) :: es => .attr k (dataNode site [' '] d) site (blankUnless first) :: entryNodes site false es
end

/-- `Sub d p d'`: following the path `p` of keys and (decimal) indices from 0 leads
from `d` to `d'`. -/
inductive Sub : Data → List Str → Data → Prop
  | here (d : Data) : Sub d [] d
  | item (ds : List Data) (i : Nat) (d d' : Data) (p : List Str) : ds[i]? = some d → Sub d p d' →
      Sub (.items ds) (Nat.toDigits 10 i :: p) d'
  | entry (es : List (Str × Data)) (k : Str) (d d' : Data) (p : List Str) : (k, d) ∈ es → Sub d p d' →
      Sub (.entries es) (k :: p) d'

/-- The variables after a document has been read: each path of the document is the
name of a variable whose value is what the path leads to (any one of these if several
paths have the same name), and no other variable is changed. -/
def DefinesPaths (site : Site) (sep : Str) (d : Data) (before after : Str → Option Macro) : Prop :=
  (∀ p d', Sub d p d' → p ≠ [] → ∃ p' d'' w, Sub d p' d'' ∧ p' ≠ [] ∧ sep.intercalate p' = sep.intercalate p ∧
    after (sep.intercalate p) = some (Macro.var [dataNode site w d''])) ∧
  ∀ name, (∀ p d', Sub d p d' → p ≠ [] → name ≠ sep.intercalate p) → after name = before name

mutual
/-- The events of a YAML document with scalar keys; aliases do not count (see `Yaml`). -/
inductive YamlOf : Data → List YEvent → Prop
  | text (v : Str) : YamlOf (.text v) [.scalar v]
  | items (ds : List Data) (es : List YEvent) : YamlItems ds es → YamlOf (.items ds) (.seqStart :: es ++ [.seqEnd])
  | entries (kvs : List (Str × Data)) (es : List YEvent) : YamlEntries kvs es →
      YamlOf (.entries kvs) (.mapStart :: es ++ [.mapEnd])
/-- The events of items. -/
inductive YamlItems : List Data → List YEvent → Prop
  | nil : YamlItems [] []
  | cons (d : Data) (ds : List Data) (es es' : List YEvent) : YamlOf d es → YamlItems ds es' →
      YamlItems (d :: ds) (es ++ es')
/-- The events of entries.  A last key without a value (its value is an alias) is left out. -/
inductive YamlEntries : List (Str × Data) → List YEvent → Prop
  | nil : YamlEntries [] []
  | last (k : Str) : YamlEntries [] [.scalar k]
  | cons (k : Str) (d : Data) (kvs : List (Str × Data)) (es es' : List YEvent) : YamlOf d es → YamlEntries kvs es' →
      YamlEntries ((k, d) :: kvs) (.scalar k :: es ++ es')
end

/-- A YAML document: scalars, aliases, sequences, and mappings with arbitrary keys. -/
inductive Yaml
  | scalar (v : Str)
  | alias
  | seq (ys : List Yaml)
  | map (kvs : List (Yaml × Yaml))

mutual
/-- The events that the parser delivers for a document (the one for an alias is ignored). -/
def Yaml.events : Yaml → List YEvent
  | .scalar v => [.scalar v]
  | .alias => [.other]
  | .seq ys => .seqStart :: itemEvents ys ++ [.seqEnd]
  | .map kvs => .mapStart :: entryEvents kvs ++ [.mapEnd]
/-- Those for the items of a sequence. -/
def itemEvents : List Yaml → List YEvent
  | [] => []
  | y :: ys => y.events ++ itemEvents ys
/-- Those for the keys and values of a mapping. -/
def entryEvents : List (Yaml × Yaml) → List YEvent
  | [] => []
  | (k, v) :: kvs => k.events ++ v.events ++ entryEvents kvs
end

mutual
/-- The data that a document is taken for: aliases are passed over. -/
inductive TakenFor : Yaml → Data → Prop
  | scalar (v : Str) : TakenFor (.scalar v) (.text v)
  | seq (ys : List Yaml) (ds : List Data) : TakenItems ys ds → TakenFor (.seq ys) (.items ds)
  | map (kvs : List (Yaml × Yaml)) (es : List (Str × Data)) : TakenPairs (kvs.flatMap fun (k, v) => [k, v]) es →
      TakenFor (.map kvs) (.entries es)
/-- The items of a sequence. -/
inductive TakenItems : List Yaml → List Data → Prop
  | nil : TakenItems [] []
  | alias (ys : List Yaml) (ds : List Data) : TakenItems ys ds → TakenItems (.alias :: ys) ds
  | cons (y : Yaml) (ys : List Yaml) (d : Data) (ds : List Data) : TakenFor y d → TakenItems ys ds → TakenItems (y :: ys) (d :: ds)
/-- The keys and values of a mapping, one after the other: they are put in pairs after the aliases have been
left out.  A last one without a partner is left out too.  The first of a pair is a scalar. -/
inductive TakenPairs : List Yaml → List (Str × Data) → Prop
  | nil : TakenPairs [] []
  | alias (ys : List Yaml) (es : List (Str × Data)) : TakenPairs ys es → TakenPairs (.alias :: ys) es
  | last (k : Str) (n : Nat) : TakenPairs (.scalar k :: List.replicate n .alias) []
  | cons (k : Str) (n : Nat) (y : Yaml) (d : Data) (ys : List Yaml) (es : List (Str × Data)) : TakenFor y d → TakenPairs ys es →
      TakenPairs (.scalar k :: List.replicate n .alias ++ y :: ys) ((k, d) :: es)
end

mutual
/-- The data of a TOML value: numbers (integers and floats) and symbols (dates and
booleans) by their text. -/
def tomlData : TVal → Data
  | .str s => .text s
  | .num t => .number t
  | .sym t => .symbol t
  | .arr vs => .items (tomlItems vs)
  | .tab kvs => .entries (tomlEntries kvs)
/-- The data of the values of an array. -/
def tomlItems : List TVal → List Data
  | [] => []
  | v :: vs => tomlData v :: tomlItems vs
/-- The data of the entries of a table. -/
def tomlEntries : List (Str × TVal) → List (Str × Data)
  | [] => []
  | (k, v) :: kvs => (k, tomlData v) :: tomlEntries kvs
end

/-- The front matter of the markdown text is TOML, or YAML with scalar keys, with these data. -/
inductive FrontData (ext : Ext) (text : Str) (d : Data) : Prop
  | toml (t : Str) (table : List (Str × TVal)) : ext.mdFront text = .toml t → ext.toml t = some table →
      d = tomlData (.tab table) → FrontData ext text d
  | yaml (y : Str) (es : List YEvent) : ext.mdFront text = .yaml y → ext.yaml y = (es, true) →
      YamlOf d (es.filter (· ≠ .other)) → FrontData ext text d

end Seam.Spec
