import Verif.Model.Context
import Verif.Model.Assemble

/-!
# YAML and TOML data (crates/seam/src/parse/expander.rs:1896-2235)
-/

namespace Seam

/-- `Mode`, expander.rs:1900. -/
inductive YMode | map | seq
deriving DecidableEq, Repr

/-- `EventSink`, expander.rs:1902-1921.  The three stacks `parent`, `prefix` and
`modes` are kept with the most recent entry first. -/
structure YSink where
  defining : Option Str
  nodes : List PNode
  parent : List (List PNode)
  pref : List Str
  mode : Option YMode
  modes : List YMode
deriving Repr

/-- The initial sink, expander.rs:2080-2090. -/
def YSink.init : YSink :=
  { defining := none, nodes := [], parent := [], pref := [], mode := none, modes := [] }

/-- `qualified`, expander.rs:1924-1931 and 2125-2132 (`pref` innermost first). -/
def qualified (sep : Str) (pref : List Str) (name : Str) : Str :=
  if pref.isEmpty then name else joinStr sep pref.reverse ++ sep ++ name

/-- The whitespace of an item: none for the first one. -/
def itemLw (first : Bool) : Str := if first then [] else [' ']

/-- `the_dreaded_rparen`, expander.rs:1936-1939 and 2229-2232. -/
def dreadedRparen (site : Site) : Token := { kind := .rparen, value := [')'], lw := [], site := site }

/-- `on_event` for a scalar, expander.rs:1942-1999. -/
def yScalar (site : Site) (sep : Str) (v : Str) (k : YSink) : M YSink :=
  match k.defining with
  | some name => do
    let string (w : Str) : PNode := .string { value := v, site := site, lw := w }
    M.define (qualified sep k.pref name) (Macro.var [string [' ']])
    match k.mode with
    | some .map =>
      pure { k with defining := none,
                    nodes := k.nodes ++ [.attr name (string [' ']) site (itemLw k.nodes.isEmpty)] }
    | some .seq =>
      pure { k with defining := some (natStr (k.nodes.length + 1)),
                    nodes := k.nodes ++ [string (itemLw k.nodes.isEmpty)] }
    | none => M.panic
  | none =>
    match k.mode with
    | some .map => pure { k with defining := some v }
    | some .seq => M.panic
    | none => pure { k with nodes := k.nodes ++ [.string { value := v, site := site, lw := itemLw k.nodes.isEmpty }] }

/-- `on_event` for the start of a mapping or a sequence, expander.rs:2001-2025. -/
def yStart (mode : YMode) (k : YSink) : YSink :=
  { defining := match mode with | .map => none | .seq => some ['0'],
    nodes := [],
    parent := k.nodes :: k.parent,
    pref := match k.defining with | some d => d :: k.pref | none => k.pref,
    mode := some mode,
    modes := match k.mode with | some m => m :: k.modes | none => k.modes }

/-- `on_event` for the end of a mapping or a sequence, expander.rs:2027-2074. -/
def yEnd (site : Site) (sep : Str) (k : YSink) : M YSink := do
  let mode := k.modes.head?
  let outer := k.parent.head?.getD []
  let list (w : Str) : PNode := .list k.nodes site (dreadedRparen site) w
  let pref := k.pref.tail
  let defining := match mode with
    | some .seq => some (natStr (outer.length + 1))
    | _ => none
  match k.pref.head? with
  | some name => M.define (qualified sep pref name) (Macro.var [list (itemLw outer.isEmpty)])
  | none => pure ()
  let item ← match mode with
    | some .map =>
      match k.pref.head? with
      | some name => pure (PNode.attr name (list [' ']) site (itemLw outer.isEmpty))
      | none => M.panic
    | _ => pure (list (itemLw outer.isEmpty))
  pure { defining := defining, nodes := outer ++ [item], parent := k.parent.tail,
         pref := pref, mode := mode, modes := k.modes.tail }

/-- `on_event`, expander.rs:1935-2077. -/
def yEvent (site : Site) (sep : Str) (k : YSink) : YEvent → M YSink
  | .scalar v => yScalar site sep v k
  | .mapStart => pure (yStart .map k)
  | .seqStart => pure (yStart .seq k)
  | .mapEnd | .seqEnd => yEnd site sep k
  | .other => pure k

/-- The events delivered by `load`, expander.rs:2092-2093. -/
def yEvents (site : Site) (sep : Str) (k : YSink) : List YEvent → M YSink
  | [] => pure k
  | e :: es => do
    let k ← yEvent site sep k e
    yEvents site sep k es

/-- `expand_yaml`, expander.rs:1896-2100. -/
def expandYaml (ext : Ext) (text sep : Str) (site : Site) : M (List PNode) := do
  let (events, ok) := ext.yaml text
  let k ← yEvents site sep YSink.init events
  if ok then pure k.nodes else M.fail "Failed to parse YAML." site

mutual
/-- `traverse_value`, expander.rs:2143-2173. -/
def tomlValue (site : Site) (sep : Str) (pref : List Str) (leading : Bool) : TVal → M PNode
  | .str s => pure (.string { value := s, site := site, lw := itemLw leading })
  | .num t => pure (.number { value := t, site := site, lw := itemLw leading })
  | .sym t => pure (.symbol { value := t, site := site, lw := itemLw leading })
  | .arr vs => do
    let ns ← tomlArray site sep pref true 0 vs
    pure (.list ns site (dreadedRparen site) (itemLw leading))
  | .tab kvs => do
    let ns ← tomlTable site sep pref true kvs
    pure (.list ns site (dreadedRparen site) (itemLw leading))
/-- The loop of `traverse_array`, expander.rs:2175-2195; `pref` innermost first. -/
def tomlArray (site : Site) (sep : Str) (pref : List Str) (first : Bool) (i : Nat) : List TVal → M (List PNode)
  | [] => pure []
  | v :: vs => do
    let name := natStr i
    let n ← tomlValue site sep (name :: pref) first v
    M.define (qualified sep pref name) (Macro.var [n])
    let ns ← tomlArray site sep pref false (i + 1) vs
    pure (n :: ns)
/-- The loop of `traverse_table`, expander.rs:2197-2220. -/
def tomlTable (site : Site) (sep : Str) (pref : List Str) (first : Bool) : List (Str × TVal) → M (List PNode)
  | [] => pure []
  | (k, v) :: kvs => do
    let n ← tomlValue site sep (k :: pref) false v
    M.define (qualified sep pref k) (Macro.var [n])
    let ns ← tomlTable site sep pref false kvs
    pure (.attr k n site (itemLw first) :: ns)
end

/-- `expand_toml`, expander.rs:2103-2235. -/
def expandToml (ext : Ext) (text sep : Str) (site : Site) : M (List PNode) :=
  match ext.toml text with
  | none => M.fail "Failed to parse TOML." site
  | some table => do
    let ns ← tomlTable site sep [] true table
    pure [.list ns site (dreadedRparen site) []]

end Seam
