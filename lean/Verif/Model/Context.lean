import Verif.Model.Args

/-!
# Expansion context (crates/seam/src/parse/expander.rs:58-443)

State, scopes and pattern-matching binds.
-/

namespace Seam

/-- `Macro`, expander.rs:63-68.  The `name` field is never read
(`#[allow(dead_code)]`) and left out. -/
structure Macro where
  params : List PNode
  body : List PNode
deriving Repr, Inhabited

/-- `Scope`, expander.rs:83: a `HashMap` from names to macros, as a partial
function. -/
def Scope := Str → Option Macro

/-- `HashMap::new()`. -/
def Scope.empty : Scope := fun _ => none

/-- `insert_variable`, expander.rs:172-175. -/
def Scope.insert (sc : Scope) (name : Str) (m : Macro) : Scope :=
  fun k => if k == name then some m else sc k

/-- A variable: a macro without parameters. -/
def Macro.var (body : List PNode) : Macro := { params := [], body := body }

/-- One line printed to standard error by `%log`: the site and the words. -/
structure LogLine where
  site : Site
  words : List Str
deriving Repr

/-- The iteration order of hash maps: what the `i`-th iterated map with the given
entries yields.  Rust seeds every `HashMap` at random, so this is any
rearrangement (`∀ i l, (order i l).Perm l`). -/
abbrev Order := Nat → List (Str × PNode) → List (Str × PNode)

/-- The mutable part of an `Expander`, expander.rs:88-96, together with what a
run leaves behind: `scope` is `definitions`; `fresh` numbers the source buffers
registered so far (`subparsers`); `log` is what was printed to standard error;
`hashes` counts the hash maps of which all entries were used so far; `order` (never
changed) is the iteration order of hash maps.  `parser` and `includes` do not
change during expansion; `subcontexts` and `invocations` only keep memory alive
(see `Verif.Model.Arena` for the latter). -/
structure St where
  scope : Scope
  fresh : Nat
  log : List LogLine
  hashes : Nat
  order : Order

/-- A computation of the expander: an outcome and the state afterwards (effects
that happened before an error are kept). -/
def M (α : Type) := St → Res α × St

namespace M

def pure {α : Type} (a : α) : M α := fun s => (.ok a, s)

def bind {α β : Type} (m : M α) (f : α → M β) : M β := fun s =>
  match m s with
  | (.ok a, s') => f a s'
  | (.err e, s') => (.err e, s')
  | (.panic, s') => (.panic, s')
  | (.diverge, s') => (.diverge, s')

instance : Monad M where
  pure := M.pure
  bind := M.bind

/-- A computation without effects. -/
def lift {α : Type} (r : Res α) : M α := fun s => (r, s)

/-- `return Err(ExpansionError(msg, site))`. -/
def fail {α : Type} (msg : String) (site : Site) : M α := lift (.err (expErr msg site))

/-- A panic. -/
def panic {α : Type} : M α := lift .panic

/-- `get_variable`, expander.rs:183-185. -/
def lookup (name : Str) : M (Option Macro) := fun s => (.ok (s.scope name), s)

/-- `insert_variable`, expander.rs:172-175. -/
def define (name : Str) (m : Macro) : M Unit :=
  fun s => (.ok (), { s with scope := s.scope.insert name m })

/-- Run in a copy of the context (`self.clone()`, `create_subcontext`), whose
definitions are dropped afterwards, expander.rs:142-155, 482, 1092, 1142. -/
def inner {α : Type} (m : M α) : M α := fun s =>
  let (r, s') := m s
  (r, { s' with scope := s.scope })

/-- A number not used before in this run. -/
def tick : M Nat := fun s => (.ok s.fresh, { s with fresh := s.fresh + 1 })

/-- The entries of a hash map, in iteration order. -/
def iterate (entries : List (Str × PNode)) : M (List (Str × PNode)) :=
  fun s => (.ok (s.order s.hashes entries), { s with hashes := s.hashes + 1 })

/-- The first entry of a hash map, `keys().next()` / `values().next()`.  (It is only
used to make an error, which ends the run or is forgotten, so that the map need
not be counted.) -/
def firstEntry (entries : List (Str × PNode)) : M (Option (Str × PNode)) :=
  fun s => (.ok (s.order s.hashes entries).head?, s)

/-- `eprintln!` in `%log`, expander.rs:1003-1004. -/
def emit (l : LogLine) : M Unit := fun s => (.ok (), { s with log := s.log ++ [l] })

end M

/-- YAML parser events, `yaml_rust2::Event`; `other` stands for those the sink
ignores (document and stream markers, aliases). -/
inductive YEvent
  | scalar (v : Str)
  | mapStart | mapEnd | seqStart | seqEnd
  | other
deriving DecidableEq, Repr

/-- A TOML value, `toml::Value`.  Integers and floats carry their `Display`
text, as do dates and booleans. -/
inductive TVal
  | str (s : Str)
  | num (text : Str)
  | sym (text : Str)
  | arr (vs : List TVal)
  | tab (kvs : List (Str × TVal))
deriving Repr

/-- What `markdown::to_mdast` finds at the start of the document. -/
inductive Front
  | invalid
  | none
  | yaml (text : Str)
  | toml (text : Str)
deriving DecidableEq, Repr

/-- A component of a path, `std::path::Component` (Unix); the constructors are in
the order of its `Ord`. -/
inductive PComp
  | root | cur | parent | normal (name : Str)
deriving DecidableEq, Repr

/-- A file found by `%glob`: its path as components (the order of `Path`
compares components), the lossy string, and the metadata used. -/
structure GFile where
  comps : List PComp
  text : Str
  isFile : Bool
  isDir : Bool
  created : Option Nat
  modified : Option Nat
  ext : Option Str
deriving DecidableEq, Repr

/-- `format!("{}", n)` for an unsigned number. -/
def natStr (n : Nat) : Str := Nat.toDigits 10 n

/-- Everything outside the crate that expansion depends on.  Each field is an
arbitrary function; the file system, clock and environment are constant during
a run. -/
structure Ext where
  /-- `descape`: unescape a string literal. -/
  unescape : Unescape
  /-- both strings parse as `f64` and `partial_cmp` is `Some`. -/
  floatCmp : Str → Str → Option Ordering
  /-- `Hash for Site` with the `DefaultHasher`, tokens.rs:45-47 and 101-109: a number that
  depends on the path, the line, the offset, the offset in the line and the length. -/
  siteHash : Str → Nat → Nat → Nat → Nat → Nat
  /-- `Expander::includes` in iteration order. -/
  includes : List Str
  /-- `Path::join`. -/
  join : Str → Str → Str
  /-- The path with `.sex` appended to its file name, `none` without file name. -/
  sexPath : Str → Option Str
  /-- `fs::read_to_string`. -/
  readFile : Str → Option Str
  /-- `std::env::var`. -/
  envVar : Str → Option Str
  /-- `formatx::Template::new(..).is_ok()`. -/
  formatOk : Str → Bool
  /-- `Template::text` after the replacements. -/
  formatText : Str → List (Option Str × Str) → Option Str
  /-- `markdown::to_html_with_options`. -/
  mdHtml : Str → Option Str
  /-- `markdown::to_mdast`. -/
  mdFront : Str → Front
  /-- Events the YAML parser delivers and whether it ends without error. -/
  yaml : Str → List YEvent × Bool
  /-- `text.parse::<toml::Table>()`. -/
  toml : Str → Option (List (Str × TVal))
  /-- `parse::<I32F32>()` in units of 2^-32. -/
  fixed : Str → Option Int
  /-- `chrono::Local::now().offset().local_minus_utc()`. -/
  localOffset : Int
  /-- `DateTime::from_timestamp(secs, 0).is_some()`. -/
  validTime : Int → Bool
  /-- The given (or the current) time in the zone with the given offset, in the
  given format; `none` is the panic of `to_string` on a bad format. -/
  date : Option Int → Int → Str → Option Str
  /-- `DateTime::parse_from_str(text, format)` as a timestamp. -/
  zonedTime : Str → Str → Option Int
  /-- `NaiveDateTime::parse_from_str(text, format)`, seconds since 1970 as if UTC. -/
  naiveTime : Str → Str → Option Int
  /-- `glob(pattern)`: `none` for a bad pattern; an item is `none` for a glob
  error; metadata is `none` if it cannot be read. -/
  glob : Str → Option (List (Option (Option GFile)))

/-- `Site::uuid`, tokens.rs:45-50. -/
def Ext.uuid (ext : Ext) (s : Site) : Str :=
  natStr (ext.siteHash s.path s.line s.off s.bol s.span) ++ '-' :: natStr s.off

/-- Does the string start with `p` (`str::starts_with`). -/
def startsWith (p s : Str) : Bool := p.isPrefixOf s

/-- Symbol that starts with `&&`, expander.rs:277. -/
def isKwRest (n : PNode) : Bool :=
  match n.symbol? with | some a => startsWith ['&', '&'] a.value | none => false

/-- Symbol that starts with `&`, expander.rs:294. -/
def isRest (n : PNode) : Bool :=
  match n.symbol? with | some a => startsWith ['&'] a.value | none => false

/-- Local variables of `bind_list`, expander.rs:255-260.  `rest`, `kwRest` hold
the symbols' names. -/
structure BindAcc where
  rest : Option Str
  kwRest : Option Str
  expected : Nat
  rhs : List (Str × PNode)
  lhs : List (Str × PNode)

/-- The start values, expander.rs:255-260. -/
def BindAcc.init : BindAcc := { rest := none, kwRest := none, expected := 0, rhs := [], lhs := [] }

/-- Pass over named arguments, remembering them, expander.rs:318-326. -/
def skipNamed (named : List (Str × PNode)) : List PNode → List (Str × PNode) × List PNode
  | .attr k n s w :: r => skipNamed (amInsert k (.attr k n s w) named) r
  | r => (named, r)

/-- The loop over the remaining arguments, expander.rs:333-343: the named ones
are remembered, the others are returned. -/
def takeRest (named : List (Str × PNode)) : List PNode → List (Str × PNode) × List PNode
  | [] => (named, [])
  | .attr k n s w :: r => takeRest (amInsert k (.attr k n s w) named) r
  | n :: r =>
    let (m, ns) := takeRest named r
    (m, n :: ns)

/-- Assign the named parameters, expander.rs:366-383.  The Rust loop goes over
`lhs_named` in hash order; the keys are distinct, so the order does not matter.
The result is what is left in `rhs_named`. -/
def bindNamed (rhs : List (Str × PNode)) : List (Str × PNode) → M (List (Str × PNode))
  | [] => pure rhs
  | (k, d) :: lhs => do
    let value := match amGet k rhs with
      | some (.attr _ n _ _) => n
      | _ => d
    M.define k (Macro.var [value])
    bindNamed (amRemove k rhs) lhs

/-- The end of `bind_list`, expander.rs:332-442. -/
def bindEnd (acc : BindAcc) (remaining : List PNode) : M Unit := do
  let (rhs, rest) := takeRest acc.rhs remaining
  match acc.rest, rest.getLast? with
  | some name, _ => M.define (name.drop 1) (Macro.var rest)
  | none, some n => M.fail "Excess number of arguments." n.site
  | none, none => pure ()
  let rhs ← bindNamed rhs acc.lhs
  match acc.kwRest with
  | some name => do
    let entries ← M.iterate rhs
    M.define (name.drop 2) (Macro.var (entries.map (·.2)))
  | none =>
    if rhs.isEmpty then pure ()
    else do
      let entry ← M.firstEntry rhs
      match entry with
      | some (_, n) => M.fail "Unknown excess keywords provided." n.site
      | none => M.panic

mutual
/-- `bind`, expander.rs:188-251. -/
def bind : (pattern value : PNode) → M Unit
  | .attr k0 n0 _ _, value =>
    match value with
    | .attr k1 n1 s1 _ =>
      if k0 = k1 then bind n0 n1
      else M.fail "Mismatch named argument." s1
    | v => M.fail "Looking for named argument." v.site
  | .list ns0 _ _ _, value =>
    match value with
    | .list ns1 s e w => bindLoop (.list ns1 s e w) BindAcc.init ns0 ns1
    | v => M.fail "Cannot assign to a list." v.site
  | .symbol a, value => M.define a.value (Macro.var [value])
  | .number a, value =>
    match value with
    | .number b => if a.value = b.value then pure () else M.fail "Expected another number here." b.site
    | v => M.fail "Expected a number here." v.site
  | .string a, value =>
    match value with
    | .string b | .raw b =>
      if a.value = b.value then pure () else M.fail "Expected another string here." b.site
    | v => M.fail "Expected a string here." v.site
  | .raw a, value =>
    match value with
    | .string b | .raw b =>
      if a.value = b.value then pure () else M.fail "Expected another string here." b.site
    | v => M.fail "Expected a string here." v.site
/-- `bind_list`, expander.rs:253-443: the loop over the patterns (266-331), then
`bindEnd`.  The Rust loop keeps an index into the values; here it is the list of
values not yet used. -/
def bindLoop (assigned : PNode) (acc : BindAcc) : (patterns values : List PNode) → M Unit
  | [], values => bindEnd acc values
  | .attr k d _ _ :: ps, values =>
    bindLoop assigned { acc with lhs := amInsert k d acc.lhs } ps values
  | p :: ps, values =>
    if isKwRest p then
      match acc.kwRest, p.symbol? with
      | none, some a => bindLoop assigned { acc with kwRest := some a.value } ps values
      | _, _ => M.fail "Found multiple nodes matching named argument &&-rest syntax." p.site
    else if isRest p then
      match acc.rest, p.symbol? with
      | none, some a => bindLoop assigned { acc with rest := some a.value } ps values
      | _, _ => M.fail "Found multiple nodes matching &-rest syntax." p.site
    else
      match skipNamed acc.rhs values with
      | (_, []) => M.fail "Too few values given." assigned.site
      | (rhs, v :: values) => do
        bind p v
        bindLoop assigned { acc with rhs := rhs, expected := acc.expected + 1 } ps values
end

/-- `bind_list` as called by `apply_macro`, expander.rs:1700. -/
def bindList (assigned : PNode) (patterns values : List PNode) : M Unit :=
  bindLoop assigned BindAcc.init patterns values

end Seam
