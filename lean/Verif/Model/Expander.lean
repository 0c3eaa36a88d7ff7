import Verif.Model.Data

/-!
# Macro expansion (crates/seam/src/parse/expander.rs:445-1867)

`expand_node` and `expand_invocation` call each other without bound (user macros
may loop).  The model is a non-recursive function `step`, which gets the
recursive calls as a parameter, iterated with `fuel` in `run`; running out of
fuel is the outcome `diverge`.
-/

namespace Seam

/-- The two mutually recursive entry points: `expand_node` (expander.rs:1768) and
`expand_invocation` (expander.rs:1722). -/
inductive Call where
  | node (n : PNode)
  | invoke (name : Str) (call : PNode) (params : List PNode)

/-- The recursive calls. -/
abbrev Rec := Call → M (List PNode)

/-- `expand_nodes`, expander.rs:1853-1860. -/
def expandNodes (rec : Rec) : List PNode → M (List PNode)
  | [] => pure []
  | n :: ns => do
    let a ← rec (.node n)
    let b ← expandNodes rec ns
    pure (a ++ b)

/-- Overwrite the leading whitespace of the first node, if there is one. -/
def withFirstLw (w : Str) : List PNode → List PNode
  | [] => []
  | n :: ns => n.setLw w :: ns

/-- A node made by a macro at its call: value with the call's site and whitespace. -/
def callNode (call : PNode) (value : Str) : Node := { value := value, site := call.site, lw := call.lw }

/-- The patterns loop of `%match`, expander.rs:461-486. -/
def matchLoop (rec : Rec) (expr : PNode) : List PNode → M (List PNode)
  | [] => pure []
  | p :: ps =>
    match p with
    | .list [] s _ _ => M.fail "Empty pattern not allowed in `%match`." s
    | .list (pat :: value) _ _ _ => do
      let pats ← rec (.node pat)
      match pats with
      | [pat'] => fun s =>
        -- `subcontext.bind(pattern, expr)` in a copy; only an `Err` is recovered from
        match bind pat' expr s with
        | (.ok (), s') => M.inner (fun _ => expandNodes rec value s') s
        | (.err _, s') => matchLoop rec expr ps { s' with scope := s.scope }
        | (.panic, s') => (.panic, { s' with scope := s.scope })
        | (.diverge, s') => (.diverge, { s' with scope := s.scope })
      | _ => M.fail "Pattern must evaluate to a single node." pat.site
    | n => M.fail "Pattern in `%match` must be a list `(pattern ...value)`." n.site

/-- `expand_match_macro`, expander.rs:446-490. -/
def matchMacro (rec : Rec) (call : PNode) (params : List PNode) : M (List PNode) :=
  match params with
  | [] => M.fail "Match syntax is: `(%match expr [...(pattern value)])`." call.site
  | expr :: patterns => do
    let es ← rec (.node expr)
    match es with
    | [e] => matchLoop rec e patterns
    | _ => M.fail "Value to match against must be single value." expr.site

/-- `&`-parameters in a parameter list, expander.rs:1662-1666. -/
def restParams (ps : List PNode) : List PNode := ps.filter (fun p => isRest p && !isKwRest p)
/-- `&&`-parameters in a parameter list, expander.rs:1674-1676. -/
def kwRestParams (ps : List PNode) : List PNode := ps.filter isKwRest

/-- `create_macro`, expander.rs:1659-1693. -/
def createMacro (name : Str) (params body : List PNode) : M Unit :=
  match restParams params with
  | _ :: excess :: _ => M.fail "Excess `&`-variadic argument capture variables." excess.site
  | _ =>
    match kwRestParams params with
    | _ :: excess :: _ => M.fail "Excess `&&`-variadic named argument capture variables." excess.site
    | _ => M.define name { params := params, body := body }

/-- `expand_define_macro`, expander.rs:495-539. -/
def defineMacro (rec : Rec) (call : PNode) (params : List PNode) : M (List PNode) :=
  match params with
  | [] => M.fail "`%define` macro takes at least two (2) arguments." call.site
  | head :: nodes =>
    match head with
    | .symbol v => do
      let body ← expandNodes rec nodes
      createMacro v.value [] body
      pure []
    | .list [] s _ _ => M.fail "`%define` macro definition must at least have a name." s
    | .list (.symbol name :: ps) _ _ _ => do
      createMacro name.value ps nodes
      pure []
    | .list (n :: _) _ _ _ => M.fail "`define` function name must be a symbol/identifier." n.site
    | n => M.fail "First argument of `%define` macro must be a list or variable name/identifier." n.site

/-- `expand_ifdef_macro`, expander.rs:544-574. -/
def ifdefMacro (rec : Rec) (call : PNode) (params : List PNode) : M (List PNode) :=
  let go (cond thn : PNode) (els : Option PNode) : M (List PNode) :=
    match cond.atomic? with
    | none => M.fail "The first argument to `ifdef` must be a symbol/name." cond.site
    | some a => do
      let d ← M.lookup a.value
      let expanded ← match d, els with
        | some _, _ => rec (.node thn)
        | none, some alt => rec (.node alt)
        | none, none => pure []
      pure (withFirstLw call.lw expanded)
  match params with
  | [c, t] => go c t none
  | [c, t, e] => go c t (some e)
  | _ => M.fail "`ifdef` takes one (1) condition and one (1) consequent, a third optional." call.site

/-- The search for an included file, expander.rs:606-627: the path and contents
of the first readable candidate. -/
def findInclude (ext : Ext) (path : Str) : List Str → Option (Str × Str)
  | [] => none
  | dir :: dirs =>
    let p := ext.join dir path
    match ext.readFile p with
    | some code => some (p, code)
    | none =>
      match ext.sexPath p with
      | none => findInclude ext path dirs
      | some p' =>
        match ext.readFile p' with
        | some code => some (p', code)
        | none => findInclude ext path dirs

/-- `expand_include_macro`, expander.rs:581-648. -/
def includeMacro (ext : Ext) (rec : Rec) (call : PNode) (params : List PNode) : M (List PNode) := do
  let params ← expandNodes rec params
  match params with
  | [pathNode] =>
    match pathNode.atomic? with
    | none => M.fail "Bad argument to `%include' macro." pathNode.site
    | some a =>
      match findInclude ext a.value ext.includes with
      | none => M.fail "Could not read included file." a.site
      | some (p, code) => do
        let id ← M.tick
        match parse ext.unescape { path := p, id := id, code := code } with
        | .err _ => M.fail "Parse error in included file." call.site
        | .panic => M.panic
        | .diverge => M.lift .diverge
        | .ok tree => do
          let expanded ← expandNodes rec tree
          pure (withFirstLw call.lw expanded)
  | _ => M.fail "Incorrect number of arguments to `%include' macro." call.site

/-- The search for an embedded file, expander.rs:675-680. -/
def findEmbed (ext : Ext) (path : Str) : List Str → Option Str
  | [] => none
  | dir :: dirs =>
    match ext.readFile (ext.join dir path) with
    | some code => some code
    | none => findEmbed ext path dirs

/-- `expand_embed_macro`, expander.rs:650-689. -/
def embedMacro (ext : Ext) (rec : Rec) (call : PNode) (params : List PNode) : M (List PNode) := do
  let params ← expandNodes rec params
  match params with
  | [pathNode] =>
    match pathNode.atomic? with
    | none => M.fail "Bad argument to `%embed' macro." pathNode.site
    | some a =>
      match findEmbed ext a.value ext.includes with
      | none => M.fail "Could not read embedded file." a.site
      | some text => pure [.string (callNode call text)]
  | _ => M.fail "Incorrect number of arguments to `%embed' macro." call.site

/-- Parse arguments against a schema (`arguments!`). -/
def arguments (patterns : List ArgRule) (trailing : Option ArgType) (call : PNode) (params : List PNode) : M ArgParser :=
  M.lift (ArgParser.new { patterns := patterns, trailing := trailing } call params)

/-- Namespace separator option, default `/`, expander.rs:713, 808, 821, 834. -/
def sepOf (o : Option Node) : Str := match o with | some n => n.value | none => ['/']

/-- Schema of `%markdown`, expander.rs:697-701. -/
def markdownSchema : List ArgRule := [
  mandatory 1 (.string []),
  optionalNamed (str! "only") (literalOf [str! "frontmatter", str! "content"]),
  optionalNamed (str! "separator") (.literal [])]

/-- `extract_frontmatter`, expander.rs:756-784; the result of a failure is
reported as `Err` at the argument. -/
def frontmatter (ext : Ext) (text sep : Str) (call : PNode) (argSite : Site) : M Unit :=
  match ext.mdFront text with
  | .invalid => M.fail "Failed to render markdown." argSite
  | .none => M.fail "This markdown does not contain any frontmatter." argSite
  | .yaml y => do let _ ← expandYaml ext y sep call.site; pure ()
  | .toml t => do let _ ← expandToml ext t sep call.site; pure ()

/-- `let _ = f();`: an `Err` is ignored, its effects are kept. -/
def ignoreErr (m : M Unit) : M Unit := fun s =>
  match m s with
  | (.err _, s') => (.ok (), s')
  | r => r

/-- `expand_markdown_macro`, expander.rs:694-798. -/
def markdownMacro (ext : Ext) (rec : Rec) (call : PNode) (params : List PNode) : M (List PNode) := do
  let params ← expandNodes rec params
  let args ← arguments markdownSchema none call params
  let contents ← M.lift (args.posNode call 1)
  let only ← M.lift (args.opt (str! "only"))
  let sep ← M.lift (args.opt (str! "separator"))
  let toHtml : M (List PNode) :=
    match ext.mdHtml contents.value with
    | none => M.fail "Failed to render markdown." contents.site
    | some html => pure [.raw (callNode call html)]
  let front := frontmatter ext contents.value (sepOf sep) call contents.site
  match only with
  | none => do
    ignoreErr front
    toHtml
  | some o =>
    if o.value = str! "frontmatter" then do
      front
      pure []
    else if o.value = str! "content" then toHtml
    else M.panic

/-- Schema of `%yaml` and `%toml`, expander.rs:803-806, 816-819. -/
def dataSchema : List ArgRule := [
  mandatory 1 (.string []),
  optionalNamed (str! "separator") (.literal [])]

/-- `expand_yaml_macro`, expander.rs:800-811. -/
def yamlMacro (ext : Ext) (rec : Rec) (call : PNode) (params : List PNode) : M (List PNode) := do
  let params ← expandNodes rec params
  let args ← arguments dataSchema none call params
  let text ← M.lift (args.posNode call 1)
  let sep ← M.lift (args.opt (str! "separator"))
  expandYaml ext text.value (sepOf sep) call.site

/-- `expand_toml_macro`, expander.rs:813-824. -/
def tomlMacro (ext : Ext) (rec : Rec) (call : PNode) (params : List PNode) : M (List PNode) := do
  let params ← expandNodes rec params
  let args ← arguments dataSchema none call params
  let text ← M.lift (args.posNode call 1)
  let sep ← M.lift (args.opt (str! "separator"))
  expandToml ext text.value (sepOf sep) call.site

/-- The loop of `str::split` for a non-empty separator: `skip` characters of a
separator occurrence are still to be passed, `acc` is the current piece. -/
def splitLoop (sep : Str) (skip : Nat) (acc : Str) : Str → List Str
  | [] => [acc]
  | c :: cs =>
    match skip with
    | n + 1 => splitLoop sep n acc cs
    | 0 =>
      if sep.isPrefixOf (c :: cs) then acc :: splitLoop sep (sep.length - 1) [] cs
      else splitLoop sep 0 (acc ++ [c]) cs

/-- `str::split`: for the empty separator Rust yields an empty piece, each
character, and an empty piece. -/
def splitStr (s sep : Str) : List Str :=
  if sep.isEmpty then [] :: s.map (fun c => [c]) ++ [[]] else splitLoop sep 0 [] s

/-- Decimal digits to a number. -/
def digitsVal (acc : Nat) : Str → Option Nat
  | [] => some acc
  | c :: cs => if isDigit c then digitsVal (acc * 10 + (c.toNat - 48)) cs else none

/-- `str::parse::<usize>()` (64-bit): optional `+`, at least one digit, no overflow. -/
def parseUsize (s : Str) : Option Nat :=
  let digits := match s with | '+' :: ds => ds | ds => ds
  if digits.isEmpty then none
  else match digitsVal 0 digits with
    | some n => if n < 2 ^ 64 then some n else none
    | none => none

/-- `str::parse::<i64>()`: optional sign, at least one digit, no overflow. -/
def parseI64 (s : Str) : Option Int :=
  let (neg, digits) := match s with
    | '+' :: ds => (false, ds)
    | '-' :: ds => (true, ds)
    | ds => (false, ds)
  if digits.isEmpty then none
  else match digitsVal 0 digits with
    | some n =>
      if neg then (if n ≤ 2 ^ 63 then some (-(n : Int)) else none)
      else (if n < 2 ^ 63 then some (n : Int) else none)
    | none => none

/-- First attribute with a keyword in a list, expander.rs:862-869. -/
def findAttr (k : Str) : List PNode → Option PNode
  | [] => none
  | .attr k' n _ _ :: ns => if k = k' then some n else findAttr k ns
  | _ :: ns => findAttr k ns

/-- One component of the path, expander.rs:839-872. -/
def getItem (node : PNode) (item : Str) : Res PNode :=
  match node.list? with
  | none => .err (expErr "Cannot `%get' on this node." node.site)
  | some view =>
    match (parseUsize item).bind (fun i => view[i]?) with
    | some n => .ok n
    | none =>
      match findAttr item view with
      | some n => .ok n
      | none => .err (expErr "Could not find item." node.site)

/-- The loop over the path, expander.rs:839-872. -/
def getPath (node : PNode) : List Str → Res PNode
  | [] => .ok node
  | item :: items => do
    let n ← getItem node item
    getPath n items

/-- Schema of `%get`, expander.rs:829-833. -/
def getSchema : List ArgRule := [
  mandatory 1 (.literal []), mandatory 2 (.any []),
  optionalNamed (str! "separator") (.literal [])]

/-- `expand_get_macro`, expander.rs:826-875. -/
def getMacro (rec : Rec) (call : PNode) (params : List PNode) : M (List PNode) := do
  let params ← expandNodes rec params
  let args ← arguments getSchema none call params
  let path ← M.lift (args.posNode call 1)
  let node ← M.lift (args.pos call 2)
  let sep ← M.lift (args.opt (str! "separator"))
  let n ← M.lift (getPath node (splitStr path.value (sepOf sep)))
  pure [n]

/-- `(offset * 60 * 60).round().to_num::<i32>()` on an `I32F32` given in units of
2^-32, expander.rs:887 and 940.  `none` is an overflow (panic with overflow
checks).  `round` is to nearest, ties away from zero. -/
def tzSeconds (bits : Int) : Option Int :=
  let p := bits * 3600
  if -(2 ^ 63) ≤ p ∧ p < 2 ^ 63 then
    let r := if 0 ≤ p then (p + 2 ^ 31) / 2 ^ 32 else -((-p + 2 ^ 31) / 2 ^ 32)
    if r < 2 ^ 31 then some r else none
  else none

/-- The timezone option, expander.rs:885-894 and 938-947. -/
def timezone (ext : Ext) (tz : Option Node) : M Int :=
  match tz with
  | none => pure ext.localOffset
  | some n =>
    match ext.fixed n.value with
    | none => M.fail "Invalid (decimal) timezone offset in hours." n.site
    | some bits =>
      match tzSeconds bits with
      | some r => pure r
      | none => M.panic

/-- `chrono::FixedOffset::east_opt(secs).is_some()`. -/
def eastOk (secs : Int) : Bool := decide (-86400 < secs ∧ secs < 86400)

/-- Schema of `%date`, expander.rs:880-884. -/
def dateSchema : List ArgRule := [
  mandatory 1 (.literal []), optionalPos 2 (.number []),
  optionalNamed (str! "timezone") (.number [])]

/-- `format!("{}", n)` for a signed number. -/
def intStr (n : Int) : Str := if n < 0 then '-' :: natStr n.natAbs else natStr n.natAbs

/-- `expand_date_macro`, expander.rs:877-925. -/
def dateMacro (ext : Ext) (rec : Rec) (call : PNode) (params : List PNode) : M (List PNode) := do
  let params ← expandNodes rec params
  let args ← arguments dateSchema none call params
  let fmt ← M.lift (args.posNode call 1)
  let time ← M.lift (args.posOpt 2)
  let tz ← M.lift (args.opt (str! "timezone"))
  let off ← timezone ext tz
  let secs ← match time with
    | none => pure none
    | some t =>
      match parseI64 t.value with
      | none => M.fail "Timestamp not a valid UNIX epoch signed integer." t.site
      | some i => if ext.validTime i then pure (some i) else M.fail "Invalid timestamp." t.site
  if eastOk off then
    match ext.date secs off fmt.value with
    | some text => pure [.string (callNode call text)]
    | none => M.panic
  else M.fail "Failed to compute UTC+(east) offset." (match tz with | some n => n.site | none => call.site)

/-- Schema of `%timestamp`, expander.rs:930-934. -/
def timestampSchema : List ArgRule := [
  mandatory 1 (.literal []), mandatory 2 (.literal []),
  optionalNamed (str! "timezone") (.number [])]

/-- `expand_timestamp_macro`, expander.rs:927-986.  Simplified: a local time at the
very edge of the representable range, for which `earliest()` gives `None`, is
not modelled. -/
def timestampMacro (ext : Ext) (rec : Rec) (call : PNode) (params : List PNode) : M (List PNode) := do
  let params ← expandNodes rec params
  let args ← arguments timestampSchema none call params
  let fmt ← M.lift (args.posNode call 1)
  let text ← M.lift (args.posNode call 2)
  let tz ← M.lift (args.opt (str! "timezone"))
  let off ← timezone ext tz
  if eastOk off then
    match ext.zonedTime text.value fmt.value with
    | some t => pure [.number (callNode call (intStr t))]
    | none =>
      match ext.naiveTime text.value fmt.value with
      | some t => pure [.number (callNode call (intStr (t - off)))]
      | none => M.fail "Failed to parse date." call.site
  else M.fail "Failed to compute UTC+(east) offset." (match tz with | some n => n.site | none => call.site)

/-- Values of atomic nodes; `none` if one is not atomic. -/
def atomicValues : List PNode → Option (List Str)
  | [] => some []
  | n :: ns =>
    match n.atomic?, atomicValues ns with
    | some a, some vs => some (a.value :: vs)
    | _, _ => none

/-- `expand_log_macro`, expander.rs:990-1006. -/
def logMacro (rec : Rec) (call : PNode) (params : List PNode) : M (List PNode) := do
  let params ← expandNodes rec params
  match atomicValues params with
  | some words => do
    M.emit { site := call.site, words := words }
    pure []
  | none => M.fail "`log` should only take arguments that are either symbols, strings or numbers." call.site

/-- `expand_os_env_macro`, expander.rs:1008-1030. -/
def osEnvMacro (ext : Ext) (rec : Rec) (call : PNode) (params : List PNode) : M (List PNode) := do
  let params ← expandNodes rec params
  match params with
  | [v] =>
    match v.atomic? with
    | none => M.fail "`%os/env' argument must be atomic (not a list)." v.site
    | some a =>
      match ext.envVar a.value with
      | none => M.fail "No such environment variable visible." a.site
      | some value => pure [.string { value := value, site := a.site, lw := a.lw }]
  | _ => M.fail "`%os/env' expects excatly one argument." call.site

/-- The arguments of `%format`, expander.rs:1053-1072: name and value. -/
def formatArgs : List PNode → Res (List (Option Str × Str))
  | [] => .ok []
  | n :: ns => do
    let (name, v) : Option Str × PNode := match n with
      | .attr k v _ _ => (some k, v)
      | v => (none, v)
    match v.atomic? with
    | none => .err (expErr "In `%format', the compound type is not formattable." v.site)
    | some a => do
      let rest ← formatArgs ns
      .ok ((name, a.value) :: rest)

/-- `expand_format_macro`, expander.rs:1032-1087. -/
def formatMacro (ext : Ext) (rec : Rec) (call : PNode) (params : List PNode) : M (List PNode) := do
  let params ← expandNodes rec params
  match params with
  | [] => M.fail "`%format' expects at a format-string." call.site
  | .string f :: rest =>
    if ext.formatOk f.value then do
      let args ← M.lift (formatArgs rest)
      match ext.formatText f.value args with
      | some text => pure [.string (callNode call text)]
      | none => M.fail "Failed to format string." f.site
    else M.fail "Invalid format string." f.site
  | n :: _ => M.fail "First argument to `%format' must be a string." n.site

/-- The option loop of `%namespace`, expander.rs:1100-1113: the separator and
the remaining nodes. -/
def namespaceOpts (sep : Str) : List PNode → Res (Str × List PNode)
  | .attr k v s _ :: rest =>
    if k = str! "separator" then
      match v.atomic? with
      | some a => namespaceOpts a.value rest
      | none => .err (expErr "`%namespace' separator must be a symbol." v.site)
    else .err (expErr "Unknown option to `%namespace' macro." s)
  | rest => .ok (sep, rest)

/-- The export loop of `%namespace`, expander.rs:1117-1124: every definition
`key` of the inner context becomes `pre ++ key` in the outer one.  The Rust loop
goes over a hash map; the new keys are distinct because the prefix is fixed, so
the order does not matter (`Verif.Props.Scope`). -/
def exportScope (pre : Str) (inner outer : Scope) : Scope := fun name =>
  if pre.isPrefixOf name then
    match inner (name.drop pre.length) with
    | some m => some m
    | none => outer name
  else outer name

/-- `expand_namespace_macro`, expander.rs:1089-1127. -/
def namespaceMacro (rec : Rec) (call : PNode) (params : List PNode) : M (List PNode) := fun s =>
  match expandNodes rec params s with
  | (.ok args, s') =>
    let back : St := { s' with scope := s.scope }
    match args with
    | [] => M.fail "Expected a namespace name." call.site back
    | name :: opts =>
      match name.atomic? with
      | none => M.fail "Expected a namespace name." call.site back
      | some ns =>
        match namespaceOpts ['/'] opts with
        | .ok (sep, rest) =>
          (.ok rest, { s' with scope := exportScope (ns.value ++ sep) s'.scope s.scope })
        | .err e => (.err e, back)
        | .panic => (.panic, back)
        | .diverge => (.diverge, back)
  | (.err e, s') => (.err e, { s' with scope := s.scope })
  | (.panic, s') => (.panic, { s' with scope := s.scope })
  | (.diverge, s') => (.diverge, { s' with scope := s.scope })

/-- Schema of `%for`, expander.rs:1131-1136. -/
def forSchema : List ArgRule := [
  mandatory 1 (.any []), mandatory 2 (.symbol [.exactly (str! "in")]), mandatory 3 (.list [])]

/-- The loop of `%for`, expander.rs:1144-1148, in the copied context. -/
def forLoop (rec : Rec) (it : PNode) (body : List PNode) : List PNode → M (List PNode)
  | [] => pure []
  | item :: items => do
    bind it item
    let a ← expandNodes rec body
    let b ← forLoop rec it body items
    pure (a ++ b)

/-- `expand_for_macro`, expander.rs:1129-1151. -/
def forMacro (rec : Rec) (call : PNode) (params : List PNode) : M (List PNode) := do
  let args ← arguments forSchema (some (.any [])) call params
  let it ← M.lift (args.pos call 1)
  let _ ← M.lift (args.posNode call 2)
  let list ← M.lift (args.posList call 3)
  let list ← expandNodes rec list
  M.inner (forLoop rec it args.trailing list)

/-- `SortBy`, expander.rs:1167. -/
inductive SortBy | modified | created | name | type | none
deriving DecidableEq, Repr

/-- Order of path components: `Component` derives `Ord`. -/
def PComp.cmp : PComp → PComp → Ordering
  | .root, .root => .eq
  | .root, _ => .lt
  | _, .root => .gt
  | .cur, .cur => .eq
  | .cur, _ => .lt
  | _, .cur => .gt
  | .parent, .parent => .eq
  | .parent, _ => .lt
  | _, .parent => .gt
  | .normal a, .normal b => strCmp a b

/-- Order of `Path`s: lexicographic by components. -/
def compsCmp : List PComp → List PComp → Ordering
  | [], [] => .eq
  | [], _ :: _ => .lt
  | _ :: _, [] => .gt
  | a :: as, b :: bs => match PComp.cmp a b with | .eq => compsCmp as bs | o => o

/-- Order of natural numbers as an `Ordering`. -/
def natCmp (a b : Nat) : Ordering := if a < b then .lt else if b < a then .gt else .eq

/-- Reverse of an `Ordering`. -/
def revOrd : Ordering → Ordering
  | .lt => .gt
  | .gt => .lt
  | .eq => .eq

/-- Compare by time stamps with path as tie breaker, expander.rs:1213-1232. -/
def timeCmp (a b : Option Nat) (p q : List PComp) : Ordering :=
  match a, b with
  | some d0, some d1 => if d0 = d1 then compsCmp p q else revOrd (natCmp d0 d1)
  | _, _ => .lt

/-- `Ord for GlobPath`, expander.rs:1208-1267. -/
def globCmp (by_ : SortBy) (a b : GFile) : Ordering :=
  match by_ with
  | .created => timeCmp a.created b.created a.comps b.comps
  | .modified => timeCmp a.modified b.modified a.comps b.comps
  | .name => compsCmp a.comps b.comps
  | .type =>
    if a.isDir && b.isFile then .lt
    else if a.isFile && b.isDir then .gt
    else match a.ext, b.ext with
      | some e, some e' => if e = e' then compsCmp a.comps b.comps else strCmp e e'
      | some _, none => .gt
      | none, some _ => .lt
      | none, none => compsCmp a.comps b.comps
  | .none => .lt

/-- `BTreeSet::insert`: before the first greater element, not at all if an equal
one is met.  (A B-tree looks at separator keys first; for a comparison that is a
total order, and for the always-`Less` one, the result is the same.) -/
def btInsert {α : Type} (cmp : α → α → Ordering) (x : α) : List α → List α
  | [] => [x]
  | y :: ys =>
    match cmp x y with
    | .lt => x :: y :: ys
    | .eq => y :: ys
    | .gt => y :: btInsert cmp x ys

/-- Which files are wanted, expander.rs:1280-1284. -/
def globWanted (type : Option Str) (f : GFile) : Bool :=
  if type = some (str! "file") then f.isFile
  else if type = some (str! "directory") then f.isDir
  else true

/-- The loop over the paths, expander.rs:1271-1291. -/
def globCollect (site : Site) (type : Option Str) (by_ : SortBy) (acc : List GFile) :
    List (Option (Option GFile)) → Res (List GFile)
  | [] => .ok acc
  | none :: _ => .err (expErr "glob failed" site)
  | some none :: _ => .panic
  | some (some f) :: rest =>
    globCollect site type by_ (if globWanted type f then btInsert (globCmp by_) f acc else acc) rest

/-- The `sort` option, expander.rs:1176-1183; `none` is `unreachable!()`. -/
def sortByOf : Option Str → Option SortBy
  | none => some .none
  | some v =>
    if v = str! "modified" then some .modified
    else if v = str! "created" then some .created
    else if v = str! "name" then some .name
    else if v = str! "type" then some .type
    else if v = str! "none" then some .none
    else none

/-- Schema of `%glob`, expander.rs:1156-1161. -/
def globSchema : List ArgRule := [
  mandatory 1 (.literal []),
  optionalNamed (str! "type") (literalOf [str! "file", str! "directory", str! "any"]),
  optionalNamed (str! "sort") (literalOf [str! "modified", str! "created", str! "name", str! "type", str! "none"]),
  optionalNamed (str! "order") (literalOf [str! "ascending", str! "descending"])]

/-- Is the order option absent or `ascending`, expander.rs:1185 and 1412. -/
def isAscending (o : Option Node) : Bool :=
  match o with | none => true | some n => n.value == str! "ascending"

/-- `expand_glob_macro`, expander.rs:1153-1301.  The `type` option is one of its
three values after argument checking; the Rust `unreachable!()` for other values
is the panic branch. -/
def globMacro (ext : Ext) (rec : Rec) (call : PNode) (params : List PNode) : M (List PNode) := do
  let params ← expandNodes rec params
  let args ← arguments globSchema none call params
  let pat ← M.lift (args.posNode call 1)
  let type ← M.lift (args.opt (str! "type"))
  let sort ← M.lift (args.opt (str! "sort"))
  let order ← M.lift (args.opt (str! "order"))
  let type := type.map (·.value)
  if type = none ∨ type = some (str! "file") ∨ type = some (str! "directory") ∨ type = some (str! "any") then
    match sortByOf (sort.map (·.value)) with
    | none => M.panic
    | some by_ =>
      match ext.glob pat.value with
      | none => M.fail "Failed to read glob pattern." pat.site
      | some paths => do
        let files ← M.lift (globCollect pat.site type by_ [] paths)
        let files := if isAscending order then files else files.reverse
        pure (withFirstLw [] (files.map fun f => .string { value := f.text, site := pat.site, lw := [' '] }))
  else M.panic

/-- The builder loop of `%raw` and `%string`, expander.rs:1307-1315, 1329-1337. -/
def buildText : List PNode → Res Str
  | [] => .ok []
  | n :: ns =>
    match n.atomic? with
    | none => .err (expErr "Expected a literal, found another node instead." n.site)
    | some a => do
      let rest ← buildText ns
      .ok (a.lw ++ a.value ++ rest)

/-- `expand_raw_macro`, expander.rs:1303-1323. -/
def rawMacro (rec : Rec) (call : PNode) (params : List PNode) : M (List PNode) := do
  let args ← expandNodes rec params
  let text ← M.lift (buildText args)
  pure [.raw (callNode call text)]

/-- `expand_string_macro`, expander.rs:1325-1345. -/
def stringMacro (rec : Rec) (call : PNode) (params : List PNode) : M (List PNode) := do
  let args ← expandNodes rec params
  let text ← M.lift (buildText args)
  pure [.string (callNode call text)]

/-- `expand_number_macro`, expander.rs:1347-1358. -/
def numberMacro (rec : Rec) (call : PNode) (params : List PNode) : M (List PNode) := do
  let params ← expandNodes rec params
  let args ← arguments [] (some (.literal [])) call params
  let ns ← M.lift args.restNodes
  pure (ns.map .number)

/-- `expand_symbol_macro`, expander.rs:1360-1371. -/
def symbolMacro (rec : Rec) (call : PNode) (params : List PNode) : M (List PNode) := do
  let params ← expandNodes rec params
  let args ← arguments [] (some (.literal [])) call params
  let ns ← M.lift args.restNodes
  pure (ns.map .symbol)

/-- The nodes of a list with the leading whitespace given by another list:
the n-th node gets the n-th whitespace. -/
def layoutOf (layout items : List PNode) : List PNode :=
  List.zipWith (fun l n => n.setLw l.lw) layout items

/-- `expand_reverse_macro`, expander.rs:1373-1398. -/
def reverseMacro (rec : Rec) (call : PNode) (params : List PNode) : M (List PNode) := do
  let params ← expandNodes rec params
  let args ← arguments [mandatory 1 (.list [])] none call params
  let list ← M.lift (args.posList call 1)
  match params with
  | .list _ s e w :: _ => pure [.list (layoutOf list list.reverse) s e w]
  | _ => M.panic

/-- The comparison of `%sort` keys, expander.rs:1467-1476, in ascending order. -/
def keyCmp (ext : Ext) (a b : Str) : Ordering :=
  match parseI64 a, parseI64 b with
  | some x, some y => if x < y then .lt else if y < x then .gt else .eq
  | _, _ =>
    match ext.floatCmp a b with
    | some o => o
    | none => strCmp a b

/-- `items.sort_by`, expander.rs:1465-1477: a stable sort.  (For comparisons that
are not transitive Rust leaves the result unspecified and may panic.) -/
def sortItems (ext : Ext) (ascending : Bool) (items : List (Str × PNode)) : List (Str × PNode) :=
  items.mergeSort fun a b =>
    if ascending then keyCmp ext a.1 b.1 != .gt else keyCmp ext b.1 a.1 != .gt

/-- Replace the error of a computation, expander.rs:1431-1440; its effects are kept. -/
def rethrow {α : Type} (msg : String) (site : Site) (m : M α) : M α := fun s =>
  match m s with
  | (.err _, s') => M.fail msg site s'
  | r => r

/-- Evaluate the keys, expander.rs:1429-1461. -/
def sortKeys (rec : Rec) (call : PNode) (keyFn : Str) (keySite : Site) : List PNode → M (List (Str × PNode))
  | [] => pure []
  | n :: ns => do
    let key ← rethrow "Error evaluating `:key` macro." keySite (rec (.invoke keyFn call [n]))
    match key with
    | [] => M.fail "`:key` macro did not yield any value to compare against." keySite
    | [k] =>
      match k.atomic? with
      | none => M.fail "List items in `%sort` must resolve to literals under `:key`." k.site
      | some a => do
        let rest ← sortKeys rec call keyFn keySite ns
        pure ((a.value, n) :: rest)
    | _ => M.fail "`:key` macro expanded to more than one value." keySite

/-- Schema of `%sort`, expander.rs:1403-1407. -/
def sortSchema : List ArgRule := [
  mandatory 1 (.any []),
  optionalNamed (str! "order") (literalOf [str! "ascending", str! "descending"]),
  optionalNamed (str! "key") (.symbol [])]

/-- `expand_sort_macro`, expander.rs:1400-1493. -/
def sortMacro (ext : Ext) (rec : Rec) (call : PNode) (params : List PNode) : M (List PNode) := do
  let params ← expandNodes rec params
  let args ← arguments sortSchema none call params
  let arg ← M.lift (args.pos call 1)
  let order ← M.lift (args.opt (str! "order"))
  let key ← M.lift (args.opt (str! "key"))
  let keySite := match key with | some k => k.site | none => call.site
  let keyFn := match key with | some k => k.value | none => str! "do"
  match arg with
  | .list nodes site e _ => do
    let items ← sortKeys rec call keyFn keySite nodes
    let sorted := (sortItems ext (isAscending order) items).map (·.2)
    pure [.list (layoutOf nodes sorted) site e call.lw]
  | n => M.fail "`%sort` expects a list." n.site

/-- Schema of `%join`, expander.rs:1498-1502. -/
def joinSchema : List ArgRule := [
  mandatory 1 (.literal []),
  optionalNamed (str! "trailing") (literalOf [str! "true", str! "false"])]

/-- `expand_join_macro`, expander.rs:1495-1515. -/
def joinMacro (rec : Rec) (call : PNode) (params : List PNode) : M (List PNode) := do
  let params ← expandNodes rec params
  let args ← arguments joinSchema (some (.literal [])) call params
  let sep ← M.lift (args.posNode call 1)
  let trailing ← M.lift (args.opt (str! "trailing"))
  let items ← M.lift args.restNodes
  let tail := match trailing with
    | some t => if t.value = str! "true" then sep.value else []
    | none => []
  pure [.string (callNode call (joinStr sep.value (items.map (·.value)) ++ tail))]

/-- `expand_concat_macro`, expander.rs:1517-1536. -/
def concatMacro (rec : Rec) (call : PNode) (params : List PNode) : M (List PNode) := do
  let params ← expandNodes rec params
  let args ← arguments [] (some (.literal [])) call params
  let items ← M.lift args.restNodes
  pure [.string (callNode call (items.foldl (fun acc x => acc ++ x.value) []))]

/-- The loop of `%map`, expander.rs:1547-1549. -/
def mapLoop (rec : Rec) (call : PNode) (f : Str) : List PNode → M (List PNode)
  | [] => pure []
  | a :: as => do
    let r ← rec (.invoke f call [a])
    let rs ← mapLoop rec call f as
    pure (r ++ rs)

/-- `expand_map_macro`, expander.rs:1538-1551. -/
def mapMacro (rec : Rec) (call : PNode) (params : List PNode) : M (List PNode) := do
  let params ← expandNodes rec params
  let args ← arguments [mandatory 1 (.symbol [])] (some (.any [])) call params
  let f ← M.lift (args.posNode call 1)
  mapLoop rec call f.value args.trailing

/-- Is this the single empty list that `%filter` drops, expander.rs:1566. -/
def isNull : List PNode → Bool
  | [n] => n.null
  | _ => false

/-- The loop of `%filter`, expander.rs:1563-1569. -/
def filterLoop (rec : Rec) (call : PNode) (f : Str) : List PNode → M (List PNode)
  | [] => pure []
  | a :: as => do
    let r ← rec (.invoke f call [a])
    let rs ← filterLoop rec call f as
    pure (if isNull r then rs else r ++ rs)

/-- `expand_filter_macro`, expander.rs:1554-1571. -/
def filterMacro (rec : Rec) (call : PNode) (params : List PNode) : M (List PNode) := do
  let params ← expandNodes rec params
  let args ← arguments [mandatory 1 (.symbol [])] (some (.any [])) call params
  let f ← M.lift (args.posNode call 1)
  filterLoop rec call f.value args.trailing

/-- The loop of `%splat`, expander.rs:1577-1587. -/
def splat : List PNode → List PNode
  | [] => []
  | .list ns _ _ w :: rest => withFirstLw w ns ++ splat rest
  | n :: rest => n :: splat rest

/-- `expand_splat_macro`, expander.rs:1573-1589. -/
def splatMacro (rec : Rec) (params : List PNode) : M (List PNode) := do
  let params ← expandNodes rec params
  pure (splat params)

/-- `expand_list_macro`, expander.rs:1591-1605. -/
def listMacro (rec : Rec) (call : PNode) (params : List PNode) : M (List PNode) := do
  let params ← expandNodes rec params
  match call with
  | .list _ s e w => pure [.list params s e w]
  | _ => M.panic

/-- `expand_strip_macro`, expander.rs:1607-1614. -/
def stripMacro (rec : Rec) (params : List PNode) : M (List PNode) := do
  let params ← expandNodes rec params
  pure (withFirstLw [] params)

/-- `expand_apply_macro`, expander.rs:1616-1625. -/
def applyMacro (rec : Rec) (call : PNode) (params : List PNode) : M (List PNode) := do
  let params ← expandNodes rec params
  let args ← arguments [mandatory 1 (.symbol [])] (some (.any [])) call params
  let f ← M.lift (args.posNode call 1)
  rec (.invoke f.value call args.trailing)

/-- `expand_lambda_macro`, expander.rs:1627-1657. -/
def lambdaMacro (ext : Ext) (call : PNode) (params : List PNode) : M (List PNode) := do
  let args ← arguments [mandatory 1 (.any [])] (some (.any [])) call params
  let head ← M.lift (args.pos call 1)
  let name := str! "__lambda" ++ ext.uuid call.site
  let arglist ← match head with
    | .list ns _ _ _ => pure ns
    | .symbol a => pure [PNode.symbol a]
    | n => M.fail "Expected argument(s) as symbol or list of arguments." n.site
  createMacro name arglist args.trailing
  pure [.symbol (callNode call name)]

/-- `expand_macro` with `apply_macro`, expander.rs:1695-1720. -/
def userMacro (rec : Rec) (name : Str) (call : PNode) (params : List PNode) : M (List PNode) := do
  let params ← expandNodes rec params
  let d ← M.lookup name
  match d with
  | none => M.fail "Macro not found." call.site
  | some m => M.inner do
    bindList call m.params params
    expandNodes rec m.body

/-- The built-in macros, expander.rs:1729-1764. -/
inductive Builtin
  | define | match_ | ifdef | do_ | get | raw | string | number | symbol | include_ | embed
  | namespace_ | markdown | yaml | toml | glob | for_ | sort | reverse | date | timestamp
  | join | concat | map | filter | splat | list | strip | apply | lambda | log | format | osEnv
deriving DecidableEq, Repr

/-- The names of `expand_invocation`, expander.rs:1729-1764. -/
def builtinTable : List (Str × Builtin) := [
  (str! "define", .define), (str! "match", .match_), (str! "ifdef", .ifdef), (str! "do", .do_),
  (str! "get", .get), (str! "raw", .raw), (str! "string", .string), (str! "number", .number),
  (str! "symbol", .symbol), (str! "include", .include_), (str! "embed", .embed),
  (str! "namespace", .namespace_), (str! "markdown", .markdown), (str! "yaml", .yaml),
  (str! "json", .yaml), (str! "toml", .toml), (str! "glob", .glob), (str! "for", .for_),
  (str! "sort", .sort), (str! "reverse", .reverse), (str! "date", .date),
  (str! "timestamp", .timestamp), (str! "join", .join), (str! "concat", .concat),
  (str! "map", .map), (str! "filter", .filter), (str! "splat", .splat), (str! "list", .list),
  (str! "strip", .strip), (str! "apply", .apply), (str! "lambda", .lambda), (str! "log", .log),
  (str! "format", .format), (str! "os/env", .osEnv)]

/-- The `match name` of `expand_invocation`, expander.rs:1729. -/
def builtin? (name : Str) : Option Builtin := amGet name builtinTable

/-- The arms of `expand_invocation`, expander.rs:1730-1763. -/
def runBuiltin (ext : Ext) (rec : Rec) (b : Builtin) (call : PNode) (params : List PNode) : M (List PNode) :=
  match b with
  | .define => defineMacro rec call params
  | .match_ => matchMacro rec call params
  | .ifdef => ifdefMacro rec call params
  | .do_ => expandNodes rec params
  | .get => getMacro rec call params
  | .raw => rawMacro rec call params
  | .string => stringMacro rec call params
  | .number => numberMacro rec call params
  | .symbol => symbolMacro rec call params
  | .include_ => includeMacro ext rec call params
  | .embed => embedMacro ext rec call params
  | .namespace_ => namespaceMacro rec call params
  | .markdown => markdownMacro ext rec call params
  | .yaml => yamlMacro ext rec call params
  | .toml => tomlMacro ext rec call params
  | .glob => globMacro ext rec call params
  | .for_ => forMacro rec call params
  | .sort => sortMacro ext rec call params
  | .reverse => reverseMacro rec call params
  | .date => dateMacro ext rec call params
  | .timestamp => timestampMacro ext rec call params
  | .join => joinMacro rec call params
  | .concat => concatMacro rec call params
  | .map => mapMacro rec call params
  | .filter => filterMacro rec call params
  | .splat => splatMacro rec params
  | .list => listMacro rec call params
  | .strip => stripMacro rec params
  | .apply => applyMacro rec call params
  | .lambda => lambdaMacro ext call params
  | .log => logMacro rec call params
  | .format => formatMacro ext rec call params
  | .osEnv => osEnvMacro ext rec call params

/-- `expand_invocation`, expander.rs:1722-1766. -/
def expandInvocation (ext : Ext) (rec : Rec) (name : Str) (call : PNode) (params : List PNode) : M (List PNode) :=
  match builtin? name with
  | some b => runBuiltin ext rec b call params
  | none => userMacro rec name call params

/-- The name after `%` if the string starts with it, expander.rs:1774, 1811. -/
def macroName? : Str → Option Str
  | '%' :: name => some name
  | _ => none

/-- Delete the blanks before the first argument unless they contain a newline,
expander.rs:1815-1820. -/
def trimFirstParam : List PNode → List PNode
  | [] => []
  | p :: ps => p.setLw (firstLw p.lw) :: ps

/-- A symbol that names a variable, expander.rs:1774-1793. -/
def expandVariable (rec : Rec) (sym : Node) (name : Str) : M (List PNode) := do
  let d ← M.lookup name
  match d with
  | none => M.fail "No such macro." sym.site
  | some m =>
    if m.params.isEmpty then do
      let body ← expandNodes rec m.body
      pure (withFirstLw sym.lw body)
    else M.fail "This is a macro that takes arguments, and cannot be used as a variable." sym.site

/-- `expand_node`, expander.rs:1768-1851. -/
def expandNode (rec : Rec) : PNode → M (List PNode)
  | .symbol a =>
    match macroName? a.value with
    | some name => expandVariable rec a name
    | none => pure [.symbol a]
  | .list [] s e w => pure [.list [] s e w]
  | .list (h :: t) s e w =>
    match h.symbol?.bind (fun a => macroName? a.value) with
    | some name => rec (.invoke name (.list (h :: t) s e w) (trimFirstParam t))
    | none => do
      let ns ← expandNodes rec (h :: t)
      pure [.list ns s e w]
  | .attr k n s w => do
    let ns ← rec (.node n)
    match ns with
    | [] => M.panic
    | n' :: rest => pure (.attr k n' s w :: rest)
  | n => pure [n]

/-- One level of the recursion. -/
def step (ext : Ext) (rec : Rec) : Rec
  | .node n => expandNode rec n
  | .invoke name call params => expandInvocation ext rec name call params

/-- The recursion with a bound on its depth. -/
def run (ext : Ext) : (fuel : Nat) → Rec
  | 0, _ => M.lift .diverge
  | fuel + 1, c => step ext (run ext fuel) c

/-- The state of a new `Expander`, expander.rs:99-108; buffer 1 is the main
source. -/
def St.init (order : Order) : St := { scope := Scope.empty, fresh := 2, log := [], hashes := 0, order := order }

/-- `Expander::expand`, expander.rs:1862-1866. -/
def expand (ext : Ext) (order : Order) (fuel : Nat) (path code : Str) : Res (List PNode) × St :=
  match parse ext.unescape { path := path, id := 1, code := code } with
  | .ok tree => expandNodes (run ext fuel) tree (St.init order)
  | .err e => (.err e, St.init order)
  | .panic => (.panic, St.init order)
  | .diverge => (.diverge, St.init order)

end Seam
