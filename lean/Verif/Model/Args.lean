import Verif.Model.Parser

/-!
# Macro-argument checking (crates/seam/src/parse/macros.rs and the code that
`arguments! { ... }` of crates/seam_argparse_proc_macro/src/lib.rs generates)
-/

namespace Seam

/-- Error value shorthand for `ExpansionError`, expander.rs:30-37. -/
def expErr (msg : String) (site : Site) : Err := { stage := .expand, msg := msg, site := site }

/-- `ArgPredicate`, macros.rs:13-17.  A regular expression is represented by the
set of strings it matches, a predicate function by its answer. -/
inductive ArgPred where
  | exactly (value : Str)
  | matching (re : Str → Bool)
  | satisfying (test : PNode → Bool)

/-- `ArgPredicate::check`, macros.rs:37-50 (with `check_node`, 20-36): whether
the result is `Ok`.  The error texts only enter the text of `check_all`'s error. -/
def ArgPred.check : ArgPred → PNode → Bool
  | .exactly v, n => match n.atomic? with | some a => a.value == v | none => false
  | .matching re, n => match n.atomic? with | some a => re a.value | none => false
  | .satisfying test, n => test n

/-- `check_all`, macros.rs:72-98. -/
def checkAll (preds : List ArgPred) (n : PNode) : Res Unit :=
  if preds.isEmpty then .ok ()
  else if preds.any (·.check n) then .ok ()
  else .err (expErr "This argument's value did not satisfy one of the following:" n.site)

/-- `ArgType`, macros.rs:62-70. -/
inductive ArgType where
  | literal (preds : List ArgPred)
  | string (preds : List ArgPred)
  | symbol (preds : List ArgPred)
  | number (preds : List ArgPred)
  | symbolic (preds : List ArgPred)
  | list (types : List ArgType)
  | any (preds : List ArgPred)

mutual
/-- `ArgType::check`, macros.rs:114-155. -/
def ArgType.check : ArgType → PNode → Res Unit
  | t, .symbol n =>
    match t with
    | .literal p | .symbol p | .symbolic p | .any p => checkAll p (.symbol n)
    | _ => .err (expErr "Expected a different node." n.site)
  | t, .string n =>
    match t with
    | .literal p | .string p | .any p => checkAll p (.string n)
    | _ => .err (expErr "Expected a different node." n.site)
  | t, .raw n =>
    match t with
    | .literal p | .string p | .any p => checkAll p (.raw n)
    | _ => .err (expErr "Expected a different node." n.site)
  | t, .number n =>
    match t with
    | .literal p | .symbolic p | .number p | .any p => checkAll p (.number n)
    | _ => .err (expErr "Expected a different node." n.site)
  | .list ts, .list ns s _ _ =>
    if ts.length != 0 && ns.length != ts.length then
      .err (expErr "Unexpected number of items in list." s)
    else ArgType.checkZip ts ns
  | .any p, .list ns s e w => checkAll p (.list ns s e w)
  | _, .list _ s _ _ => .err (expErr "Expected a different node." s)
  | .any p, .attr k v s w => checkAll p (.attr k v s w)
  | _, .attr _ _ s _ => .err (expErr "Unknown attribute." s)
/-- The loop `for (arg_type, node) in zip(arg_types, nodes)`, macros.rs:142-144. -/
def ArgType.checkZip : List ArgType → List PNode → Res Unit
  | t :: ts, n :: ns => do
    let _ ← ArgType.check t n
    ArgType.checkZip ts ns
  | _, _ => .ok ()
end

/-- `ArgPos`, macros.rs:175. -/
inductive ArgPos
  | int (n : Nat)
  | str (k : Str)
deriving DecidableEq, Repr

/-- `ArgPattern` with its `Arg`, macros.rs:160-163 and 235-238: the positions the
rule is for, whether it is mandatory, and the type. -/
structure ArgRule where
  pattern : ArgPos → Bool
  mandatory : Bool
  type : ArgType

/-- `ArgRules`, macros.rs:243-246. -/
structure ArgRules where
  patterns : List ArgRule
  trailing : Option ArgType

/-- `count_mandatory`, macros.rs:269-278. -/
def ArgRules.countMandatory (r : ArgRules) : Nat := (r.patterns.filter (·.mandatory)).length

/-- `HashMap::insert` on an association list (used for all small local maps). -/
def amInsert {α β : Type} [BEq α] (k : α) (v : β) : List (α × β) → List (α × β)
  | [] => [(k, v)]
  | (k', v') :: m => if k' == k then (k, v) :: m else (k', v') :: amInsert k v m

/-- `HashMap::get` on an association list. -/
def amGet {α β : Type} [BEq α] (k : α) : List (α × β) → Option β
  | [] => none
  | (k', v) :: m => if k' == k then some v else amGet k m

/-- `HashMap::remove` on an association list (the remaining map). -/
def amRemove {α β : Type} [BEq α] (k : α) : List (α × β) → List (α × β)
  | [] => []
  | (k', v) :: m => if k' == k then m else (k', v) :: amRemove k m

/-- `ArgParser`, macros.rs:282-288, without the borrowed call node and rules. -/
structure ArgParser where
  positional : List (Nat × PNode)
  named : List (Str × PNode)
  trailing : List PNode
deriving Repr, Inhabited

/-- State of the loop of `ArgParser::new`: the parser, `position`, `mandatory_count`. -/
structure ArgLoop where
  parser : ArgParser
  position : Nat
  count : Nat

/-- One iteration of the loop in `ArgParser::new`, macros.rs:301-360. -/
def argStep (rules : ArgRules) (st : ArgLoop) (param : PNode) : Res ArgLoop :=
  let (matcher, paramNode, position) : ArgPos × PNode × Nat :=
    match param with
    | .attr k n _ _ => (.str k, n, st.position)
    | p => (.int (st.position + 1), p, st.position + 1)
  match rules.patterns.find? (fun r => r.pattern matcher) with
  | some rule => do
    let _ ← rule.type.check paramNode
    let parser := match matcher with
      | .int i => { st.parser with positional := amInsert i paramNode st.parser.positional }
      | .str k => { st.parser with named := amInsert k paramNode st.parser.named }
    .ok { parser := parser, position := position,
          count := if rule.mandatory then st.count + 1 else st.count }
  | none =>
    match rules.trailing with
    | some t => do
      let _ ← t.check param
      .ok { st with position := position,
                    parser := { st.parser with trailing := st.parser.trailing ++ [param] } }
    | none => .err (expErr "Unexpected argument." param.site)

/-- The loop of `ArgParser::new`, macros.rs:301-360. -/
def argLoop (rules : ArgRules) (st : ArgLoop) : List PNode → Res ArgLoop
  | [] => .ok st
  | p :: ps => do
    let st ← argStep rules st p
    argLoop rules st ps

/-- `ArgParser::new`, macros.rs:291-373. -/
def ArgParser.new (rules : ArgRules) (call : PNode) (params : List PNode) : Res ArgParser := do
  let st ← argLoop rules { parser := { positional := [], named := [], trailing := [] }, position := 0, count := 0 } params
  if st.count < rules.countMandatory then
    let lastSite := match params.getLast? with | some n => n.site | none => call.site
    .err (expErr "Missing non-optional argument(s) from macro call." lastSite)
  else .ok st.parser

/-- `TryFrom<ParseNode> for Node` followed by `expect`, parser.rs:281-290 and
seam_argparse_proc_macro lib.rs:270-273: extraction of a literal, string,
symbol, number or symbolic argument. -/
def toNode (n : PNode) : Res Node :=
  match n.atomic? with
  | some a => .ok a
  | none => .panic

/-- `TryFrom<ParseNode> for Vec<ParseNode>` followed by `expect`, parser.rs:303-310:
extraction of a list argument. -/
def toNodes (n : PNode) : Res (List PNode) :=
  match n.list? with
  | some ns => .ok ns
  | none => .panic

/-- `parser.get(i)?` for a mandatory positional argument, macros.rs:385-396. -/
def ArgParser.pos (p : ArgParser) (call : PNode) (i : Nat) : Res PNode :=
  match amGet i p.positional with
  | some n => .ok n
  | none => .err (expErr "Argument not given." call.site)

/-- A mandatory positional argument of an atomic type, lib.rs:296-305. -/
def ArgParser.posNode (p : ArgParser) (call : PNode) (i : Nat) : Res Node := do
  let n ← p.pos call i
  toNode n

/-- A mandatory positional argument of list type, lib.rs:296-305. -/
def ArgParser.posList (p : ArgParser) (call : PNode) (i : Nat) : Res (List PNode) := do
  let n ← p.pos call i
  toNodes n

/-- An optional argument of an atomic type, lib.rs:275-281 and 307-316. -/
def optNode : Option PNode → Res (Option Node)
  | none => .ok none
  | some n => do
    let a ← toNode n
    .ok (some a)

/-- An optional positional argument of an atomic type, lib.rs:307-316. -/
def ArgParser.posOpt (p : ArgParser) (i : Nat) : Res (Option Node) := optNode (amGet i p.positional)

/-- An optional named argument of an atomic type, lib.rs:275-281. -/
def ArgParser.opt (p : ArgParser) (k : Str) : Res (Option Node) := optNode (amGet k p.named)

/-- Conversion of a list of trailing arguments, lib.rs:325-337. -/
def toNodeList : List PNode → Res (List Node)
  | [] => .ok []
  | n :: ns => do
    let a ← toNode n
    let as ← toNodeList ns
    .ok (a :: as)

/-- The trailing arguments at an atomic type, lib.rs:325-337. -/
def ArgParser.restNodes (p : ArgParser) : Res (List Node) := toNodeList p.trailing

/-- Position pattern `(i)`. -/
def atPos (i : Nat) : ArgPos → Bool := fun p => p == .int i
/-- Position pattern `("name")`. -/
def atName (k : Str) : ArgPos → Bool := fun p => p == .str k

/-- Schema entry `mandatory(i): t`. -/
def mandatory (i : Nat) (t : ArgType) : ArgRule := { pattern := atPos i, mandatory := true, type := t }
/-- Schema entry `optional(i): t`. -/
def optionalPos (i : Nat) (t : ArgType) : ArgRule := { pattern := atPos i, mandatory := false, type := t }
/-- Schema entry `optional("k"): t`. -/
def optionalNamed (k : Str) (t : ArgType) : ArgRule := { pattern := atName k, mandatory := false, type := t }
/-- Schema type `literal["a", "b", ...]`. -/
def literalOf (vs : List Str) : ArgType := .literal (vs.map .exactly)

end Seam
