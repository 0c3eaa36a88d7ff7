import Verif.Model.Expander

/-!
# The expander without its known crashes

The known crashes of the expander are: a keyword whose value expands to nothing, YAML
data whose events the converter does not expect (a mapping or a sequence as a key), a
timezone offset that overflows, a date format that cannot be printed, and a path that
`glob` finds but cannot look at.  Here each of them is replaced by an ordinary outcome.
-/

namespace Seam.Spec

open Classical in
/-- The outside world, with data that crashes the program replaced: YAML that crashes
the converter is refused by the YAML parser, an offset that overflows is not a number, a
format that cannot be printed gives no text, and a path that cannot be looked at
makes `glob` fail. -/
noncomputable def calmed (ext : Ext) : Ext :=
  { ext with
    yaml := fun text =>
      if ∃ site sep s, (yEvents site sep YSink.init (ext.yaml text).1 s).1 = .panic then ([], false) else ext.yaml text
    fixed := fun text =>
      match ext.fixed text with
      | some bits => if tzSeconds bits = none then none else some bits
      | none => none
    date := fun t off fmt => some ((ext.date t off fmt).getD [])
    glob := fun p => (ext.glob p).map fun fs => fs.map fun f =>
      match f with
      | some none => none
      | f => f }

/-- `expandNode` with an error for a keyword whose value expands to nothing. -/
def mendedNode (rec : Rec) : PNode → M (List PNode)
  | .attr k n s w => do
    let ns ← rec (.node n)
    match ns with
    | [] => M.fail "The value of the keyword is missing." s
    | n' :: rest => pure (.attr k n' s w :: rest)
  | n => expandNode rec n

/-- The recursion of the expander with `mendedNode`. -/
def mendedRun (ext : Ext) : (fuel : Nat) → Rec
  | 0, _ => M.lift .diverge
  | fuel + 1, .node n => mendedNode (mendedRun ext fuel) n
  | fuel + 1, .invoke name call params => expandInvocation ext (mendedRun ext fuel) name call params

/-- `expand` with `mendedNode` and the calmed outside world. -/
noncomputable def mendedExpand (ext : Ext) (order : Order) (fuel : Nat) (path code : Str) : Res (List PNode) × St :=
  match parse ext.unescape { path := path, id := 1, code := code } with
  | .ok tree => expandNodes (mendedRun (calmed ext) fuel) tree (St.init order)
  | .err e => (.err e, St.init order)
  | .panic => (.panic, St.init order)
  | .diverge => (.diverge, St.init order)

end Seam.Spec
