import Verif.Spec.Asks

/-! Which definitions an expansion looks up, and which ones it makes. -/

namespace Seam.Spec

/-- May this be done if only the allowed names may be looked up?  A variable `%x` looks up `x`, a call
of a macro that is not built in looks up its name, `%ifdef` looks up its first argument.  A call of
`%namespace` exports every definition and is not allowed. -/
def mayLook (allowed : Str → Bool) : Call → Bool
  | .node (.symbol a) =>
    match a.value with
    | '%' :: x => allowed x
    | _ => true
  | .node _ => true
  | .invoke name _ params =>
    match builtin? name with
    | none => allowed name
    | some .namespace_ => false
    | some .ifdef =>
      match params.head?.bind literalValue with
      | some x => allowed x
      | none => true
    | some _ => true

/-- The expander, except that it has no outcome if it does what it may not. -/
def lookRun (ext : Ext) (allowed : Str → Bool) : (fuel : Nat) → Rec
  | 0, _ => M.lift .diverge
  | fuel + 1, c => if mayLook allowed c then step ext (lookRun ext allowed fuel) c else M.lift .diverge

/-- Expanding the nodes `ns` in the state `s` finishes with outcome `r` and state `s'`, and on the way
only allowed names are looked up. -/
def LookEvals (ext : Ext) (allowed : Str → Bool) (ns : List PNode) (s : St) (r : Res (List PNode)) (s' : St) : Prop :=
  r ≠ .diverge ∧ ∃ fuel, expandNodes (lookRun ext allowed fuel) ns s = (r, s')

/-- The two states have the same definitions for the allowed names.  The lines `pre` were logged
before those of `s`. -/
structure AgreeOn (allowed : Str → Bool) (pre : List LogLine) (s t : St) : Prop where
  scope : ∀ x, allowed x = true → t.scope x = s.scope x
  log : t.log = pre ++ s.log
  fresh : t.fresh = s.fresh
  hashes : t.hashes = s.hashes
  order : t.order = s.order

/-- The run of `ns` from `s` to `s'` with outcome `r` makes definitions for exactly the names `defs`, as
far as anybody can see: from every state with the same definitions for the allowed names there is a run
with the same outcome and log lines, after which the names `defs` mean what they mean in `s'` and all
others mean what they meant before. -/
def Makes (ext : Ext) (allowed : Str → Bool) (ns : List PNode) (s : St) (r : Res (List PNode)) (s' : St)
    (defs : Str → Prop) : Prop :=
  ∀ pre t, AgreeOn allowed pre s t → ∃ t', LookEvals ext allowed ns t r t' ∧ AgreeOn allowed pre s' t' ∧
    ∀ x, (defs x → t'.scope x = s'.scope x) ∧ (¬ defs x → t'.scope x = t.scope x)

end Seam.Spec
