import Verif.Model.Expander

/-! States with more definitions, and runs that do not ask whether something is undefined. -/

namespace Seam.Spec

/-- The state `t` has all definitions of `s`, and maybe more.  The lines `pre` were logged
before those of `s`. -/
structure More (pre : List LogLine) (s t : St) : Prop where
  scope : ∀ name m, s.scope name = some m → t.scope name = some m
  log : t.log = pre ++ s.log
  fresh : t.fresh = s.fresh
  hashes : t.hashes = s.hashes
  order : t.order = s.order

/-- The call is one of `%namespace`, or one of `%ifdef` for a name that is not defined. -/
def asksUndefined (scope : Scope) (name : Str) (params : List PNode) : Bool :=
  match builtin? name with
  | some .namespace_ => true
  | some .ifdef =>
    match params with
    | c :: _ =>
      match c.atomic? with
      | some a => (scope a.value).isNone
      | none => false
    | [] => false
  | _ => false

/-- The expander, except that a call of `%namespace`, and a call of `%ifdef` for a name that
is not defined, has no outcome. -/
def sureRun (ext : Ext) : (fuel : Nat) → Rec
  | 0, _ => M.lift .diverge
  | fuel + 1, .node n => step ext (sureRun ext fuel) (.node n)
  | fuel + 1, .invoke name call params => fun s =>
    if asksUndefined s.scope name params then (.diverge, s)
    else step ext (sureRun ext fuel) (.invoke name call params) s

/-- Expanding the nodes `ns` in the state `s` finishes with outcome `r` and state `s'`,
and on the way `%namespace` is not called, nor `%ifdef` for a name that is not defined. -/
def SureEvals (ext : Ext) (ns : List PNode) (s : St) (r : Res (List PNode)) (s' : St) : Prop :=
  r ≠ .diverge ∧ ∃ fuel, expandNodes (sureRun ext fuel) ns s = (r, s')

end Seam.Spec
