import Verif.Spec.Exchange
import Verif.Spec.Control

/-! Working out parts of a program beforehand. -/

namespace Seam.Spec

open Seam

/-- The expander, except that it has no outcome if it comes to a node that is not `fine` in the state at that time. -/
def guardRun (ext : Ext) (fine : PNode → St → Bool) : (fuel : Nat) → Rec
  | 0, _ => M.lift .diverge
  | fuel + 1, .node n => fun s => if fine n s then step ext (guardRun ext fine fuel) (.node n) s else (.diverge, s)
  | fuel + 1, .invoke name call ps => step ext (guardRun ext fine fuel) (.invoke name call ps)

/-- Expanding the nodes `ns` in the state `s` finishes with outcome `r` and state `t`, and every node that is expanded on
the way, also in bodies of macros and in included files, is `fine` in the state at that time. -/
def Watched (ext : Ext) (fine : PNode → St → Bool) (ns : List PNode) (s : St) (r : Res (List PNode)) (t : St) : Prop :=
  r ≠ .diverge ∧ ∃ fuel, expandNodes (guardRun ext fine fuel) ns s = (r, t)

/-- A use of the variable `x`, and the nodes `vs` with the whitespace in front of the use. -/
def WrittenOut (x : Str) (vs as bs : List PNode) : Prop :=
  ∃ u : Node, u.value = '%' :: x ∧ as = [.symbol u] ∧ bs = firstSpaced u.lw vs

end Seam.Spec
