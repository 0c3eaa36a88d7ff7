import Verif.Spec.Control
import Verif.Spec.Builtins
import Verif.Spec.Machine

/-!
# Expansion on a bounded stack

The functions that expand a node and that call a macro call each other.  One level is one active call of either.
-/

namespace Seam.Spec

/-- With `levels` levels, expanding the nodes finishes with the nodes `out`. -/
def InLevels (ext : Ext) (levels : Nat) (ns : List PNode) (s : St) (out : List PNode) (t : St) : Prop :=
  expandNodes (run ext levels) ns s = (.ok out, t)

/-- With `levels` levels, the call of the macro `f` with the argument `x` (in the place of the call `c`) finishes with the nodes `out`. -/
def CallInLevels (ext : Ext) (levels : Nat) (f : Str) (c x : PNode) (s : St) (out : List PNode) (t : St) : Prop :=
  run ext levels (.invoke f c [x]) s = (.ok out, t)

/-- Each item is bound to the pattern in turn and the body expanded, each time with `levels` levels. -/
inductive Rounds (ext : Ext) (levels : Nat) (it : PNode) (body : List PNode) : List PNode → St → List PNode → St → Prop
  | done (s : St) : Rounds ext levels it body [] s [] s
  | item (x : PNode) (xs as bs : List PNode) (s u v t : St) : Binds it x s u → InLevels ext levels body u as v →
      Rounds ext levels it body xs v bs t → Rounds ext levels it body (x :: xs) s (as ++ bs) t

/-- The macro is called with each item in turn, each time with `levels` levels. -/
inductive TurnsIn (ext : Ext) (levels : Nat) (f : Str) (c : PNode) : List PNode → St → List (List PNode) → St → Prop
  | done (s : St) : TurnsIn ext levels f c [] s [] s
  | item (x : PNode) (xs as : List PNode) (rest : List (List PNode)) (s u t : St) : CallInLevels ext levels f c x s as u →
      TurnsIn ext levels f c xs u rest t → TurnsIn ext levels f c (x :: xs) s (as :: rest) t

/-- Started in the configuration, the machine makes at least `m` steps. -/
inductive Walks (p : List Instr) : Nat → Config → Prop
  | start (c : Config) : Walks p 0 c
  | step (m : Nat) (c d : Config) (i : Instr) : p[c.pc]? = some i → i.next c = some d → Walks p m d → Walks p (m + 1) c

end Seam.Spec
