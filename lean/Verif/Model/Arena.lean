import Verif.Model.Basic
import Verif.Model.Parser

/-!
# The store of macro-call nodes (crates/seam/src/parse/expander.rs:157-169)

`register_invocation` pushes a node onto a `Vec` and returns a reference to it
whose lifetime is not tied to the vector (it goes through a raw pointer).  The
reference stays valid only as long as the vector does not move its elements.
This is a model of `Vec::push`'s growth: elements live in an allocation; a push
onto a full vector makes a new, larger allocation and frees the old one.
-/

namespace Seam

/-- A `Vec<ParseNode>`: which allocation it uses (numbered in order of
creation), its capacity, and its length. -/
structure VecState where
  alloc : Nat
  cap : Nat
  len : Nat
deriving DecidableEq, Repr

/-- `Vec::new()`: no allocation yet (capacity 0). -/
def VecState.new : VecState := { alloc := 0, cap := 0, len := 0 }

/-- A reference to an element: allocation and index. -/
structure Ref where
  alloc : Nat
  index : Nat
deriving DecidableEq, Repr

/-- `Vec::push`: a full vector grows to `max(2 * cap, 4)` in a new allocation
(`RawVec::grow_amortized`; the minimum non-zero capacity is 4 for elements of 2
to 1024 bytes). -/
def VecState.push (v : VecState) : VecState :=
  if v.len < v.cap then { v with len := v.len + 1 }
  else { alloc := v.alloc + 1, cap := max (2 * v.cap) 4, len := v.len + 1 }

/-- `register_invocation`, expander.rs:163-169: the new vector and the reference. -/
def VecState.register (v : VecState) : VecState × Ref :=
  let v' := v.push
  (v', { alloc := v'.alloc, index := v'.len - 1 })

/-- A reference may be read while its allocation is the vector's current one. -/
def Ref.valid (r : Ref) (v : VecState) : Prop := r.alloc = v.alloc ∧ r.index < v.len

/-- The registrations made during the expansion of one macro call whose nested
calls register `n` nodes in the same context. -/
def VecState.pushes (v : VecState) : Nat → VecState
  | 0 => v
  | n + 1 => (v.pushes n).push

/-- `Expander::clone` (derived, expander.rs:87): `Vec::clone` makes a new allocation that is
just large enough. -/
def VecState.clone (v : VecState) (alloc : Nat) : VecState := { alloc := alloc, cap := v.len, len := v.len }

/-- Does the list start with a symbol? -/
def symbolHead : List PNode → Bool
  | .symbol _ :: _ => true
  | _ => false

mutual
/-- `expand_node`, expander.rs:1768-1851, on nodes that contain no macros (so that the branches
for symbols starting with `%` are left out), with the vector of registered nodes. -/
def expandReg (v : VecState) : PNode → VecState × List PNode
  | .list ns s e w =>
    let v := if symbolHead ns then v.register.1 else v
    let (v, ns) := expandRegs v ns
    (v, [.list ns s e w])
  | .attr k n s w =>
    let (v, ns) := expandReg v n
    (v, match ns with
      | [] => []
      | m :: ms => .attr k m s w :: ms)
  | n => (v, [n])
/-- `expand_nodes`, expander.rs:1853-1860. -/
def expandRegs (v : VecState) : List PNode → VecState × List PNode
  | [] => (v, [])
  | n :: ns =>
    let (v, ms) := expandReg v n
    let (v, ms') := expandRegs v ns
    (v, ms ++ ms')
end

/-- Expansion of a macro call whose arguments contain no macros, up to the point where the
arguments have been expanded (expander.rs:1808-1822 and, for instance, 1591-1594): the state of
the vector and the reference to the call's node that the macro goes on to use. -/
def callRefs (v : VecState) (args : List PNode) : VecState × Ref :=
  let (v, r) := v.register
  ((expandRegs v args).1, r)

end Seam
