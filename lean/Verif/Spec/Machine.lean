import Verif.Spec.Cli

/-!
# Counter machines, and programs for them

A machine with two counters (Minsky).  Such machines can compute everything that can be computed at all, and there is no
procedure that decides for each of them whether it halts.
-/

namespace Seam.Spec

/-- One of the two counters. -/
inductive Counter | a | b
deriving DecidableEq, Repr

/-- An instruction of a counter machine. -/
inductive Instr
  /-- Add one to the counter and go on at `next`. -/
  | inc (c : Counter) (next : Nat)
  /-- If the counter is zero go on at `other`, otherwise take one from it and go on at `next`. -/
  | dec (c : Counter) (next other : Nat)
  /-- Stop. -/
  | halt
deriving DecidableEq, Repr

/-- Where the machine is and what it has in the counters. -/
structure Config where
  pc : Nat
  a : Nat
  b : Nat
deriving DecidableEq, Repr

/-- What an instruction does, unless it stops the machine. -/
def Instr.next : Instr → Config → Option Config
  | .inc .a k, c => some ⟨k, c.a + 1, c.b⟩
  | .inc .b k, c => some ⟨k, c.a, c.b + 1⟩
  | .dec .a k z, c => some (if c.a = 0 then ⟨z, c.a, c.b⟩ else ⟨k, c.a - 1, c.b⟩)
  | .dec .b k z, c => some (if c.b = 0 then ⟨z, c.a, c.b⟩ else ⟨k, c.a, c.b - 1⟩)
  | .halt, _ => none

/-- Started in the configuration, the machine halts with the number `r` in the first counter. -/
inductive Gives (p : List Instr) (r : Nat) : Config → Prop
  | halt (c : Config) : p[c.pc]? = some .halt → c.a = r → Gives p r c
  | step (c d : Config) (i : Instr) : p[c.pc]? = some i → i.next c = some d → Gives p r d → Gives p r c

/-- Started in the configuration, the machine comes to a place where there is no instruction. -/
inductive Strays (p : List Instr) : Config → Prop
  | out (c : Config) : p[c.pc]? = none → Strays p c
  | step (c d : Config) (i : Instr) : p[c.pc]? = some i → i.next c = some d → Strays p d → Strays p c

/-! ## The program for a machine -/

/-- A macro for each instruction: `q`, `qq`, `qqq`, ... -/
def stateName (k : Nat) : Str := 'q' :: List.replicate k 'q'

/-- Numbers are nested lists: `()`, `(())`, `((()))`, ... -/
def numeral : Nat → Str
  | 0 => str! "()"
  | n + 1 => '(' :: numeral n ++ [')']

/-- The body of the macro for an instruction. -/
def instrText : Instr → Str
  | .inc .a k => str! "(%" ++ stateName k ++ str! " (%list %a) %b)"
  | .inc .b k => str! "(%" ++ stateName k ++ str! " %a (%list %b))"
  | .dec .a k z => str! "(%match %a (() (%" ++ stateName z ++ str! " %a %b)) ((p) (%" ++ stateName k ++ str! " %p %b)))"
  | .dec .b k z => str! "(%match %b (() (%" ++ stateName z ++ str! " %a %b)) ((p) (%" ++ stateName k ++ str! " %a %p)))"
  | .halt => str! "%a"

/-- The definitions for the instructions of a machine, the first of which has the number `k`. -/
def definitions : Nat → List Instr → Str
  | _, [] => []
  | k, i :: is => str! "(%define (" ++ stateName k ++ str! " a b)" ++ instrText i ++ str! ")" ++ definitions (k + 1) is

/-- The program for a machine, with what is in the counters at first. -/
def machineProgram (p : List Instr) (a b : Nat) : Str :=
  definitions 0 p ++ str! "(%q " ++ numeral a ++ str! " " ++ numeral b ++ str! ")"

end Seam.Spec
