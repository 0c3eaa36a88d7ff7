import Verif.Spec.Bind

/-!
# What the built-in macros accept as arguments

A macro declares its arguments as a list of entries (position or keyword, mandatory or
not, type) and possibly a type for all further arguments.
-/

namespace Seam.Spec

/-- The node satisfies one of the conditions, if there are any. -/
def Satisfies (ps : List ArgPred) (n : PNode) : Prop := ps = [] ∨ ∃ p ∈ ps, match p with
  | .exactly v => ∃ a, Literal n a ∧ a.value = v
  | .matching re => ∃ a, Literal n a ∧ re a.value = true
  | .satisfying test => test n = true

mutual
/-- The node has the type. -/
inductive HasType : ArgType → PNode → Prop
  | literal (ps : List ArgPred) (n : PNode) (a : Node) : Literal n a → Satisfies ps n → HasType (.literal ps) n
  | string (ps : List ArgPred) (a : Node) : Satisfies ps (.string a) → HasType (.string ps) (.string a)
  | raw (ps : List ArgPred) (a : Node) : Satisfies ps (.raw a) → HasType (.string ps) (.raw a)
  | symbol (ps : List ArgPred) (a : Node) : Satisfies ps (.symbol a) → HasType (.symbol ps) (.symbol a)
  | number (ps : List ArgPred) (a : Node) : Satisfies ps (.number a) → HasType (.number ps) (.number a)
  | symbolic (ps : List ArgPred) (n : PNode) (a : Node) : n = .symbol a ∨ n = .number a → Satisfies ps n →
      HasType (.symbolic ps) n
  | anyList (ns : List PNode) (s : Site) (e : Token) (w : Str) : HasType (.list []) (.list ns s e w)
  | list (ts : List ArgType) (ns : List PNode) (s : Site) (e : Token) (w : Str) : HaveTypes ts ns →
      HasType (.list ts) (.list ns s e w)
  | any (ps : List ArgPred) (n : PNode) : Satisfies ps n → HasType (.any ps) n
/-- As many nodes as types, each of its type. -/
inductive HaveTypes : List ArgType → List PNode → Prop
  | nil : HaveTypes [] []
  | cons (t : ArgType) (n : PNode) (ts : List ArgType) (ns : List PNode) : HasType t n → HaveTypes ts ns →
      HaveTypes (t :: ts) (n :: ns)
end

/-- The types whose values are symbols, numbers or strings. -/
def isAtomType : ArgType → Bool
  | .literal _ | .string _ | .symbol _ | .number _ | .symbolic _ => true
  | .list _ | .any _ => false

/-- The types whose values are lists. -/
def isListType : ArgType → Bool
  | .list _ => true
  | _ => false

/-- A declared argument. -/
structure Entry where
  pos : ArgPos
  mandatory : Bool
  type : ArgType

/-- The declarations as the rules which the code checks. -/
def rulesOf (es : List Entry) : List ArgRule :=
  es.map fun e => { pattern := fun p => p == e.pos, mandatory := e.mandatory, type := e.type }

/-- Each argument with its position (counted from 1 over the positional ones) or keyword,
its value, and the argument itself. -/
def places (i : Nat) : List PNode → List (ArgPos × PNode × PNode)
  | [] => []
  | .attr k n s w :: vs => (.str k, n, .attr k n s w) :: places i vs
  | v :: vs => (.int (i + 1), v, v) :: places (i + 1) vs

/-- The arguments fit the declarations. -/
structure Accepts (es : List Entry) (trailing : Option ArgType) (vs : List PNode) : Prop where
  /-- Declared arguments have their type. -/
  declared : ∀ x ∈ places 0 vs, ∀ e ∈ es, e.pos = x.1 → HasType e.type x.2.1
  /-- There are others only if allowed, and then they have the type of these. -/
  others : ∀ x ∈ places 0 vs, (∀ e ∈ es, e.pos ≠ x.1) → ∃ t, trailing = some t ∧ HasType t x.2.2
  /-- Mandatory ones are there. -/
  present : ∀ e ∈ es, e.mandatory = true → ∃ x ∈ places 0 vs, x.1 = e.pos

/-- The arguments that are not declared, in order. -/
def undeclared (es : List Entry) (vs : List PNode) : List PNode :=
  ((places 0 vs).filter fun x => !es.any fun e => e.pos == x.1).map (·.2.2)

/-- The declarations make sense: no position twice, positions start with 1, and only
positional arguments are mandatory. -/
structure WellDeclared (es : List Entry) : Prop where
  once : (es.map (·.pos)).Nodup
  positive : ∀ e ∈ es, e.pos ≠ .int 0
  mandatory : ∀ e ∈ es, e.mandatory = true → ∃ i, e.pos = .int i

end Seam.Spec
