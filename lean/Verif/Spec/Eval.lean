import Verif.Model.Expander

/-! What it means that the expansion of a piece of a document finishes, and how
macro calls are written. -/

namespace Seam.Spec

/-- Expanding the nodes `ns` in the state `s` finishes, with outcome `r` and state
`s'` afterwards. -/
def Evals (ext : Ext) (ns : List PNode) (s : St) (r : Res (List PNode)) (s' : St) : Prop :=
  r ≠ .diverge ∧ ∃ fuel, expandNodes (run ext fuel) ns s = (r, s')

/-- Calling the macro `name` with the (unexpanded) arguments `params` from the call
node `call` finishes, with outcome `r` and state `s'` afterwards. -/
def Invokes (ext : Ext) (name : Str) (call : PNode) (params : List PNode) (s : St)
    (r : Res (List PNode)) (s' : St) : Prop :=
  r ≠ .diverge ∧ ∃ fuel, run ext fuel (.invoke name call params) s = (r, s')

/-- The arguments as a macro sees them: blanks before the first one are dropped,
unless they contain a newline. -/
def dropFirstBlank : List PNode → List PNode
  | [] => []
  | p :: ps => (if '\n' ∈ p.lw then p else p.setLw []) :: ps

/-- `IsCall name args c`: the node `c` is written `(%name args...)`. -/
inductive IsCall (name : Str) (args : List PNode) : PNode → Prop
  | mk (h : Node) (t : List PNode) (s : Site) (e : Token) (w : Str) :
      h.value = '%' :: name → args = dropFirstBlank t → IsCall name args (.list (.symbol h :: t) s e w)

mutual
/-- No symbol in the tree starts with `%`. -/
inductive MacroFree : PNode → Prop
  | symbol (n : Node) : (∀ name, n.value ≠ '%' :: name) → MacroFree (.symbol n)
  | number (n : Node) : MacroFree (.number n)
  | string (n : Node) : MacroFree (.string n)
  | raw (n : Node) : MacroFree (.raw n)
  | list (ns : List PNode) (s : Site) (e : Token) (w : Str) : MacrosFree ns → MacroFree (.list ns s e w)
  | attr (k : Str) (n : PNode) (s : Site) (w : Str) : MacroFree n → MacroFree (.attr k n s w)
/-- The same for several nodes. -/
inductive MacrosFree : List PNode → Prop
  | nil : MacrosFree []
  | cons (n : PNode) (ns : List PNode) : MacroFree n → MacrosFree ns → MacrosFree (n :: ns)
end

mutual
/-- No symbol in the tree starts with `&&`. -/
inductive NoKwRest : PNode → Prop
  | symbol (n : Node) : (∀ name, n.value ≠ '&' :: '&' :: name) → NoKwRest (.symbol n)
  | number (n : Node) : NoKwRest (.number n)
  | string (n : Node) : NoKwRest (.string n)
  | raw (n : Node) : NoKwRest (.raw n)
  | list (ns : List PNode) (s : Site) (e : Token) (w : Str) : NoKwRests ns → NoKwRest (.list ns s e w)
  | attr (k : Str) (n : PNode) (s : Site) (w : Str) : NoKwRest n → NoKwRest (.attr k n s w)
/-- The same for several nodes. -/
inductive NoKwRests : List PNode → Prop
  | nil : NoKwRests []
  | cons (n : PNode) (ns : List PNode) : NoKwRest n → NoKwRests ns → NoKwRests (n :: ns)
end

/-- The nodes of a macro's result with the whitespace of its first node replaced. -/
def firstSpaced (w : Str) : List PNode → List PNode
  | [] => []
  | n :: ns => n.setLw w :: ns

/-- The outcome with the whitespace before the first node replaced. -/
def spacedRes (w : Str) : Res (List PNode) → Res (List PNode)
  | .ok ns => .ok (firstSpaced w ns)
  | r => r

/-- An outcome with nodes put in front. -/
def addBefore (as : List PNode) : Res (List PNode) → Res (List PNode)
  | .ok bs => .ok (as ++ bs)
  | r => r

/-- The value of a symbol, number, string or raw node. -/
inductive Literal : PNode → Node → Prop
  | symbol (n : Node) : Literal (.symbol n) n
  | number (n : Node) : Literal (.number n) n
  | string (n : Node) : Literal (.string n) n
  | raw (n : Node) : Literal (.raw n) n

/-- Iteration of a hash map yields all entries in some order. -/
def Fair (order : Order) : Prop := ∀ i l, (order i l).Perm l

end Seam.Spec
