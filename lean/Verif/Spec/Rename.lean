import Verif.Spec.Eval

/-!
Renaming macros: exchanging two names throughout a program.
-/

namespace Seam.Spec

open Seam

/-- The name with `f` and `g` exchanged; the marks `%` (use) and `&`, `&&` (rest parameters) in
front of a name are kept. -/
def swapName (f g : Str) : Str → Str
  | '%' :: x => '%' :: swapName f g x
  | '&' :: x => '&' :: swapName f g x
  | x => if x = f then g else if x = g then f else x

mutual
/-- The node with the names exchanged in all its symbols and keywords. -/
def swapNode (f g : Str) : PNode → PNode
  | .symbol a => .symbol { a with value := swapName f g a.value }
  | .list ns s e w => .list (swapNodes f g ns) s e w
  | .attr k n s w => .attr (swapName f g k) (swapNode f g n) s w
  | n => n
/-- The same for several nodes. -/
def swapNodes (f g : Str) : List PNode → List PNode
  | [] => []
  | n :: ns => swapNode f g n :: swapNodes f g ns
end

mutual
/-- Neither of the names is in a symbol or keyword of the node. -/
def nameless (f g : Str) : PNode → Bool
  | .symbol a => swapName f g a.value == a.value
  | .list ns _ _ _ => namelesss f g ns
  | .attr k n _ _ => swapName f g k == k && nameless f g n
  | _ => true
/-- The same for several nodes. -/
def namelesss (f g : Str) : List PNode → Bool
  | [] => true
  | n :: ns => nameless f g n && namelesss f g ns
end

/-- The definition with the names exchanged. -/
def swapMacro (f g : Str) (m : Macro) : Macro := { params := swapNodes f g m.params, body := swapNodes f g m.body }

/-- Entries of a hash map with the names exchanged. -/
def swapMap (f g : Str) (l : List (Str × PNode)) : List (Str × PNode) := l.map fun e => (swapName f g e.1, swapNode f g e.2)

/-- The order of hash maps, as seen with the names exchanged. -/
def swapOrder (f g : Str) (order : Order) : Order := fun i l => swapMap f g (order i (swapMap f g l))

/-- The state with the names exchanged: what was known as `f` is now known as `g`. -/
def swapSt (f g : Str) (s : St) : St :=
  { s with scope := fun x => (s.scope (swapName f g x)).map (swapMacro f g), order := swapOrder f g s.order }

/-- The outcome with the names exchanged. -/
def swapRes (f g : Str) : Res (List PNode) → Res (List PNode)
  | .ok ns => .ok (swapNodes f g ns)
  | r => r

/-- Is `f` the name, behind its marks? -/
def hasName (f : Str) : Str → Bool
  | '%' :: x => hasName f x
  | '&' :: x => hasName f x
  | x => x == f

/-- The name, with `g` for `f` behind its marks. -/
def renamed (f g : Str) : Str → Str
  | '%' :: x => '%' :: renamed f g x
  | '&' :: x => '&' :: renamed f g x
  | x => if x = f then g else x

mutual
/-- The name is in a symbol or keyword of the node. -/
def occurs (f : Str) : PNode → Bool
  | .symbol a => hasName f a.value
  | .list ns _ _ _ => occurss f ns
  | .attr k n _ _ => hasName f k || occurs f n
  | _ => false
/-- The same for several nodes. -/
def occurss (f : Str) : List PNode → Bool
  | [] => false
  | n :: ns => occurs f n || occurss f ns
end

mutual
/-- The node with `g` for `f` in all its symbols and keywords. -/
def renameNode (f g : Str) : PNode → PNode
  | .symbol a => .symbol { a with value := renamed f g a.value }
  | .list ns s e w => .list (renameNodes f g ns) s e w
  | .attr k n s w => .attr (renamed f g k) (renameNode f g n) s w
  | n => n
/-- The same for several nodes. -/
def renameNodes (f g : Str) : List PNode → List PNode
  | [] => []
  | n :: ns => renameNode f g n :: renameNodes f g ns
end

/-- A name that a macro can be given: not one of the built-in macros, not `in` (a word of `%for`),
without a mark in front, and not one of those that `%lambda` makes. -/
structure OwnName (f : Str) : Prop where
  own : builtin? f = none
  notIn : f ≠ str! "in"
  mark : f.head? ≠ some '%' ∧ f.head? ≠ some '&'
  notLambda : ¬ str! "__lambda" <+: f

/-- The macros that only move nodes around and bind names. -/
def movesNodes : Builtin → Bool
  | .define | .match_ | .ifdef | .do_ | .for_ | .reverse | .splat | .list | .strip | .apply | .map | .filter | .lambda => true
  | _ => false

/-- The macros that make names out of texts. -/
def makesNames : Builtin → Bool
  | .namespace_ | .yaml | .toml | .markdown => true
  | _ => false

/-- The computation, except that there is no outcome when the nodes have one of the names. -/
def dropNames (f g : Str) (m : M (List PNode)) : M (List PNode) := fun s =>
  match m s with
  | (.ok ns, t) => if namelesss f g ns then (.ok ns, t) else (.diverge, t)
  | r => r

/-- The expander, except that there is no outcome when what a node expands to has one of the names,
or when a macro is called that has one of the names, or with arguments or a value that have. -/
def guardNames (f g : Str) (rec : Rec) : Rec
  | .node n => dropNames f g (rec (.node n))
  | .invoke name call params =>
    if swapName f g name == name && namelesss f g params then dropNames f g (rec (.invoke name call params))
    else M.lift .diverge

/-- The same; the nodes that are expanded have not got the names either. -/
def strictNames (f g : Str) (rec : Rec) : Rec
  | .node n => if nameless f g n then guardNames f g rec (.node n) else M.lift .diverge
  | .invoke .. => M.lift .diverge

/-- Is the condition of `%ifdef` a text that is not a symbol? -/
def textCondition : List PNode → Bool
  | .string _ :: _ | .number _ :: _ | .raw _ :: _ => true
  | _ => false

/-- The expander, except that there is no outcome when a name `f` or `g` could become or come from
a text:
 * a macro that makes names of texts is called;
 * `%ifdef` is called with a condition that is not a symbol;
 * a macro that looks at the text of its arguments (all others but those that only move nodes
   around and bind names) gets one with the name `f` or `g`, or yields such a name;
 * a file is included that has one of the names. -/
def swapRun (ext : Ext) (f g : Str) : (fuel : Nat) → Rec
  | 0, _ => M.lift .diverge
  | fuel + 1, .node n => step ext (swapRun ext f g fuel) (.node n)
  | fuel + 1, .invoke name call params =>
    match builtin? name with
    | none => step ext (swapRun ext f g fuel) (.invoke name call params)
    | some b =>
      if makesNames b || (b == .ifdef && textCondition params) then M.lift .diverge
      else if movesNodes b then step ext (swapRun ext f g fuel) (.invoke name call params)
      else if b == .include_ then step ext (strictNames f g (swapRun ext f g fuel)) (.invoke name call params)
      else dropNames f g (step ext (guardNames f g (swapRun ext f g fuel)) (.invoke name call params))

/-- Expanding the nodes `ns` in the state `s` finishes with outcome `r` and state `t`, and on the way
the names `f` and `g` are only used as names. -/
def SwapEvals (ext : Ext) (f g : Str) (ns : List PNode) (s : St) (r : Res (List PNode)) (t : St) : Prop :=
  r ≠ .diverge ∧ ∃ fuel, expandNodes (swapRun ext f g fuel) ns s = (r, t)

end Seam.Spec
