import Verif.Spec.Eval
import Verif.Spec.Pairs

/-! Trees, states and outcomes that differ only in the positions of their nodes. -/

namespace Seam.Spec

/-- The same text and whitespace, at places related by `S`. -/
def MovedAtom (S : Site → Site → Prop) (a b : Node) : Prop := a.value = b.value ∧ a.lw = b.lw ∧ S a.site b.site

mutual
/-- The same tree, except that every node has another position; `S` relates the old
positions to the new ones. -/
inductive Moved (S : Site → Site → Prop) : PNode → PNode → Prop
  | symbol (a b : Node) : MovedAtom S a b → Moved S (.symbol a) (.symbol b)
  | number (a b : Node) : MovedAtom S a b → Moved S (.number a) (.number b)
  | string (a b : Node) : MovedAtom S a b → Moved S (.string a) (.string b)
  | raw (a b : Node) : MovedAtom S a b → Moved S (.raw a) (.raw b)
  | list (ns ms : List PNode) (s t : Site) (e f : Token) (w : Str) : Moveds S ns ms → S s t → e.lw = f.lw →
      S e.site f.site → Moved S (.list ns s e w) (.list ms t f w)
  | attr (k : Str) (n m : PNode) (s t : Site) (w : Str) : Moved S n m → S s t → Moved S (.attr k n s w) (.attr k m t w)
/-- The same for several nodes. -/
inductive Moveds (S : Site → Site → Prop) : List PNode → List PNode → Prop
  | nil : Moveds S [] []
  | cons (n m : PNode) (ns ms : List PNode) : Moved S n m → Moveds S ns ms → Moveds S (n :: ns) (m :: ms)
end

/-- The same definition, moved. -/
def MovedMacro (S : Site → Site → Prop) (m m' : Macro) : Prop := Moveds S m.params m'.params ∧ Moveds S m.body m'.body

/-- The same line in the log, from another place. -/
def MovedLine (S : Site → Site → Prop) (l l' : LogLine) : Prop := l.words = l'.words ∧ S l.site l'.site

/-- The same place of a file that was read another time: the two differ at most in the number
of the buffer. -/
def Reread (p q : Site) : Prop := q = { p with buf := q.buf }

/-- States of the expander with the same definitions, moved, and the same log, from
other places.  The same number of files has been read (it numbers the buffers), unless `S`
does not distinguish the places of files read at different times. -/
structure MovedSt (S : Site → Site → Prop) (s t : St) : Prop where
  defined : ∀ name, s.scope name = none ↔ t.scope name = none
  scope : ∀ name m m', s.scope name = some m → t.scope name = some m' → MovedMacro S m m'
  fresh : s.fresh = t.fresh ∨ ∀ p q, Reread p q → S p q
  log : Pairs (MovedLine S) s.log t.log
  hashes : s.hashes = t.hashes
  order : s.order = t.order

/-- The same error, reported at another place. -/
def MovedErr (S : Site → Site → Prop) (e e' : Err) : Prop := e.stage = e'.stage ∧ e.msg = e'.msg ∧ S e.site e'.site

/-- The same outcome, moved. -/
inductive MovedRes (S : Site → Site → Prop) : Res (List PNode) → Res (List PNode) → Prop
  | ok (ns ms : List PNode) : Moveds S ns ms → MovedRes S (.ok ns) (.ok ms)
  | err (e e' : Err) : MovedErr S e e' → MovedRes S (.err e) (.err e')
  | panic : MovedRes S .panic .panic

/-- Hash maps are iterated in an order that depends on their keys only: for two maps
with the same keys the entries are taken from the same places. -/
def ByKeys (order : Order) : Prop :=
  ∀ i (l l' : List (Str × PNode)), l.map (·.1) = l'.map (·.1) →
    ∃ places : List Nat, order i l = places.filterMap (fun k => l[k]?) ∧ order i l' = places.filterMap (fun k => l'[k]?)

/-- The expander, except that a call of `%lambda` has no outcome. -/
def namedRun (ext : Ext) : (fuel : Nat) → Rec
  | 0, _ => M.lift .diverge
  | fuel + 1, .invoke name call params =>
    if builtin? name = some .lambda then M.lift .diverge
    else step ext (namedRun ext fuel) (.invoke name call params)
  | fuel + 1, c => step ext (namedRun ext fuel) c

/-- Expanding the nodes `ns` in the state `s` finishes with outcome `r` and state `s'`,
and on the way `%lambda` is not called. -/
def NamedEvals (ext : Ext) (ns : List PNode) (s : St) (r : Res (List PNode)) (s' : St) : Prop :=
  r ≠ .diverge ∧ ∃ fuel, expandNodes (namedRun ext fuel) ns s = (r, s')

end Seam.Spec
