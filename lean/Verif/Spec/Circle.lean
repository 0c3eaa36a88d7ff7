import Verif.Spec.Halt
import Verif.Spec.Convert

/-! Documents that cannot be expanded without expanding some macro or including some file. -/

namespace Seam.Spec

/-- `Forced F G n`: the node `n` cannot be expanded to a result without using one of the user's
macros `F` or including one of the paths `G`, because the use is not in a branch that may be
left out, nor in the body of a definition or of a loop that may have no items. -/
inductive Forced (F G : Str → Prop) : PNode → Prop
  /-- `(%f ...)`. -/
  | call (c : PNode) (name : Str) (args : List PNode) : IsCall name args c → builtin? name = none → F name → Forced F G c
  /-- `%f`. -/
  | variable (a : Node) (name : Str) : a.value = '%' :: name → F name → Forced F G (.symbol a)
  /-- `(%include "path")`. -/
  | include_ (c n : PNode) (a : Node) : IsCall (str! "include") [n] c → Literal n a → MacroFree n → G a.value → Forced F G c
  /-- `:key value`. -/
  | attr (k : Str) (n : PNode) (s : Site) (w : Str) : Forced F G n → Forced F G (.attr k n s w)
  /-- `(a ...)`. -/
  | list (ns : List PNode) (n : PNode) (s : Site) (e : Token) (w : Str) :
      (∀ a t, ns = .symbol a :: t → ∀ name, a.value ≠ '%' :: name) → n ∈ ns → Forced F G n → Forced F G (.list ns s e w)
  /-- An argument of a user's macro, or of a built-in one that expands all its arguments. -/
  | arg (c n : PNode) (name : Str) (args : List PNode) : IsCall name args c →
      builtin? name = none ∨ name ∈ eager ∨ name = str! "namespace" → n ∈ args → Forced F G n → Forced F G c
  /-- `(%define x value...)`. -/
  | define (c n : PNode) (x : Node) (value : List PNode) : IsCall (str! "define") (.symbol x :: value) c → n ∈ value →
      Forced F G n → Forced F G c
  /-- `(%match value clauses...)`. -/
  | cases_ (c n : PNode) (clauses : List PNode) : IsCall (str! "match") (n :: clauses) c → Forced F G n → Forced F G c
  /-- `(%ifdef x one other)`, with the use in both branches. -/
  | ifdef (c x n m : PNode) : IsCall (str! "ifdef") [x, n, m] c → Forced F G n → Forced F G m → Forced F G c
  /-- `(%for pattern in (items...) body...)`, with the use in the items. -/
  | items (c it n : PNode) (kw : Node) (args xs rest : List PNode) (s : Site) (e : Token) (w : Str) :
      IsCall (str! "for") args c → positional args = it :: .symbol kw :: .list xs s e w :: rest → kw.value = str! "in" →
      n ∈ xs → Forced F G n → Forced F G c

/-- Including any of the paths `G` cannot be done without using one of the macros `F` or including
one of the paths `G` again: the first file that can be read has such a node. -/
def Circular (ext : Ext) (F G : Str → Prop) : Prop := ∀ path, G path → ∀ file code tree,
  FirstRead ext (includeFiles ext path) file code → parse ext.unescape { path := file, id := 1, code := code } = .ok tree →
  ∃ n ∈ tree, Forced F G n

/-- In the state `s` all the macros `F` are defined, with bodies that cannot be expanded without
using one of the macros `F` or including one of the paths `G`. -/
def Recursive (F G : Str → Prop) (s : St) : Prop := ∀ f, F f → ∃ m, s.scope f = some m ∧ ∃ n ∈ m.body, Forced F G n

/-- The expander, except that it has no outcome if before or after the expansion of some node, or
the call of some macro, the state does not pass the test `ok`. -/
def watchRun (ext : Ext) (ok : St → Bool) : (fuel : Nat) → Rec
  | 0, _ => M.lift .diverge
  | fuel + 1, c => fun s =>
    if ok s then
      match step ext (watchRun ext ok fuel) c s with
      | (r, t) => if ok t then (r, t) else (.diverge, t)
    else (.diverge, s)

/-- Expanding the nodes `ns` in the state `s` finishes with outcome `r` and state `s'`, and the
states before and after the expansion of every node on the way pass the test `ok`. -/
def WatchEvals (ext : Ext) (ok : St → Bool) (ns : List PNode) (s : St) (r : Res (List PNode)) (s' : St) : Prop :=
  r ≠ .diverge ∧ ∃ fuel, expandNodes (watchRun ext ok fuel) ns s = (r, s')

end Seam.Spec
