import Verif.Spec.Eval
import Verif.Spec.Convert
import Verif.Spec.Paste

/-!
Exchanging parts of programs for parts that do the same.
-/

namespace Seam.Spec

open Seam

/-- From every state the two sequences of nodes have the same outcome, and leave the same state. -/
def Equivalent (ext : Ext) (ns ms : List PNode) : Prop := ∀ s r t, Evals ext ns s r t ↔ Evals ext ms s r t

/-- Two lists that stand at the same place. -/
inductive AtOneSpot : PNode → PNode → Prop
  | mk (ns ms : List PNode) (si : Site) (e : Token) (w : Str) : AtOneSpot (.list ns si e w) (.list ms si e w)

/-- The macros that expand all of their arguments before they do anything else. -/
def Eager (name : Str) : Prop := name ∈ eager ∨ name = str! "namespace" ∨ builtin? name = none

mutual
/-- The second program comes from the first one by exchanging some parts, as `E` says, where nodes are
expanded: in lists that are no calls, in values of keywords, in arguments of macros that expand their
arguments, in values of variables, in bodies of macros and of `%lambda`, in branches of `%ifdef`, in
the lists and bodies of `%for`, and in values, patterns and bodies of `%match`. -/
inductive Exchanged (E : List PNode → List PNode → Prop) : List PNode → List PNode → Prop
  | same (ns : List PNode) : Exchanged E ns ns
  | swap (ns ms : List PNode) : E ns ms → Exchanged E ns ms
  | append (ns ms ns' ms' : List PNode) : Exchanged E ns ms → Exchanged E ns' ms' → Exchanged E (ns ++ ns') (ms ++ ms')
  | list (ns ms : List PNode) (si : Site) (e : Token) (w : Str) : NoCall ns → NoCall ms → Exchanged E ns ms →
      Exchanged E [.list ns si e w] [.list ms si e w]
  | attr (k : Str) (n m : PNode) (si : Site) (w : Str) : Exchanged E [n] [m] → Exchanged E [.attr k n si w] [.attr k m si w]
  | args (name : Str) (as bs : List PNode) (c d : PNode) : Eager name → IsCall name as c → IsCall name bs d → AtOneSpot c d →
      Exchanged E as bs → Exchanged E [c] [d]
  | value (x : Node) (as bs : List PNode) (c d : PNode) : IsCall (str! "define") (.symbol x :: as) c →
      IsCall (str! "define") (.symbol x :: bs) d → AtOneSpot c d → Exchanged E as bs → Exchanged E [c] [d]
  | function (f : Node) (ps as bs : List PNode) (si : Site) (e : Token) (w : Str) (c d : PNode) :
      IsCall (str! "define") (.list (.symbol f :: ps) si e w :: as) c →
      IsCall (str! "define") (.list (.symbol f :: ps) si e w :: bs) d → AtOneSpot c d → Exchanged E as bs → Exchanged E [c] [d]
  | lambda (head : PNode) (as bs : List PNode) (c d : PNode) : (∀ k v si w, head ≠ .attr k v si w) →
      IsCall (str! "lambda") (head :: as) c → IsCall (str! "lambda") (head :: bs) d → AtOneSpot c d → Exchanged E as bs →
      Exchanged E [c] [d]
  | ifdef (x a b : PNode) (c d : PNode) : IsCall (str! "ifdef") [x, a] c → IsCall (str! "ifdef") [x, b] d → AtOneSpot c d →
      Exchanged E [a] [b] → Exchanged E [c] [d]
  | ifdefElse (x a b a' b' : PNode) (c d : PNode) : IsCall (str! "ifdef") [x, a, a'] c → IsCall (str! "ifdef") [x, b, b'] d →
      AtOneSpot c d → Exchanged E [a] [b] → Exchanged E [a'] [b'] → Exchanged E [c] [d]
  | loop (it : PNode) (k : Node) (xs ys as bs : List PNode) (si : Site) (e : Token) (w : Str) (c d : PNode) :
      (∀ k v si w, it ≠ .attr k v si w) → k.value = str! "in" →
      IsCall (str! "for") (it :: .symbol k :: .list xs si e w :: as) c →
      IsCall (str! "for") (it :: .symbol k :: .list ys si e w :: bs) d → AtOneSpot c d →
      Exchanged E xs ys → Exchanged E as bs → Exchanged E [c] [d]
  | choice (a b : PNode) (ps qs : List PNode) (c d : PNode) : IsCall (str! "match") (a :: ps) c →
      IsCall (str! "match") (b :: qs) d → AtOneSpot c d → a.site = b.site → Exchanged E [a] [b] → ClausePairs E ps qs →
      Exchanged E [c] [d]
/-- The clauses of a `%match`, with exchanged parts of patterns and bodies. -/
inductive ClausePairs (E : List PNode → List PNode → Prop) : List PNode → List PNode → Prop
  | nil : ClausePairs E [] []
  | same (p : PNode) (ps qs : List PNode) : ClausePairs E ps qs → ClausePairs E (p :: ps) (p :: qs)
  | clause (p q : PNode) (as bs : List PNode) (si : Site) (e : Token) (w : Str) (ps qs : List PNode) : p.site = q.site →
      Exchanged E [p] [q] → Exchanged E as bs → ClausePairs E ps qs →
      ClausePairs E (.list (p :: as) si e w :: ps) (.list (q :: bs) si e w :: qs)
end

/-- A name that means nothing, or macros with the same parameters and exchanged bodies. -/
inductive AlikeMacro (E : List PNode → List PNode → Prop) : Option Macro → Option Macro → Prop
  | none : AlikeMacro E none none
  | some (ps as bs : List PNode) : Exchanged E as bs → AlikeMacro E (some ⟨ps, as⟩) (some ⟨ps, bs⟩)

/-- States that are the same, but for parts of the bodies of macros that were exchanged. -/
structure AlikeSt (E : List PNode → List PNode → Prop) (s t : St) : Prop where
  scope : ∀ x, AlikeMacro E (s.scope x) (t.scope x)
  log : t.log = s.log
  fresh : t.fresh = s.fresh
  hashes : t.hashes = s.hashes
  order : t.order = s.order

end Seam.Spec
