import Verif.Spec.Bind

/-!
# What `%match`, `%for` and `%namespace` do

`Binds` and `Rejects` name the outcome of matching a value against a pattern in the
state `s`; by `C41_binds_or_rejects` exactly one of them holds, according to `Matches`.
-/

namespace Seam.Spec

/-- The value `v` matches the pattern `p` in the state `s`, and `t` is the state with the
names of the pattern bound. -/
def Binds (p v : PNode) (s t : St) : Prop := Seam.bind p v s = (.ok (), t)

/-- The value does not match; the names that were bound on the way are forgotten again. -/
def Rejects (p v : PNode) (s t : St) : Prop :=
  ∃ e t', Seam.bind p v s = (.err e, t') ∧ t = { t' with scope := s.scope }

/-- `Chooses ext e ps s r t`: going through the clauses `ps` with the value `e`. -/
inductive Chooses (ext : Ext) (e : PNode) : List PNode → St → Res (List PNode) → St → Prop
  /-- No clause left: nothing. -/
  | none (s : St) : Chooses ext e [] s (.ok []) s
  /-- The pattern matches: its body is expanded with the names bound, and the bindings are
  dropped afterwards.  Later clauses play no role. -/
  | hit (p p' : PNode) (body ps : List PNode) (si : Site) (en : Token) (w : Str) (s u v t : St) (r : Res (List PNode)) :
      Evals ext [p] s (.ok [p']) u → Binds p' e u v → Evals ext body v r t →
      Chooses ext e (.list (p :: body) si en w :: ps) s r { t with scope := u.scope }
  /-- The pattern does not match: on to the next clause. -/
  | miss (p p' : PNode) (body ps : List PNode) (si : Site) (en : Token) (w : Str) (s u v t : St) (r : Res (List PNode)) :
      Evals ext [p] s (.ok [p']) u → Rejects p' e u v → Chooses ext e ps v r t →
      Chooses ext e (.list (p :: body) si en w :: ps) s r t
  /-- The pattern expands to no node or to several ones. -/
  | notOne (p : PNode) (qs body ps : List PNode) (si : Site) (en : Token) (w : Str) (s u : St) (er : Err) :
      Evals ext [p] s (.ok qs) u → qs.length ≠ 1 → er.site = p.site → er.stage = .expand →
      er.msg = "Pattern must evaluate to a single node." →
      Chooses ext e (.list (p :: body) si en w :: ps) s (.err er) u
  /-- The expansion of the pattern fails. -/
  | failed (p : PNode) (body ps : List PNode) (si : Site) (en : Token) (w : Str) (s u : St) (r : Res (List PNode)) :
      Evals ext [p] s r u → (∀ a, r ≠ .ok a) → Chooses ext e (.list (p :: body) si en w :: ps) s r u
  /-- The clause is empty. -/
  | empty (ps : List PNode) (si : Site) (en : Token) (w : Str) (s : St) (er : Err) : er.site = si → er.stage = .expand →
      er.msg = "Empty pattern not allowed in `%match`." →
      Chooses ext e (.list [] si en w :: ps) s (.err er) s
  /-- The clause is not a list. -/
  | notList (n : PNode) (ps : List PNode) (s : St) (er : Err) : n.list? = Option.none → er.site = n.site →
      er.stage = .expand → er.msg = "Pattern in `%match` must be a list `(pattern ...value)`." →
      Chooses ext e (n :: ps) s (.err er) s

/-- `Loops ext it body xs s r t`: expanding the body once for each of `xs`, in order. -/
inductive Loops (ext : Ext) (it : PNode) (body : List PNode) : List PNode → St → Res (List PNode) → St → Prop
  | done (s : St) : Loops ext it body [] s (.ok []) s
  /-- The item is bound, the body expanded, and then the other items follow. -/
  | item (x : PNode) (xs as : List PNode) (s u v t : St) (r : Res (List PNode)) :
      Binds it x s u → Evals ext body u (.ok as) v → Loops ext it body xs v r t →
      Loops ext it body (x :: xs) s (addBefore as r) t
  /-- The body fails: so does the loop. -/
  | failed (x : PNode) (xs : List PNode) (s u t : St) (r : Res (List PNode)) :
      Binds it x s u → Evals ext body u r t → (∀ a, r ≠ .ok a) → Loops ext it body (x :: xs) s r t
  /-- The item does not match: an error. -/
  | mismatch (x : PNode) (xs : List PNode) (s t : St) (er : Err) : Seam.bind it x s = (.err er, t) →
      Loops ext it body (x :: xs) s (.err er) t

/-- The arguments without the first `n` positional ones. -/
def dropPositional : Nat → List PNode → List PNode
  | 0, vs => vs
  | _, [] => []
  | n + 1, .attr k v s w :: vs => .attr k v s w :: dropPositional (n + 1) vs
  | n + 1, _ :: vs => dropPositional n vs

/-- `NamespaceArgs vs pre rest`: the (expanded) arguments of `%namespace` are a name,
options `:separator x`, and the rest; the prefix is the name and the (last) separator. -/
inductive NamespaceOpts : Str → List PNode → Str → List PNode → Prop
  | done (sep : Str) (rest : List PNode) : (∀ n ∈ rest.head?, n.attribute? = Option.none) →
      NamespaceOpts sep rest sep rest
  | sep (old new : Str) (v : PNode) (a : Node) (s : Site) (w : Str) (vs rest : List PNode) : Literal v a →
      NamespaceOpts a.value vs new rest → NamespaceOpts old (.attr (str! "separator") v s w :: vs) new rest

/-- See `NamespaceOpts`; the separator is `/` by default. -/
inductive NamespaceArgs : List PNode → Str → List PNode → Prop
  | mk (n : PNode) (a : Node) (vs rest : List PNode) (sep : Str) : Literal n a → NamespaceOpts ['/'] vs sep rest →
      NamespaceArgs (n :: vs) (a.value ++ sep) rest

end Seam.Spec
