import Verif.Spec.Eval

/-!
# What it means that a value matches a pattern

`Matches p v sc sc'`: the value `v` matches the pattern `p`, and binding the names of
the pattern in the scope `sc` gives the scope `sc'`.

A list of parameters consists of plain patterns, named parameters `:key default`, at
most one `&rest` and at most one `&&rest`.  Arguments are positional or named.
-/

namespace Seam.Spec

/-- The scope `sc` with the name standing for some nodes. -/
def bound (sc : Scope) (name : Str) (ns : List PNode) : Scope :=
  fun x => if x = name then some { params := [], body := ns } else sc x

/-- The positional arguments. -/
def positional : List PNode → List PNode
  | [] => []
  | .attr _ _ _ _ :: vs => positional vs
  | v :: vs => v :: positional vs

/-- The last argument given under the keyword, as an attribute. -/
def lastAttr (k : Str) : List PNode → Option PNode
  | [] => none
  | .attr k' v s w :: vs => (lastAttr k vs).or (if k' = k then some (.attr k' v s w) else none)
  | _ :: vs => lastAttr k vs

/-- The value of the last argument given under the keyword. -/
def lastNamed (k : Str) : List PNode → Option PNode
  | [] => none
  | .attr k' v _ _ :: vs => (lastNamed k vs).or (if k' = k then some v else none)
  | _ :: vs => lastNamed k vs

/-- The `name` in `&name` (`&&name` does not count). -/
def restOf : Str → Option Str
  | '&' :: '&' :: _ => none
  | '&' :: name => some name
  | _ => none

/-- The `name` in `&&name`. -/
def kwRestOf : Str → Option Str
  | '&' :: '&' :: name => some name
  | _ => none

/-- The name of a `&` parameter. -/
def restName? : PNode → Option Str
  | .symbol a => restOf a.value
  | _ => none

/-- The name of a `&&` parameter. -/
def kwRestName? : PNode → Option Str
  | .symbol a => kwRestOf a.value
  | _ => none

/-- The plain patterns of a parameter list. -/
def plainParams : List PNode → List PNode
  | [] => []
  | .attr _ _ _ _ :: ps => plainParams ps
  | p :: ps => if (restName? p).isSome ∨ (kwRestName? p).isSome then plainParams ps else p :: plainParams ps

/-- The names of the `&` parameters. -/
def restNames (ps : List PNode) : List Str := ps.filterMap restName?
/-- The names of the `&&` parameters. -/
def kwRestNames (ps : List PNode) : List Str := ps.filterMap kwRestName?

/-- `es` are the named arguments, in any order and each key once, for which there is
no named parameter. -/
structure Leftover (ps vs es : List PNode) : Prop where
  /-- Each of `es` is the last argument with its keyword, and no parameter has it. -/
  sound : ∀ n ∈ es, ∃ k v s w, n = .attr k v s w ∧ lastAttr k vs = some n ∧ lastNamed k ps = none
  /-- Every such argument is among `es`. -/
  complete : ∀ k n, lastAttr k vs = some n → lastNamed k ps = none → n ∈ es
  /-- No keyword twice. -/
  once : (es.map fun n => n.attribute?.map (·.1)).Nodup

mutual
inductive Matches : PNode → PNode → Scope → Scope → Prop
  | symbol (a : Node) (v : PNode) (sc : Scope) : Matches (.symbol a) v sc (bound sc a.value [v])
  | number (a b : Node) (sc : Scope) : a.value = b.value → Matches (.number a) (.number b) sc sc
  | string (p v : PNode) (a b : Node) (sc : Scope) : p = .string a ∨ p = .raw a → v = .string b ∨ v = .raw b →
      a.value = b.value → Matches p v sc sc
  | attr (k : Str) (p v : PNode) (s s' : Site) (w w' : Str) (sc sc' : Scope) :
      Matches p v sc sc' → Matches (.attr k p s w) (.attr k v s' w') sc sc'
  | list (ps vs : List PNode) (s s' : Site) (e e' : Token) (w w' : Str) (sc sc' : Scope) :
      MatchesList ps vs sc sc' → Matches (.list ps s e w) (.list vs s' e' w') sc sc'
/-- The arguments `vs` match the parameter list `ps`. -/
inductive MatchesList : List PNode → List PNode → Scope → Scope → Prop
  | mk (ps vs front left : List PNode) (sc sc₁ sc₂ sc₃ sc₄ : Scope) :
      -- the positional arguments are first used for the plain patterns, in order
      positional vs = front ++ left → MatchesEach (plainParams ps) front sc sc₁ →
      -- what is left goes to the `&` parameter; without one, nothing may be left
      (restNames ps = [] ∧ left = [] ∧ sc₂ = sc₁ ∨ ∃ r, restNames ps = [r] ∧ sc₂ = bound sc₁ r left) →
      -- named parameters get the argument with their keyword, or their default
      (∀ x, sc₃ x = match lastNamed x ps with
        | some d => some { params := [], body := [(lastNamed x vs).getD d] }
        | none => sc₂ x) →
      -- other named arguments go to the `&&` parameter; without one, there may be none
      (kwRestNames ps = [] ∧ (∀ k, lastNamed k ps = none → lastNamed k vs = none) ∧ sc₄ = sc₃ ∨
        ∃ r es, kwRestNames ps = [r] ∧ Leftover ps vs es ∧ sc₄ = bound sc₃ r es) →
      MatchesList ps vs sc sc₄
/-- As many values as patterns, which match one after the other. -/
inductive MatchesEach : List PNode → List PNode → Scope → Scope → Prop
  | nil (sc : Scope) : MatchesEach [] [] sc sc
  | cons (p v : PNode) (ps vs : List PNode) (sc sc' sc'' : Scope) :
      Matches p v sc sc' → MatchesEach ps vs sc' sc'' → MatchesEach (p :: ps) (v :: vs) sc sc''
end

/-- From `s` to `t` nothing is printed and no file is read: the states differ at most in
the scope (and the number of hash maps used). -/
def SameEffects (s t : St) : Prop := t.log = s.log ∧ t.fresh = s.fresh ∧ t.order = s.order

/-- In the state `s` the node `c` is a call of the user macro `m`, and expanding its
arguments gives the values `vs` and leaves the state `u`. -/
inductive UserCall (ext : Ext) (c : PNode) (s : St) (vs : List PNode) (u : St) (m : Macro) : Prop
  | mk (name : Str) (args : List PNode) : IsCall name args c → builtin? name = none → Evals ext args s (.ok vs) u →
      u.scope name = some m → UserCall ext c s vs u m

/-- The names of the built-in macros. -/
def reservedNames : List Str := [
  str! "apply", str! "concat", str! "date", str! "define", str! "do", str! "embed", str! "filter", str! "for", str! "format",
  str! "get", str! "glob", str! "ifdef", str! "include", str! "join", str! "json", str! "lambda", str! "list", str! "log",
  str! "map", str! "markdown", str! "match", str! "namespace", str! "number", str! "os/env", str! "raw", str! "reverse",
  str! "sort", str! "splat", str! "string", str! "strip", str! "symbol", str! "timestamp", str! "toml", str! "yaml"]

/-- The call `c` in the state `s` has exactly the outcomes of the body of `m` in the state
`v`, except that the definitions are those of `u` again. -/
def RunsBody (ext : Ext) (c : PNode) (s u v : St) (m : Macro) : Prop :=
  ∀ r t, Evals ext [c] s r t ↔ ∃ t', Evals ext m.body v r t' ∧ t = { t' with scope := u.scope }

/-- The parameters `ps` are the plain names `xs`. -/
inductive NameParams : List PNode → List Str → Prop
  | nil : NameParams [] []
  | cons (a : Node) (ps : List PNode) (xs : List Str) : (∀ r, a.value ≠ '&' :: r) → NameParams ps xs →
      NameParams (.symbol a :: ps) (a.value :: xs)

/-- None of the arguments is a named one. -/
def NoNamed (vs : List PNode) : Prop := ∀ v ∈ vs, v.attribute? = none

end Seam.Spec
