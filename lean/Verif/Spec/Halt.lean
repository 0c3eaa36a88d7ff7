import Verif.Spec.Control
import Verif.Spec.Builtins

/-! When expansion is complete, and when it is sure to finish. -/

namespace Seam.Spec

/-- The built-in macros that only expand their arguments and compute a value from
the result: all but those that take code (`%define`, `%match`, `%ifdef`, `%for`,
`%lambda`, `%include`, `%namespace`), those that call a macro by its name
(`%apply`, `%map`, `%filter`, `%sort`), and `%symbol`. -/
def selfContained : List Builtin := [
  .do_, .get, .raw, .string, .number, .embed, .markdown, .yaml, .toml, .glob, .reverse,
  .date, .timestamp, .join, .concat, .splat, .list, .strip, .log, .format, .osEnv]

mutual
/-- No text of a TOML date or boolean starts with `%`. -/
inductive PlainValue : TVal → Prop
  | str (s : Str) : PlainValue (.str s)
  | num (s : Str) : PlainValue (.num s)
  | sym (s : Str) : (∀ name, s ≠ '%' :: name) → PlainValue (.sym s)
  | arr (vs : List TVal) : PlainValues vs → PlainValue (.arr vs)
  | tab (kvs : List (Str × TVal)) : PlainEntries kvs → PlainValue (.tab kvs)
/-- The same for the values of an array. -/
inductive PlainValues : List TVal → Prop
  | nil : PlainValues []
  | cons (v : TVal) (vs : List TVal) : PlainValue v → PlainValues vs → PlainValues (v :: vs)
/-- The same for the values in a table. -/
inductive PlainEntries : List (Str × TVal) → Prop
  | nil : PlainEntries []
  | cons (k : Str) (v : TVal) (kvs : List (Str × TVal)) : PlainValue v → PlainEntries kvs → PlainEntries ((k, v) :: kvs)
end

/-- Dates and booleans are not written with a `%`: what the TOML library is
assumed to do (`true`, `false`, `1979-05-27T07:32:00Z`, ...). -/
def PlainToml (ext : Ext) : Prop := ∀ text table, ext.toml text = some table → PlainEntries table

/-- None of the nodes is a symbol that starts with `%`. -/
def noMacroName (ns : List PNode) : Bool :=
  ns.all fun n => match n with
    | .symbol a => a.value.head? != some '%'
    | _ => true

/-- The expander, except that a call of `%symbol` that makes a symbol starting with
`%` has no outcome. -/
def plainRun (ext : Ext) : (fuel : Nat) → Rec
  | 0, _ => M.lift .diverge
  | fuel + 1, .invoke name call params => do
    let ns ← step ext (plainRun ext fuel) (.invoke name call params)
    if builtin? name = some .symbol ∧ noMacroName ns = false then M.lift .diverge else pure ns
  | fuel + 1, c => step ext (plainRun ext fuel) c

/-- Expanding the nodes `ns` in the state `s` finishes with outcome `r` and state
`s'`, and on the way no call of `%symbol` makes a symbol that starts with `%`. -/
def PlainEvals (ext : Ext) (ns : List PNode) (s : St) (r : Res (List PNode)) (s' : St) : Prop :=
  r ≠ .diverge ∧ ∃ fuel, expandNodes (plainRun ext fuel) ns s = (r, s')

/-! ## Programs without recursion

Every name gets a number, its rank.  In a program without recursion the body of a
macro mentions only names of a smaller rank than the macro's own. -/

/-- The name a `%lambda` at this place gets. -/
def lambdaSymbol (ext : Ext) (call : PNode) : Str := str! "__lambda" ++ ext.uuid call.site

/-- A macro that may be called where names of ranks below `k` are allowed: a user's
macro of such a rank, or one of the `selfContained` ones. -/
def Callable (rank : Str → Nat) (k : Nat) (name : Str) : Prop :=
  (builtin? name = none ∧ rank name < k) ∨ ∃ b ∈ selfContained, builtin? name = some b

mutual
/-- `Tame ext rank k n`: all macros and variables that expanding `n` can use have ranks
below `k`, where the body of a definition inside `n` is counted for the name it defines. -/
inductive Tame (ext : Ext) (rank : Str → Nat) : Nat → PNode → Prop
  | number (k : Nat) (a : Node) : Tame ext rank k (.number a)
  | string (k : Nat) (a : Node) : Tame ext rank k (.string a)
  | raw (k : Nat) (a : Node) : Tame ext rank k (.raw a)
  | word (k : Nat) (a : Node) : (∀ name, a.value ≠ '%' :: name) → Tame ext rank k (.symbol a)
  | variable (k : Nat) (a : Node) (name : Str) : a.value = '%' :: name → rank name < k → Tame ext rank k (.symbol a)
  | attr (k : Nat) (key : Str) (n : PNode) (s : Site) (w : Str) : Tame ext rank k n → Tame ext rank k (.attr key n s w)
  | list (k : Nat) (ns : List PNode) (s : Site) (e : Token) (w : Str) :
      (∀ a t, ns = .symbol a :: t → ∀ name, a.value ≠ '%' :: name) → Tames ext rank k ns → Tame ext rank k (.list ns s e w)
  /-- A call of a user's macro or of a built-in one that only computes. -/
  | call (k : Nat) (c : PNode) (name : Str) (args : List PNode) : IsCall name args c → Callable rank k name →
      Tames ext rank k args → Tame ext rank k c
  /-- `(%define x value...)`. -/
  | define (k : Nat) (c : PNode) (x : Node) (value : List PNode) : IsCall (str! "define") (.symbol x :: value) c →
      Tames ext rank k value → Tame ext rank k c
  /-- `(%define (f params...) body...)`. -/
  | function (k : Nat) (c : PNode) (f : Node) (params body : List PNode) (s : Site) (e : Token) (w : Str) :
      IsCall (str! "define") (.list (.symbol f :: params) s e w :: body) c → MacrosFree params →
      Tames ext rank (rank f.value) body → Tame ext rank k c
  /-- `(%ifdef x ...)`. -/
  | ifdef (k : Nat) (c x : PNode) (branches : List PNode) : IsCall (str! "ifdef") (x :: branches) c →
      Tames ext rank k branches → Tame ext rank k c
  /-- `(%for pattern in (items...) body...)`. -/
  | for_ (k : Nat) (c it : PNode) (kw : Node) (args xs rest : List PNode) (s : Site) (e : Token) (w : Str) :
      IsCall (str! "for") args c → positional args = it :: .symbol kw :: .list xs s e w :: rest → kw.value = str! "in" →
      MacroFree it → Tames ext rank k xs → Tames ext rank k (dropPositional 3 args) → Tame ext rank k c
  /-- `(%match value (pattern body...)...)`. -/
  | cases_ (k : Nat) (c x : PNode) (clauses : List PNode) : IsCall (str! "match") (x :: clauses) c → Tame ext rank k x →
      TameClauses ext rank k clauses → Tame ext rank k c
  /-- `(%lambda params body...)`. -/
  | lambda (k : Nat) (c head : PNode) (args params rest : List PNode) : IsCall (str! "lambda") args c →
      positional args = head :: rest → LambdaParams head params → MacrosFree params →
      Tames ext rank (rank (lambdaSymbol ext c)) (dropPositional 1 args) → Tame ext rank k c
  /-- `%apply`, `%map`, `%filter` with a function that can be seen in the text. -/
  | applied (k : Nat) (c f : PNode) (name : Str) (args : List PNode) : IsCall name (f :: args) c →
      name = str! "apply" ∨ name = str! "map" ∨ name = str! "filter" → TameFn ext rank k f → Tames ext rank k args →
      Tame ext rank k c
  /-- `(%sort :key f :order o (items...))`. -/
  | sort (k : Nat) (c : PNode) (args : List PNode) : IsCall (str! "sort") args c → TameSorts ext rank k args → Tame ext rank k c
  /-- `%symbol` on words without macros that does not make a name starting with `%`. -/
  | symbol (k : Nat) (c : PNode) (args : List PNode) : IsCall (str! "symbol") args c → MacrosFree args →
      (∀ n ∈ args, ∀ a, Literal n a → ∀ name, a.value ≠ '%' :: name) → Tame ext rank k c
  /-- `(%include "path")` of a file that can be read and of which the same is true. -/
  | include_ (k : Nat) (c n : PNode) (a : Node) : IsCall (str! "include") [n] c → MacroFree n → Literal n a →
      (∀ file code id, FirstRead ext (includeFiles ext a.value) file code →
        parse ext.unescape { path := file, id := id, code := code } ≠ .diverge) →
      (∀ file code id tree, FirstRead ext (includeFiles ext a.value) file code →
        parse ext.unescape { path := file, id := id, code := code } = .ok tree → Tames ext rank k tree) →
      Tame ext rank k c
  /-- `(%namespace name ...)`, if names with a prefix have no smaller rank. -/
  | namespace_ (k : Nat) (c : PNode) (args : List PNode) : IsCall (str! "namespace") args c →
      (∀ pre name, rank name ≤ rank (pre ++ name)) → Tames ext rank k args → Tame ext rank k c
/-- The same for several nodes. -/
inductive Tames (ext : Ext) (rank : Str → Nat) : Nat → List PNode → Prop
  | nil (k : Nat) : Tames ext rank k []
  | cons (k : Nat) (n : PNode) (ns : List PNode) : Tame ext rank k n → Tames ext rank k ns → Tames ext rank k (n :: ns)
/-- The same for the clauses of `%match`. -/
inductive TameClauses (ext : Ext) (rank : Str → Nat) : Nat → List PNode → Prop
  | nil (k : Nat) : TameClauses ext rank k []
  | cons (k : Nat) (pat : PNode) (body ps : List PNode) (s : Site) (e : Token) (w : Str) : Tame ext rank k pat →
      Tames ext rank k body → TameClauses ext rank k ps → TameClauses ext rank k (.list (pat :: body) s e w :: ps)
/-- A function that can be seen in the text: the name of a macro that may be called, or a
`%lambda`. -/
inductive TameFn (ext : Ext) (rank : Str → Nat) : Nat → PNode → Prop
  | name (k : Nat) (a : Node) : (∀ name, a.value ≠ '%' :: name) → Callable rank k a.value → TameFn ext rank k (.symbol a)
  | lambda (k : Nat) (c head : PNode) (args params rest : List PNode) : IsCall (str! "lambda") args c →
      positional args = head :: rest → LambdaParams head params → MacrosFree params →
      Tames ext rank (rank (lambdaSymbol ext c)) (dropPositional 1 args) → rank (lambdaSymbol ext c) < k → TameFn ext rank k c
/-- The arguments of `%sort`: options without macros, of which `:key` is a macro that may be
called, and lists that are not themselves macro calls. -/
inductive TameSorts (ext : Ext) (rank : Str → Nat) : Nat → List PNode → Prop
  | nil (k : Nat) : TameSorts ext rank k []
  | option (k : Nat) (key : Str) (v : PNode) (s : Site) (w : Str) (ns : List PNode) : MacroFree v →
      (key = str! "key" → ∀ a, Literal v a → Callable rank k a.value) → TameSorts ext rank k ns →
      TameSorts ext rank k (.attr key v s w :: ns)
  | items (k : Nat) (xs : List PNode) (s : Site) (e : Token) (w : Str) (ns : List PNode) :
      (∀ a t, xs = .symbol a :: t → ∀ name, a.value ≠ '%' :: name) → Tames ext rank k xs → TameSorts ext rank k ns →
      TameSorts ext rank k (.list xs s e w :: ns)
end

/-- Every macro that is defined so far calls only macros of smaller rank. -/
def Ranked (ext : Ext) (rank : Str → Nat) (sc : Scope) : Prop :=
  ∀ name m, sc name = some m → MacrosFree m.params ∧ Tames ext rank (rank name) m.body

end Seam.Spec
