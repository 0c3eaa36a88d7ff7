import Verif.Lemmas.Cases
import Verif.Lemmas.Matching
import Verif.Lemmas.EvalCheck
import Verif.Props.Markup

/-!
# Properties of argument passing (C38–C40)

`MatchesList ps vs sc sc'` (Spec/Bind) says what it means that arguments `vs` match the
parameters `ps` and that the scope with the parameters bound is `sc'`.
-/

namespace Seam
open Spec

/-! ## The binding code does what matching says -/

/-- C38–C40: binding arguments to the parameters of a macro succeeds exactly if they
match, gives a scope that matching allows, and fails with an error otherwise; it never
panics and has no other effect. -/
theorem C38_binding_exact (call : PNode) (ps vs : List PNode) (s : St) (hf : Fair s.order) :
    (∃ t, bindList call ps vs s = (.ok (), t) ∧ MatchesList ps vs s.scope t.scope ∧ SameEffects s t) ∨
    (∃ e t, bindList call ps vs s = (.err e, t) ∧ (∀ sc', ¬ MatchesList ps vs s.scope sc') ∧ SameEffects s t) :=
  bindList_cases call ps vs s hf

/-- C38–C40: a call of a user macro whose arguments match is the expansion of the body
with the parameters bound; afterwards the scope is the one after the arguments were
expanded. -/
theorem C38_call_matching (ext : Ext) (c : PNode) (vs : List PNode) (s u : St) (m : Macro)
    (hc : UserCall ext c s vs u m) (hf : Fair s.order) (sc : Scope) (hs : MatchesList m.params vs u.scope sc) :
    ∃ v, MatchesList m.params vs u.scope v.scope ∧ SameEffects u v ∧ RunsBody ext c s u v m := by
  obtain ⟨name, args, hc, hb, ha, hm⟩ := hc
  rcases bindList_cases c m.params vs u (evals_fair ha hf) with ⟨v, h1, h2, h3⟩ | ⟨e, v, _, h2, _⟩
  · refine ⟨v, h2, h3, fun r t => ⟨fun h => evals_user_ok_inv hc hb ha hm h1 h, ?_⟩⟩
    rintro ⟨t', h, rfl⟩
    exact evals_user_ok hc hb ha hm h1 h
  · exact absurd hs (h2 sc)

/-- C38–C40: a call whose arguments do not match is an error; the body is not expanded. -/
theorem C38_call_not_matching (ext : Ext) (c : PNode) (vs : List PNode) (s u : St) (m : Macro)
    (hc : UserCall ext c s vs u m) (hf : Fair s.order) (hs : ∀ sc, ¬ MatchesList m.params vs u.scope sc) :
    ∃ e t, Evals ext [c] s (.err e) t ∧ t.scope = u.scope ∧ SameEffects u t := by
  obtain ⟨name, args, hc, hb, ha, hm⟩ := hc
  rcases bindList_cases c m.params vs u (evals_fair ha hf) with ⟨v, _, h2, _⟩ | ⟨e, v, h1, _, h3⟩
  · exact absurd h2 (hs _)
  · exact ⟨e, _, evals_user_err hc hb ha hm h1, rfl, h3⟩

/-- A call that succeeds ran the body with the parameters bound. -/
theorem ran_body {ext : Ext} {c : PNode} {vs out : List PNode} {s u t : St} {m : Macro}
    (hc : UserCall ext c s vs u m) (hf : Fair s.order) (h : Evals ext [c] s (.ok out) t) :
    ∃ v, MatchesList m.params vs u.scope v.scope ∧ SameEffects u v ∧ RunsBody ext c s u v m := by
  by_cases hs : ∃ sc, MatchesList m.params vs u.scope sc
  · obtain ⟨sc, hs⟩ := hs
    exact C38_call_matching ext c vs s u m hc hf sc hs
  · obtain ⟨e, t', h', _⟩ := C38_call_not_matching ext c vs s u m hc hf fun sc h => hs ⟨sc, h⟩
    have := (h.unique h').1
    cases this

/-! ## C38 -/

/-- C38: the calls that this is about are those of every name but the names of the built-in macros. -/
theorem C38_reserved (name : Str) : builtin? name = none ↔ name ∉ reservedNames := by
  have h1 : ∀ e ∈ builtinTable, e.1 ∈ reservedNames := by decide +kernel
  have h2 : ∀ n ∈ reservedNames, ∃ e ∈ builtinTable, e.1 = n := by decide +kernel
  unfold builtin?
  rw [amGet_eq_none]
  refine ⟨fun h hn => ?_, fun h e he hn => h (hn ▸ h1 e he)⟩
  obtain ⟨e, he, hen⟩ := h2 name hn
  exact h e he hen

/-- C38: with the right number of arguments the body is expanded with each name bound to
its argument, and nothing else changed. -/
theorem C38_call_ok (ext : Ext) (c : PNode) (vs : List PNode) (xs : List Str) (s u : St) (m : Macro)
    (hc : UserCall ext c s vs u m) (hf : Fair s.order) (hp : NameParams m.params xs) (hx : xs.Nodup)
    (hn : NoNamed vs) (hl : vs.length = xs.length) :
    ∃ v, (∀ (i : Nat) x a, xs[i]? = some x → vs[i]? = some a → v.scope x = some { params := [], body := [a] }) ∧
      (∀ y, y ∉ xs → v.scope y = u.scope y) ∧ SameEffects u v ∧ RunsBody ext c s u v m := by
  obtain ⟨sc, hs⟩ := (matches_count _ vs xs u.scope hp).2 ⟨hn, hl⟩
  obtain ⟨v, h1, h2, h3⟩ := C38_call_matching ext c vs s u m hc hf sc hs
  obtain ⟨h4, h5⟩ := matches_bound _ vs xs _ _ hp hx h1
  exact ⟨v, h4, h5, h2, h3⟩

/-- C38: with another number of arguments or a named one it is an error. -/
theorem C38_call_error (ext : Ext) (c : PNode) (vs : List PNode) (xs : List Str) (s u : St) (m : Macro)
    (hc : UserCall ext c s vs u m) (hf : Fair s.order) (hp : NameParams m.params xs)
    (h : vs.length ≠ xs.length ∨ ¬ NoNamed vs) :
    ∃ e t, Evals ext [c] s (.err e) t ∧ t.scope = u.scope ∧ SameEffects u t := by
  refine C38_call_not_matching ext c vs s u m hc hf fun sc hs => ?_
  obtain ⟨h1, h2⟩ := (matches_count _ vs xs u.scope hp).1 ⟨sc, hs⟩
  rcases h with h | h
  · exact h h2
  · exact h h1

/-- Parameters `x y`, arguments `1 a`. -/
example : NameParams [exSym ['x'], exSym ['y']] [['x'], ['y']] :=
  .cons _ _ _ (fun _ => by simp) (.cons _ _ _ (fun _ => by simp) .nil)
example : ∃ sc', MatchesList [exSym ['x'], exSym ['y']] [exStr ['1'], exSym ['a']] Scope.empty sc' :=
  (matches_count _ _ [['x'], ['y']] _ (.cons _ _ _ (fun _ => by simp) (.cons _ _ _ (fun _ => by simp) .nil))).2
    ⟨by intro v hv; simp at hv; rcases hv with rfl | rfl <;> rfl, rfl⟩
/-- `(%f 1 a)` where `f` is defined. -/
example (m : Macro) : UserCall exExt (exList [exSym (str! "%f"), exStr ['1'], exSym ['a']])
    { exSt with scope := fun x => if x = ['f'] then some m else none } [exStr ['1'], exSym ['a']]
    { exSt with scope := fun x => if x = ['f'] then some m else none } m :=
  .mk ['f'] _ (.mk _ _ _ _ _ rfl rfl) rfl ⟨by simp, 1, rfl⟩ rfl

/-- `(%define (f x y) (%y %x))(%f 1 2)`, and with one argument only. -/
example : ∃ t, Evals exExt [exList [exSym (str! "%define"), exList [exSym ['f'], exSym ['x'], exSym ['y']],
    exSym (str! "%y"), exSym (str! "%x")], exList [exSym (str! "%f"), exStr ['1'], exStr ['2']]] exSt
    (.ok [exStr ['2'], exStr ['1']]) t := evals_ok_at 10 (by decide +kernel)
example : ∃ e t, Evals exExt [exList [exSym (str! "%define"), exList [exSym ['f'], exSym ['x'], exSym ['y']],
    exSym (str! "%y"), exSym (str! "%x")], exList [exSym (str! "%f"), exStr ['1']]] exSt
    (.err e) t ∧ (e.msg == "Too few values given.") = true := evals_err_of 10 _ (by decide +kernel)

/-- A state in which `f` is the macro. -/
def exWithF (m : Macro) : St := { exSt with scope := fun x => if x = ['f'] then some m else none }
/-- The call `(%f args...)`. -/
def exCallF (args : List PNode) : PNode := exList (exSym (str! "%f") :: args)
/-- The call is one of that macro. -/
theorem exCallF_user (m : Macro) (args : List PNode) (hf : freeNodes (dropFirstBlank args) = true) :
    UserCall exExt (exCallF args) (exWithF m) (dropFirstBlank args) (exWithF m) m :=
  .mk ['f'] _ (.mk _ _ _ _ _ rfl rfl) rfl (plain_evals _ _ _ hf) rfl
/-- `(%define (f x y) (%y %x))`. -/
def exTwoParams : Macro := ⟨[exSym ['x'], exSym ['y']], [exSym (str! "%y"), exSym (str! "%x")]⟩
theorem exTwoParams_names : NameParams exTwoParams.params [['x'], ['y']] :=
  .cons _ _ _ (fun _ => by simp) (.cons _ _ _ (fun _ => by simp) .nil)

/-- The theorems on `(%f 1 a)` and `(%f 1)`. -/
example := C38_binding_exact (exCallF []) exTwoParams.params [exStr ['1'], exSym ['a']] exSt exSt_fair
example (sc : Scope) (h : MatchesList exTwoParams.params [exStr ['1'], exSym ['a']] (exWithF exTwoParams).scope sc) :=
  C38_call_matching exExt (exCallF [exStr ['1'], exSym ['a']]) _ _ _ _ (exCallF_user exTwoParams _ rfl) exSt_fair sc h
example := C38_call_not_matching exExt (exCallF [exStr ['1']]) _ _ _ _ (exCallF_user exTwoParams _ rfl) exSt_fair
  (fun sc h => absurd ((matches_count _ _ _ _ exTwoParams_names).1 ⟨sc, h⟩).2 (by decide))
example := C38_call_ok exExt (exCallF [exStr ['1'], exSym ['a']]) _ _ _ _ _ (exCallF_user exTwoParams _ rfl) exSt_fair exTwoParams_names
  (by decide) (no_named _ rfl) rfl
example := C38_call_error exExt (exCallF [exStr ['1']]) _ _ _ _ _ (exCallF_user exTwoParams _ rfl) exSt_fair exTwoParams_names
  (.inl (by decide))

/-! ## C39 -/

/-- C39: in the body of a macro with a `&` parameter, that parameter stands for the
positional arguments left after the plain patterns, in order and unchanged (unless
another parameter has the same name). -/
theorem C39_rest (ext : Ext) (c : PNode) (vs out : List PNode) (r : Str) (s u t : St) (m : Macro)
    (hc : UserCall ext c s vs u m) (hf : Fair s.order) (hr : r ∈ restNames m.params)
    (hk : r ∉ kwRestNames m.params) (hn : lastNamed r m.params = none) (h : Evals ext [c] s (.ok out) t) :
    ∃ v, v.scope r = some { params := [], body := (positional vs).drop (plainParams m.params).length } ∧
      SameEffects u v ∧ RunsBody ext c s u v m := by
  obtain ⟨v, h1, h2, h3⟩ := ran_body hc hf h
  exact ⟨v, matches_rest _ _ r _ _ hr hk hn h1, h2, h3⟩

/-- C39: fewer positional arguments than plain patterns are an error... -/
theorem C39_too_few (ext : Ext) (c : PNode) (vs : List PNode) (s u : St) (m : Macro) (hc : UserCall ext c s vs u m)
    (hf : Fair s.order) (h : (positional vs).length < (plainParams m.params).length) :
    ∃ e t, Evals ext [c] s (.err e) t ∧ t.scope = u.scope ∧ SameEffects u t :=
  C38_call_not_matching ext c vs s u m hc hf fun _ hs => by
    have := (matches_enough _ _ _ _ hs).1
    omega

/-- C39: ...and more of them, if there is no `&` parameter. -/
theorem C39_too_many (ext : Ext) (c : PNode) (vs : List PNode) (s u : St) (m : Macro) (hc : UserCall ext c s vs u m)
    (hf : Fair s.order) (hr : restNames m.params = []) (h : (plainParams m.params).length < (positional vs).length) :
    ∃ e t, Evals ext [c] s (.err e) t ∧ t.scope = u.scope ∧ SameEffects u t :=
  C38_call_not_matching ext c vs s u m hc hf fun _ hs => by
    have := (matches_enough _ _ _ _ hs).2 hr
    omega

/-- C39: a macro with plain names and then `&r` takes any arguments that are positional
and at least as many as the names: the names stand for the first ones, `r` for the
others, and no other name changes. -/
theorem C39_names_rest (ext : Ext) (c : PNode) (vs ps : List PNode) (xs : List Str) (a : Node) (r : Str) (s u : St) (m : Macro)
    (hc : UserCall ext c s vs u m) (hf : Fair s.order) (hm : m.params = ps ++ [.symbol a]) (hp : NameParams ps xs)
    (hx : (xs ++ [r]).Nodup) (ha : a.value = '&' :: r) (hr : ∀ r', r ≠ '&' :: r') (hn : NoNamed vs)
    (hl : xs.length ≤ vs.length) :
    ∃ v, (∀ (i : Nat) x b, xs[i]? = some x → vs[i]? = some b → v.scope x = some { params := [], body := [b] }) ∧
      v.scope r = some { params := [], body := vs.drop xs.length } ∧ (∀ y, y ∉ xs → y ≠ r → v.scope y = u.scope y) ∧
      SameEffects u v ∧ RunsBody ext c s u v m := by
  obtain ⟨sc, hs⟩ := (matches_names_rest ps xs a r vs u.scope hp ha hr).2 ⟨hn, hl⟩
  obtain ⟨v, h1, h2, h3⟩ := C38_call_matching ext c vs s u m hc hf sc (hm ▸ hs)
  rw [hm] at h1
  obtain ⟨h4, h5, h6⟩ := matches_names_rest_bound ps xs a r vs _ _ hp hx ha hr hn h1
  exact ⟨v, h4, h5, h6, h2, h3⟩

/-- C39: any other arguments are an error for it. -/
theorem C39_names_rest_error (ext : Ext) (c : PNode) (vs ps : List PNode) (xs : List Str) (a : Node) (r : Str) (s u : St) (m : Macro)
    (hc : UserCall ext c s vs u m) (hf : Fair s.order) (hm : m.params = ps ++ [.symbol a]) (hp : NameParams ps xs)
    (ha : a.value = '&' :: r) (hr : ∀ r', r ≠ '&' :: r') (h : vs.length < xs.length ∨ ¬ NoNamed vs) :
    ∃ e t, Evals ext [c] s (.err e) t ∧ t.scope = u.scope ∧ SameEffects u t :=
  C38_call_not_matching ext c vs s u m hc hf fun sc hs => by
    obtain ⟨h1, h2⟩ := (matches_names_rest ps xs a r vs u.scope hp ha hr).1 ⟨sc, hm ▸ hs⟩
    rcases h with h | h
    · omega
    · exact h h1

/-- Parameters `x &r`. -/
example : NameParams [exSym ['x']] [['x']] ∧ ([['x']] ++ [['r']]).Nodup ∧ NoNamed [exStr ['1'], exStr ['2'], exStr ['3']] ∧
    restNames [exSym ['x'], exSym ['&', 'r']] = [['r']] ∧ lastNamed ['r'] [exSym ['x'], exSym ['&', 'r']] = none := by
  refine ⟨.cons _ _ _ (fun _ => by simp) .nil, by decide, ?_, rfl, rfl⟩
  intro v hv
  simp at hv
  rcases hv with rfl | rfl | rfl <;> rfl
/-- `(%define (f x &r) (p %r))(%f 1 2 3)`, `(%f 1)`. -/
example : ∃ t, Evals exExt [exList [exSym (str! "%define"), exList [exSym ['f'], exSym ['x'], exSym ['&', 'r']],
    exList [exSym ['p'], exSym (str! "%r")]], exList [exSym (str! "%f"), exStr ['1'], exStr ['2'], exStr ['3']],
    exList [exSym (str! "%f"), exStr ['1']]] exSt
    (.ok [exList [exSym ['p'], exStr ['2'], exStr ['3']], exList [exSym ['p']]]) t :=
  evals_ok_at 10 (by decide +kernel)

/-- `(%define (f x &r) (p %r))`. -/
def exRest : Macro := ⟨[exSym ['x'], exSym ['&', 'r']], [exList [exSym ['p'], exSym (str! "%r")]]⟩

/-- The theorems on `(%f 1 2 3)`, `(%f)`, and `(%f 1 2 3)` with the macro of two parameters. -/
example : ∃ t, Evals exExt [exCallF [exStr ['1'], exStr ['2'], exStr ['3']]] (exWithF exRest)
    (.ok [exList [exSym ['p'], exStr ['2'], exStr ['3']]]) t := evals_ok_at 10 (by decide +kernel)
example (out : List PNode) (t : St) (h : Evals exExt [exCallF [exStr ['1'], exStr ['2'], exStr ['3']]] (exWithF exRest) (.ok out) t) :=
  C39_rest exExt _ _ out ['r'] _ _ t exRest (exCallF_user exRest _ rfl) exSt_fair (by decide) (by decide) rfl h
example := C39_too_few exExt (exCallF []) _ _ _ exRest (exCallF_user exRest _ rfl) exSt_fair (by decide)
example := C39_too_many exExt (exCallF [exStr ['1'], exStr ['2'], exStr ['3']]) _ _ _ exTwoParams (exCallF_user exTwoParams _ rfl) exSt_fair
  rfl (by decide)
example := C39_names_rest exExt (exCallF [exStr ['1'], exStr ['2'], exStr ['3']]) _ [exSym ['x']] [['x']] _ ['r'] _ _ exRest
  (exCallF_user exRest _ rfl) exSt_fair rfl (.cons _ _ _ (fun _ => by simp) .nil) (by decide) rfl (by simp) (no_named _ rfl) (by decide)
example := C39_names_rest_error exExt (exCallF []) _ [exSym ['x']] [['x']] _ ['r'] _ _ exRest
  (exCallF_user exRest _ rfl) exSt_fair rfl (.cons _ _ _ (fun _ => by simp) .nil) rfl (by simp) (.inl (by decide))

/-! ## C40 -/

/-- C40: in the body of a macro a named parameter stands for the argument given under its
keyword, or for its default (unless a `&&` parameter has the same name). -/
theorem C40_named (ext : Ext) (c : PNode) (vs out : List PNode) (k : Str) (d : PNode) (s u t : St) (m : Macro)
    (hc : UserCall ext c s vs u m) (hf : Fair s.order) (hd : lastNamed k m.params = some d)
    (hk : k ∉ kwRestNames m.params) (h : Evals ext [c] s (.ok out) t) :
    ∃ v, v.scope k = some { params := [], body := [(lastNamed k vs).getD d] } ∧ SameEffects u v ∧ RunsBody ext c s u v m := by
  obtain ⟨v, h1, h2, h3⟩ := ran_body hc hf h
  exact ⟨v, matches_named _ _ k d _ _ hd hk h1, h2, h3⟩

/-- C40: it does not matter where named arguments stand: if arguments are accepted, so are
any others with the same positional arguments in order and the same last argument for
each keyword, and the parameters are bound in a way that is right for the first ones
too. -/
theorem C40_anywhere (call call' : PNode) (ps vs vs' : List PNode) (s t : St) (hf : Fair s.order)
    (hp : positional vs = positional vs') (hk : ∀ k, lastAttr k vs = lastAttr k vs')
    (h : bindList call ps vs s = (.ok (), t)) :
    ∃ t', bindList call' ps vs' s = (.ok (), t') ∧ MatchesList ps vs s.scope t'.scope := by
  rcases C38_binding_exact call ps vs s hf with ⟨t1, h1, h2, _⟩ | ⟨e, t1, h1, _⟩
  · rcases C38_binding_exact call' ps vs' s hf with ⟨t2, h3, h4, _⟩ | ⟨e, t2, _, h4, _⟩
    · exact ⟨t2, h3, matches_anywhere ps vs' vs _ _ hp.symm (fun k => (hk k).symm) h4⟩
    · exact absurd (matches_anywhere ps vs vs' _ _ hp hk h2) (h4 _)
  · rw [h] at h1; cases h1

/-- C40: an unknown keyword is an error unless there is a `&&` parameter. -/
theorem C40_unknown (ext : Ext) (c : PNode) (vs : List PNode) (k : Str) (s u : St) (m : Macro)
    (hc : UserCall ext c s vs u m) (hf : Fair s.order) (hv : lastNamed k vs ≠ none)
    (hk : lastNamed k m.params = none) (hr : kwRestNames m.params = []) :
    ∃ e t, Evals ext [c] s (.err e) t ∧ t.scope = u.scope ∧ SameEffects u t :=
  C38_call_not_matching ext c vs s u m hc hf (matches_unknown _ _ k _ hv hk hr)

/-- C40: a `&&` parameter stands for the named arguments for which there is no
parameter, each once, in any order. -/
theorem C40_kwrest (ext : Ext) (c : PNode) (vs out : List PNode) (r : Str) (s u t : St) (m : Macro)
    (hc : UserCall ext c s vs u m) (hf : Fair s.order) (hr : r ∈ kwRestNames m.params)
    (h : Evals ext [c] s (.ok out) t) :
    ∃ v es, v.scope r = some { params := [], body := es } ∧ Leftover m.params vs es ∧ SameEffects u v ∧
      RunsBody ext c s u v m := by
  obtain ⟨v, h1, h2, h3⟩ := ran_body hc hf h
  obtain ⟨es, h4, h5⟩ := matches_kwrest _ _ r _ _ hr h1
  exact ⟨v, es, h4, h5, h2, h3⟩

/-- `(%define (f :k 0 x) (p %k %x))(%f a :k 1)(%f b)`, and `(%f a :j 1)`. -/
example : ∃ t, Evals exExt [exList [exSym (str! "%define"), exList [exSym ['f'], exAttr ['k'] (exStr ['0']), exSym ['x']],
    exList [exSym ['p'], exSym (str! "%k"), exSym (str! "%x")]],
    exList [exSym (str! "%f"), exStr ['a'], exAttr ['k'] (exStr ['1'])],
    exList [exSym (str! "%f"), exStr ['b']]] exSt
    (.ok [exList [exSym ['p'], exStr ['1'], exStr ['a']], exList [exSym ['p'], exStr ['0'], exStr ['b']]]) t :=
  evals_ok_at 10 (by decide +kernel)
example : ∃ e t, Evals exExt [exList [exSym (str! "%define"), exList [exSym ['f'], exAttr ['k'] (exStr ['0']), exSym ['x']],
    exList [exSym ['p'], exSym (str! "%k"), exSym (str! "%x")]],
    exList [exSym (str! "%f"), exStr ['a'], exAttr ['j'] (exStr ['1'])]] exSt
    (.err e) t ∧ (e.msg == "Unknown excess keywords provided.") = true := evals_err_of 10 _ (by decide +kernel)

/-- `(%define (f :k 0 x &&o) %x)`, and without `&&o`. -/
def exNamed : Macro := ⟨[exAttr ['k'] (exStr ['0']), exSym ['x'], exSym (str! "&&o")], [exSym (str! "%x")]⟩
def exNamed' : Macro := ⟨[exAttr ['k'] (exStr ['0']), exSym ['x']], [exSym (str! "%x")]⟩

/-- The theorems on `(%f a :k 1 :j 2)`, which for the second macro is an error. -/
example : ∃ t, Evals exExt [exCallF [exStr ['a'], exAttr ['k'] (exStr ['1']), exAttr ['j'] (exStr ['2'])]] (exWithF exNamed)
    (.ok [exStr ['a']]) t := evals_ok_at 10 (by decide +kernel)
example (out : List PNode) (t : St) (h : Evals exExt [exCallF [exStr ['a'], exAttr ['k'] (exStr ['1']), exAttr ['j'] (exStr ['2'])]]
    (exWithF exNamed) (.ok out) t) :=
  C40_named exExt _ _ out ['k'] (exStr ['0']) _ _ t exNamed (exCallF_user exNamed _ rfl) exSt_fair rfl (by decide) h
example (out : List PNode) (t : St) (h : Evals exExt [exCallF [exStr ['a'], exAttr ['k'] (exStr ['1']), exAttr ['j'] (exStr ['2'])]]
    (exWithF exNamed) (.ok out) t) :=
  C40_kwrest exExt _ _ out ['o'] _ _ t exNamed (exCallF_user exNamed _ rfl) exSt_fair (by decide) h
example := C40_unknown exExt (exCallF [exStr ['a'], exAttr ['k'] (exStr ['1']), exAttr ['j'] (exStr ['2'])]) _ ['j'] _ _ exNamed'
  (exCallF_user exNamed' _ rfl) exSt_fair (fun h => nomatch (show some (exStr ['2']) = none from h)) rfl rfl
example (t : St) (h : bindList (exCallF []) exNamed.params [exStr ['a'], exAttr ['k'] (exStr ['1'])] exSt = (.ok (), t)) :=
  C40_anywhere (exCallF []) (exCallF []) exNamed.params [exStr ['a'], exAttr ['k'] (exStr ['1'])]
    [exAttr ['k'] (exStr ['1']), exStr ['a']] exSt t exSt_fair rfl (fun _ => rfl) h

end Seam
