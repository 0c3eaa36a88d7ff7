import Verif.Lemmas.Capture
import Verif.Props.Looks
import Verif.Props.Fill

/-!
# Where a macro is called (C112)

`LookEvals` is explained in Spec/Looks, `given` in Spec/Capture.
-/

namespace Seam
open Spec

/-- C112: a call of a macro expands its body with the definitions that are in force at the call, except that
the parameters stand for the arguments; the definitions at the place where the macro was defined do not
matter.  Afterwards the definitions are again those at the call. -/
theorem C112_call_time (ext : Ext) (c : PNode) (vs : List PNode) (xs : List Str) (s u : St) (m : Macro) (r : Res (List PNode)) (t : St)
    (hc : UserCall ext c s vs u m) (hp : NameParams m.params xs) (hn : NoNamed vs) (hl : vs.length = xs.length) :
    Evals ext [c] s r t ↔
      ∃ t', Evals ext m.body { u with scope := given xs vs u.scope } r t' ∧ t = { t' with scope := u.scope } := by
  obtain ⟨name, args, k1, k2, k3, k4⟩ := hc
  have hb : bindList c m.params vs u = _ := bindLoop_names c hp vs 0 u hn hl
  constructor
  · exact evals_user_ok_inv k1 k2 k3 k4 hb
  · rintro ⟨t', h, rfl⟩
    exact evals_user_ok k1 k2 k3 k4 hb h

/-- C112: a macro called with the same values in two places of a program gives the same result, and logs the
same lines, if the names that its body looks up, other than its parameters, mean the same in both places.
Missing: a name that was defined differently in between makes a difference, see `C112_capture_false`. -/
theorem C112_same_partial (ext : Ext) (allowed : Str → Bool) (pre : List LogLine) (c c' : PNode) (vs : List PNode) (xs : List Str)
    (s s' u u' t : St) (m : Macro) (r : Res (List PNode)) (hc : UserCall ext c s vs u m) (hc' : UserCall ext c' s' vs u' m)
    (hp : NameParams m.params xs) (hn : NoNamed vs) (hl : vs.length = xs.length)
    (hs : ∀ x, allowed x = true → x ∉ xs → u'.scope x = u.scope x)
    (he : u'.log = pre ++ u.log ∧ u'.fresh = u.fresh ∧ u'.hashes = u.hashes ∧ u'.order = u.order)
    (h : LookEvals ext allowed m.body { u with scope := given xs vs u.scope } r t) :
    Evals ext [c] s r { t with scope := u.scope } ∧
    ∃ t', Evals ext [c'] s' r t' ∧ t'.log = pre ++ t.log ∧ t'.scope = u'.scope := by
  refine ⟨(C112_call_time ext c vs xs s u m r _ hc hp hn hl).2 ⟨t, look_evals h, rfl⟩, ?_⟩
  obtain ⟨t', h1, h2, _⟩ := look_frame (pre := pre) (t := { u' with scope := given xs vs u'.scope }) h
    ⟨fun x hx => given_agree xs vs _ _ x hl (hs x hx), he.1, he.2.1, he.2.2.1, he.2.2.2⟩
  exact ⟨_, (C112_call_time ext c' vs xs s' u' m r _ hc' hp hn hl).2 ⟨t', look_evals h1, rfl⟩, h2.log, rfl⟩

/-- C112: a macro that looks up only its parameters gives the same result wherever it is called with the same
values, whatever is defined there. -/
theorem C112_self_contained (ext : Ext) (pre : List LogLine) (c c' : PNode) (vs : List PNode) (xs : List Str)
    (s s' u u' t : St) (m : Macro) (r : Res (List PNode)) (hc : UserCall ext c s vs u m) (hc' : UserCall ext c' s' vs u' m)
    (hp : NameParams m.params xs) (hn : NoNamed vs) (hl : vs.length = xs.length)
    (he : u'.log = pre ++ u.log ∧ u'.fresh = u.fresh ∧ u'.hashes = u.hashes ∧ u'.order = u.order)
    (h : LookEvals ext (fun x => decide (x ∈ xs)) m.body { u with scope := given xs vs u.scope } r t) :
    Evals ext [c] s r { t with scope := u.scope } ∧
    ∃ t', Evals ext [c'] s' r t' ∧ t'.log = pre ++ t.log ∧ t'.scope = u'.scope :=
  C112_same_partial ext _ pre c c' vs xs s s' u u' t m r hc hc' hp hn hl
    (fun _ h1 h2 => absurd (of_decide_eq_true h1) h2) he h

/-- C112: the same for parameters of every kind except `&&`, whose names are then those of the scope `sc` that
results from the matching. -/
theorem C112_call_time_patterns (ext : Ext) (c : PNode) (vs : List PNode) (s u : St) (m : Macro) (sc : Scope) (r : Res (List PNode)) (t : St)
    (hc : UserCall ext c s vs u m) (hf : Fair s.order) (hk : NoKwRests m.params) (hm : MatchesList m.params vs u.scope sc) :
    Evals ext [c] s r t ↔ ∃ t', Evals ext m.body { u with scope := sc } r t' ∧ t = { t' with scope := u.scope } := by
  obtain ⟨name, args, k1, k2, k3, k4⟩ := hc
  rcases bindList_cases c m.params vs u (evals_fair k3 hf) with ⟨v, h1, h2, h3⟩ | ⟨e, v, _, h2, _⟩
  · have hv : v = { u with scope := sc } := by
      obtain ⟨g1, g2, g3⟩ := h3
      have g4 := C34_no_kwrest_params c m.params vs u v _ hk h1
      cases matchesList_unique hk hm h2
      cases u; cases v
      simp_all
    subst hv
    constructor
    · exact evals_user_ok_inv k1 k2 k3 k4 h1
    · rintro ⟨t', h, rfl⟩
      exact evals_user_ok k1 k2 k3 k4 h1 h
  · exact absurd hm (h2 sc)

/-- C112: a macro with parameters of every kind except `&&` that is called with the same values in two places
gives the same result, if the names that its body looks up, other than those of its parameters, mean the
same in both places. -/
theorem C112_same_patterns_partial (ext : Ext) (allowed : Str → Bool) (pre : List LogLine) (c c' : PNode) (vs : List PNode)
    (s s' u u' t : St) (m : Macro) (sc : Scope) (r : Res (List PNode)) (hc : UserCall ext c s vs u m) (hc' : UserCall ext c' s' vs u' m)
    (hf : Fair s.order) (hf' : Fair s'.order) (hk : NoKwRests m.params) (hm : MatchesList m.params vs u.scope sc)
    (hs : ∀ x, allowed x = true → ¬ ParamName x m.params → u'.scope x = u.scope x)
    (he : u'.log = pre ++ u.log ∧ u'.fresh = u.fresh ∧ u'.hashes = u.hashes ∧ u'.order = u.order)
    (h : LookEvals ext allowed m.body { u with scope := sc } r t) :
    Evals ext [c] s r { t with scope := u.scope } ∧
    ∃ t', Evals ext [c'] s' r t' ∧ t'.log = pre ++ t.log ∧ t'.scope = u'.scope := by
  refine ⟨(C112_call_time_patterns ext c vs s u m sc r _ hc hf hk hm).2 ⟨t, look_evals h, rfl⟩, ?_⟩
  obtain ⟨sc', hm'⟩ := matchesList_everywhere hm u'.scope
  obtain ⟨t', h1, h2, _⟩ := look_frame (pre := pre) (t := { u' with scope := sc' }) h
    ⟨fun x hx => by
      have := matchesList_steers hk hm hm' x
      by_cases hx' : ParamName x m.params
      · exact (this.1 hx').symm
      · exact (this.2 hx').2.trans ((hs x hx hx').trans (this.2 hx').1.symm), he.1, he.2.1, he.2.2.1, he.2.2.2⟩
  exact ⟨_, (C112_call_time_patterns ext c' vs s' u' m sc' r _ hc' hf' hk hm').2 ⟨t', look_evals h1, rfl⟩, h2.log, rfl⟩

/-- `(%define who world)`, `(%define (greet) (hello %who))` and `(%greet)`. -/
def exWho : PNode := exList [exSym (str! "%define"), exSym (str! "who"), exSym (str! "world")]
def exGreet : PNode := exList [exSym (str! "%define"), exList [exSym (str! "greet")], exList [exSym (str! "hello"), exSym (str! "%who")]]
def exGreetCall : PNode := exList [exSym (str! "%greet")]
/-- `(%define (via who) (%greet))` and `(%via moon)`. -/
def exVia : PNode := exList [exSym (str! "%define"), exList [exSym (str! "via"), exSym (str! "who")], exGreetCall]
def exViaCall : PNode := exList [exSym (str! "%via"), exSym (str! "moon")]

/-- C112 is false for a macro that looks up a name which is a parameter of its caller: the same call of
`greet`, where nothing but the parameter of another macro came in between, says hello to somebody else. -/
theorem C112_capture_false :
    (∃ t, Evals exExt [exWho, exGreet, exGreetCall] exSt (.ok [exList [exSym (str! "hello"), exSym (str! "world")]]) t) ∧
    ∃ t, Evals exExt [exWho, exGreet, exVia, exViaCall] exSt (.ok [exList [exSym (str! "hello"), exSym (str! "moon")]]) t := by
  constructor
  · obtain ⟨t, h, _⟩ := evals_ok_of (ext := exExt) (ns := [exWho, exGreet, exGreetCall])
      (out := [exList [exSym (str! "hello"), exSym (str! "world")]]) (s := exSt) 20 (fun _ => true) (by decide +kernel)
    exact ⟨t, h⟩
  · obtain ⟨t, h, _⟩ := evals_ok_of (ext := exExt) (ns := [exWho, exGreet, exVia, exViaCall])
      (out := [exList [exSym (str! "hello"), exSym (str! "moon")]]) (s := exSt) 20 (fun _ => true) (by decide +kernel)
    exact ⟨t, h⟩

/-- A macro with a free name `y`, `(%define (f a) (b %a %y))`, and one without, `(%define (f a) (b %a))`. -/
def exOpen : Macro := ⟨[exSym ['a']], [exList [exSym ['b'], exSym (str! "%a"), exSym (str! "%y")]]⟩
def exClosed : Macro := ⟨[exSym ['a']], [exList [exSym ['b'], exSym (str! "%a")]]⟩
/-- A place where `y` is `1`, and one where also `a` and `z` are something. -/
def exHere (m : Macro) : St := exWith ['y'] (exSym ['1']) { exSt with scope := exSt.scope.insert ['f'] m }
def exThere (m : Macro) : St := { exWith ['a'] (exSym ['2']) (exWith ['z'] (exSym ['3']) (exHere m)) with log := [⟨default, []⟩] }

theorem exOne_names : NameParams [exSym ['a']] [['a']] := .cons _ _ _ (fun _ => by simp) .nil
theorem exF_user (m : Macro) (s : St) (h : s.scope ['f'] = some m) : UserCall exExt (exCallF [exSym ['x']]) s [exSym ['x']] s m :=
  .mk ['f'] _ (.mk _ _ _ _ _ rfl rfl) rfl (plain_evals _ _ _ rfl) h

/-- The theorems on `(%f x)` in these places. -/
example (r : Res (List PNode)) (t : St) := C112_call_time exExt _ _ _ _ _ exOpen r t (exF_user exOpen (exHere exOpen) rfl) exOne_names (no_named _ rfl) rfl
example : ∃ out t, LookEvals exExt (fun x => x == ['a'] || x == ['y']) exOpen.body
    { exHere exOpen with scope := given [['a']] [exSym ['x']] (exHere exOpen).scope } (.ok out) t ∧ textNodes out = str! "(bx1)" := by
  obtain ⟨out, t, h1, h2⟩ := look_ok_of (ext := exExt) (A := fun x => x == ['a'] || x == ['y']) (ns := exOpen.body)
    (s := { exHere exOpen with scope := given [['a']] [exSym ['x']] (exHere exOpen).scope })
    20 (fun out _ => decide (textNodes out = str! "(bx1)")) (by decide +kernel)
  exact ⟨out, t, h1, of_decide_eq_true h2⟩
example (r : Res (List PNode)) (t : St) (h : LookEvals exExt (fun x => x == ['a'] || x == ['y']) exOpen.body
    { exHere exOpen with scope := given [['a']] [exSym ['x']] (exHere exOpen).scope } r t) :=
  C112_same_partial exExt _ [⟨default, []⟩] _ _ _ _ _ _ _ _ t exOpen r (exF_user exOpen (exHere exOpen) rfl)
    (exF_user exOpen (exThere exOpen) rfl) exOne_names (no_named _ rfl) rfl
    (fun x h1 h2 => by
      have : x = ['y'] := by simpa [show x ≠ ['a'] by simpa using h2] using h1
      subst this; rfl) ⟨rfl, rfl, rfl, rfl⟩ h
example : ∃ out t, LookEvals exExt (fun x => decide (x ∈ [['a']])) exClosed.body
    { exHere exClosed with scope := given [['a']] [exSym ['x']] (exHere exClosed).scope } (.ok out) t ∧ textNodes out = str! "(bx)" := by
  obtain ⟨out, t, h1, h2⟩ := look_ok_of (ext := exExt) (A := fun x => decide (x ∈ [['a']])) (ns := exClosed.body)
    (s := { exHere exClosed with scope := given [['a']] [exSym ['x']] (exHere exClosed).scope })
    20 (fun out _ => decide (textNodes out = str! "(bx)")) (by decide +kernel)
  exact ⟨out, t, h1, of_decide_eq_true h2⟩
example (s' : St) (r : Res (List PNode)) (t : St) (hf : s'.scope ['f'] = some exClosed) (pre : List LogLine)
    (he : s'.log = pre ++ [] ∧ s'.fresh = exSt.fresh ∧ s'.hashes = exSt.hashes ∧ s'.order = exSt.order)
    (h : LookEvals exExt (fun x => decide (x ∈ [['a']])) exClosed.body
      { exHere exClosed with scope := given [['a']] [exSym ['x']] (exHere exClosed).scope } r t) :=
  C112_self_contained exExt pre _ _ _ _ _ _ _ _ t exClosed r (exF_user exClosed (exHere exClosed) rfl) (exF_user exClosed s' hf)
    exOne_names (no_named _ rfl) rfl he h

/-- The macro `(%define (f (a b) :k z) (p %b %k))` looks up nothing but its parameters. -/
example (r : Res (List PNode)) (s t : St) (h : s.scope ['f'] = some exPairMacro) (hf : Fair s.order) :=
  C112_call_time_patterns exExt _ _ s s exPairMacro _ r t (exPair_user s h) hf exPair_noKw (exPair_matches _)
theorem exPair_params : ParamName ['b'] exPairMacro.params ∧ ParamName ['k'] exPairMacro.params :=
  ⟨.plain _ _ (.head _) (.list _ _ _ _ (.plain _ _ (.tail _ (.head _)) (.symbol _ rfl))), .named _ _ rfl⟩
example : ∃ out t, LookEvals exExt (fun x => x == ['b'] || x == ['k']) exPairMacro.body
    { exHere exPairMacro with scope := exPairScope (exHere exPairMacro).scope } (.ok out) t ∧ textNodes out = str! "(pyw)" := by
  obtain ⟨out, t, h1, h2⟩ := look_ok_of (ext := exExt) (A := fun x => x == ['b'] || x == ['k']) (ns := exPairMacro.body)
    (s := { exHere exPairMacro with scope := exPairScope (exHere exPairMacro).scope })
    20 (fun out _ => decide (textNodes out = str! "(pyw)")) (by decide +kernel)
  exact ⟨out, t, h1, of_decide_eq_true h2⟩
example (r : Res (List PNode)) (t : St) (h : LookEvals exExt (fun x => x == ['b'] || x == ['k']) exPairMacro.body
    { exHere exPairMacro with scope := exPairScope (exHere exPairMacro).scope } r t) :=
  C112_same_patterns_partial exExt _ [⟨default, []⟩] _ _ _ _ _ _ _ t exPairMacro _ r (exPair_user (exHere exPairMacro) rfl)
    (exPair_user (exThere exPairMacro) rfl) exSt_fair exSt_fair exPair_noKw (exPair_matches _)
    (fun x h1 h2 => by
      rcases (by simpa using h1 : x = ['b'] ∨ x = ['k']) with rfl | rfl
      · exact absurd exPair_params.1 h2
      · exact absurd exPair_params.2 h2) ⟨rfl, rfl, rfl, rfl⟩ h

end Seam
