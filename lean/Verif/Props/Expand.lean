import Verif.Lemmas.Cases
import Verif.Lemmas.Indep
import Verif.Lemmas.EvalCheck
import Verif.Lemmas.Macros
import Verif.Props.Markup

/-!
# Properties of expansion: plain documents, determinism, variables, attributes
(C33–C35, C42, C48)

`Evals ext ns s r t`: expanding the nodes `ns` in the state `s` finishes with outcome
`r` in the state `t`.  `IsCall name args c`: the node `c` is written `(%name args...)`.
-/

namespace Seam
open Spec

/-! ## C33 -/

/-- C33: nodes without macros expand to themselves and have no effect. -/
theorem C33_macro_free (ext : Ext) (ns : List PNode) (s : St) (h : MacrosFree ns) : Evals ext ns s (.ok ns) s :=
  macrosFree_evals ext ns h s

/-- C33: a document without macros expands to what was read. -/
theorem C33_document (ext : Ext) (order : Order) (path code : Str) (tree : List PNode)
    (hp : parse ext.unescape { path := path, id := 1, code := code } = .ok tree) (h : MacrosFree tree) :
    ∃ f, ∀ g, f ≤ g → expand ext order g path code = (.ok tree, St.init order) := by
  obtain ⟨f, hf⟩ := (macrosFree_evals ext tree h (St.init order)).ev
  refine ⟨f, fun g hg => ?_⟩
  unfold expand
  rw [hp]
  exact hf g hg

example : MacrosFree [exList [exSym (str! "p"), exAttr (str! "class") (exStr (str! "%x")), exStr (str! "hi")]] :=
  .cons _ _ (.list _ _ _ _ (.cons _ _ (.symbol _ (fun _ => by simp)) (.cons _ _ (.attr _ _ _ _ (.string _))
    (.cons _ _ (.string _) .nil)))) .nil

/-- The theorems on `(p :class "%x" "hi")` and on the document `(p a)`. -/
example (s : St) : Evals exExt [exList [exSym ['p'], exAttr (str! "class") (exStr (str! "%x")), exStr (str! "hi")]] s
    (.ok [exList [exSym ['p'], exAttr (str! "class") (exStr (str! "%x")), exStr (str! "hi")]]) s :=
  C33_macro_free exExt _ s (freeNodes_sound _ rfl)
example : ∃ tree, ∃ f, ∀ g, f ≤ g → expand exExt (fun _ l => l) g (str! "d.sex") (str! "(p a)") = (.ok tree, exSt) := by
  obtain ⟨tree, h, hf⟩ := Res.okP_elim (r := parse exExt.unescape { path := str! "d.sex", id := 1, code := str! "(p a)" })
    (p := freeNodes) (by decide +kernel)
  exact ⟨tree, C33_document exExt _ _ _ tree h (freeNodes_sound _ hf)⟩

/-! ## C34 -/

/-- C34: the outcome and the effects of an expansion that finishes are unique. -/
theorem C34_unique (ext : Ext) (ns : List PNode) (s t t' : St) (r r' : Res (List PNode))
    (h : Evals ext ns s r t) (h' : Evals ext ns s r' t') : r = r' ∧ t = t' := h.unique h'

/-- C34: however much work is allowed, a document that is expanded at all is expanded
to the same. -/
theorem C34_fuel (ext : Ext) (order : Order) (path code : Str) (f g : Nat) (r r' : Res (List PNode)) (t t' : St)
    (h : expand ext order f path code = (r, t)) (hr : r ≠ .diverge)
    (h' : expand ext order g path code = (r', t')) (hr' : r' ≠ .diverge) : r = r' ∧ t = t' := by
  unfold expand at h h'
  cases hp : parse ext.unescape { path := path, id := 1, code := code } with
  | ok tree =>
    rw [hp] at h h'
    exact expandNodes_unique ext tree _ h hr h' hr'
  | _ =>
    rw [hp] at h h'
    obtain ⟨rfl, rfl⟩ := Prod.mk.inj h
    obtain ⟨rfl, rfl⟩ := Prod.mk.inj h'
    exact ⟨rfl, rfl⟩

/-- C34: if no `&&` parameter was filled (`hashes` counts them), the order of hash
maps does not matter: with another order the expansion finishes with the same
result, or with the same error (possibly at another place), and with the same
effects. -/
theorem C34_hash_order (ext : Ext) (ns : List PNode) (s t : St) (r : Res (List PNode)) (order' : Order)
    (h : Evals ext ns s r t) (hf : Fair s.order) (hf' : Fair order') (hh : t.hashes = s.hashes) :
    ∃ r', Evals ext ns { s with order := order' } r' { t with order := order' } ∧
      (r = r' ∨ ∃ e e', r = .err e ∧ r' = .err e' ∧ e.stage = e'.stage ∧ e.msg = e'.msg) := by
  obtain ⟨r', h1, h2⟩ := evals_reorder h hf hf' hh
  refine ⟨r', h1, ?_⟩
  cases h2 with
  | same => exact Or.inl rfl
  | err e e' h3 h4 => exact Or.inr ⟨e, e', rfl, rfl, h3, h4⟩

/-- C34: only patterns with a `&&` symbol fill a `&&` parameter. -/
theorem C34_no_kwrest (p v : PNode) (s t : St) (r : Res Unit) (hp : NoKwRest p) (h : bind p v s = (r, t)) :
    t.hashes = s.hashes := by
  have := quiet_bind p hp v s
  rw [h] at this
  exact this

/-- C34: the same for the parameters of a macro. -/
theorem C34_no_kwrest_params (call : PNode) (ps vs : List PNode) (s t : St) (r : Res Unit) (hp : NoKwRests ps)
    (h : bindList call ps vs s = (r, t)) : t.hashes = s.hashes := by
  have := quiet_bindLoop ps hp call BindAcc.init rfl vs s
  rw [← bindList, h] at this
  exact this

/-- `(%define (f &&r) %r)(%f :a 1 :b 2)`. -/
def exKwDoc : List PNode := [
  exList [exSym (str! "%define"), exList [exSym (str! "f"), exSym (str! "&&r")], exSym (str! "%r")],
  exList [exSym (str! "%f"), exAttr ['a'] (exSym ['1']), exAttr ['b'] (exSym ['2'])]]

/-- With `&&` the order of hash maps is visible: the hypothesis of `C34_hash_order`
is needed. -/
theorem C34_kwrest_order_matters : ∃ o o' : Order, Fair o ∧ Fair o' ∧ ∃ r r' t t',
    Evals exExt exKwDoc (St.init o) (.ok r) t ∧ Evals exExt exKwDoc (St.init o') (.ok r') t' ∧
    r.map PNode.attribute? ≠ r'.map PNode.attribute? := by
  obtain ⟨t, h, _⟩ := evals_ok_of (ext := exExt) (ns := exKwDoc) (s := St.init fun _ l => l)
    (out := [exAttr ['a'] (exSym ['1']) [], exAttr ['b'] (exSym ['2'])]) 10 (fun _ => true) (by decide +kernel)
  obtain ⟨t', h', _⟩ := evals_ok_of (ext := exExt) (ns := exKwDoc) (s := St.init fun _ l => l.reverse)
    (out := [exAttr ['b'] (exSym ['2']) [], exAttr ['a'] (exSym ['1']) []]) 10 (fun _ => true) (by decide +kernel)
  refine ⟨_, _, fun _ l => List.Perm.refl l, fun _ l => List.reverse_perm l, _, _, t, t', h, h', ?_⟩
  simp [exAttr, exSym, PNode.attribute?]

/-- `(%define (f x) (p %x))(%f a)`. -/
def exUserDoc : List PNode := [
  exList [exSym (str! "%define"), exList [exSym ['f'], exSym ['x']], exList [exSym ['p'], exSym (str! "%x") [' ']]],
  exList [exSym (str! "%f"), exSym ['a'] [' ']]]

example : ∃ t, Evals exExt exUserDoc exSt (.ok [exList [exSym ['p'], exSym ['a'] [' ']]]) t ∧
    t.hashes = exSt.hashes := by
  obtain ⟨t, h, h'⟩ := evals_ok_of (ext := exExt) (ns := exUserDoc) (s := exSt)
    (out := [exList [exSym ['p'], exSym ['a'] [' ']]]) 10 (fun t => t.hashes == exSt.hashes) (by decide +kernel)
  exact ⟨t, h, by simpa using h'⟩

example : NoKwRest (exList [exSym ['x'], exSym (str! "&r"), exAttr ['k'] (exSym ['3'])]) :=
  .list _ _ _ _ (.cons _ _ (.symbol _ (fun _ => by simp)) (.cons _ _ (.symbol _ (fun _ => by simp))
    (.cons _ _ (.attr _ _ _ _ (.symbol _ (fun _ => by simp))) .nil)))

/-- The theorems on `exUserDoc`. -/
example (t : St) (r : Res (List PNode)) (order' : Order) (hf : Fair order') (h : Evals exExt exUserDoc exSt r t)
    (ht : t.hashes = exSt.hashes) := C34_hash_order exExt exUserDoc exSt t r order' h exSt_fair hf ht
example (v : PNode) (t : St) (r : Res Unit) (h : bind (exSym ['x']) v exSt = (r, t)) :=
  C34_no_kwrest (exSym ['x']) v exSt t r (.symbol _ (fun _ => by simp)) h

/-! ## C35 -/

/-- C35: `(%define x body...)` expands the body at once and makes `x` stand for the
result; it yields nothing and changes no other name. -/
theorem C35_define (ext : Ext) (c : PNode) (x : Node) (body ms : List PNode) (s t : St)
    (hc : IsCall (str! "define") (.symbol x :: body) c) (hb : Evals ext body s (.ok ms) t) :
    ∃ t', Evals ext [c] s (.ok []) t' ∧ t'.scope x.value = some { params := [], body := ms } ∧
      (∀ y, y ≠ x.value → t'.scope y = t.scope y) ∧ t'.log = t.log := by
  refine ⟨_, evals_define hc hb, ?_, ?_, rfl⟩
  · simp [Scope.insert, Macro.var]
  · intro y hy
    simp [Scope.insert, hy]

/-- C35: using `%x` expands the stored nodes; the first node gets the whitespace
before the use. -/
theorem C35_use (ext : Ext) (u : Node) (x : Str) (ms ns : List PNode) (s t : St) (hu : u.value = '%' :: x)
    (hx : s.scope x = some { params := [], body := ms }) (hm : Evals ext ms s (.ok ns) t) :
    Evals ext [.symbol u] s (.ok (firstSpaced u.lw ns)) t := evals_var hu hx hm

/-- C35: using a name that is not defined is an error. -/
theorem C35_undefined (ext : Ext) (u : Node) (x : Str) (s : St) (hu : u.value = '%' :: x) (hx : s.scope x = none) :
    ∃ e, Evals ext [.symbol u] s (.err e) s ∧ e.site = u.site := by
  refine ⟨expErr "No such macro." u.site, evals_node (by simp) (Ev.of fun f => ?_), rfl⟩
  simp only [expandNode, hu, macroName?, expandVariable]
  rw [M.bind_ok (M.lookup_def x s), hx]
  rfl

/-- C35: so is using the name of a macro that takes parameters; its body is not expanded. -/
theorem C35_not_variable (ext : Ext) (u : Node) (x : Str) (m : Macro) (s : St) (hu : u.value = '%' :: x)
    (hx : s.scope x = some m) (hm : m.params ≠ []) : ∃ e, Evals ext [.symbol u] s (.err e) s ∧ e.site = u.site := by
  refine ⟨expErr "This is a macro that takes arguments, and cannot be used as a variable." u.site,
    evals_node (by simp) (Ev.of fun f => ?_), rfl⟩
  simp only [expandNode, hu, macroName?, expandVariable]
  rw [M.bind_ok (M.lookup_def x s), hx]
  cases m with
  | mk ps body =>
    cases ps with
    | nil => exact (hm rfl).elim
    | cons p ps => rfl

/-- C35: in all: using a name is expanding its value and spacing the result, if it is defined
without parameters, and an error otherwise. -/
theorem C35_exactly (ext : Ext) (u : Node) (x : Str) (s t : St) (r : Res (List PNode)) (hu : u.value = '%' :: x) :
    Evals ext [.symbol u] s r t ↔
      (∃ ms r', s.scope x = some { params := [], body := ms } ∧ Evals ext ms s r' t ∧ r = spacedRes u.lw r') ∨
      ((∀ ms, s.scope x ≠ some { params := [], body := ms }) ∧ t = s ∧ ∃ e, r = .err e ∧ e.site = u.site ∧
        Evals ext [.symbol u] s (.err e) s) := by
  rcases hx : s.scope x with _ | ⟨ps, body⟩
  · obtain ⟨e, h1, h2⟩ := C35_undefined ext u x s hu hx
    constructor
    · intro h
      obtain ⟨rfl, rfl⟩ := h.unique h1
      exact .inr ⟨fun ms h => (by cases h), rfl, e, rfl, h2, h1⟩
    · rintro (⟨ms, r', h, _⟩ | ⟨_, rfl, e', rfl, _, h⟩)
      · cases h
      · exact h
  · cases ps with
    | cons p ps =>
      obtain ⟨e, h1, h2⟩ := C35_not_variable ext u x _ s hu hx (by simp)
      constructor
      · intro h
        obtain ⟨rfl, rfl⟩ := h.unique h1
        exact .inr ⟨fun ms h => (by cases h), rfl, e, rfl, h2, h1⟩
      · rintro (⟨ms, r', h, _⟩ | ⟨_, rfl, e', rfl, _, h⟩)
        · cases h
        · exact h
    | nil =>
      have key : ∀ f, expandNode (run ext f) (.symbol u) s =
          (spacedRes u.lw (expandNodes (run ext f) body s).1, (expandNodes (run ext f) body s).2) := by
        intro f
        simp only [expandNode, hu, macroName?, expandVariable]
        rw [M.bind_ok (M.lookup_def x s), hx]
        show M.bind (expandNodes (run ext f) body) (fun body => pure (withFirstLw u.lw body)) s = _
        unfold M.bind
        rcases expandNodes (run ext f) body s with ⟨r1, t1⟩
        cases r1 <;> first | rfl | (simp only [withFirstLw_eq]; rfl)
      constructor
      · rintro ⟨hr, f, hf⟩
        rw [expandNodes_one] at hf
        cases f with
        | zero => exact (hr (congrArg Prod.fst hf).symm).elim
        | succ f =>
          rw [show run ext (f + 1) (.node (.symbol u)) s = expandNode (run ext f) (.symbol u) s from rfl, key f] at hf
          obtain ⟨h1, h2⟩ := Prod.mk.inj hf
          refine .inl ⟨body, (expandNodes (run ext f) body s).1, rfl, ⟨?_, f, ?_⟩, h1.symm⟩
          · intro h
            rw [h] at h1
            exact hr h1.symm
          · rw [← h2]
      · rintro (⟨ms, r', h, ⟨hr, f, hf⟩, rfl⟩ | ⟨h, _⟩)
        · cases h
          refine ⟨by cases r' <;> simp_all [spacedRes], f + 1, ?_⟩
          rw [expandNodes_one, show run ext (f + 1) (.node (.symbol u)) s = expandNode (run ext f) (.symbol u) s from rfl,
            key f, hf]
        · exact (h body rfl).elim


/-- C35: if the value contains no macros, then after `(%define x body)` and as long as
`x` is not defined again, `%x` expands to the value. -/
theorem C35_variable_partial (ext : Ext) (c : PNode) (x u : Node) (body ms mid rs : List PNode) (s t t' t'' : St)
    (hc : IsCall (str! "define") (.symbol x :: body) c) (hb : Evals ext body s (.ok ms) t) (hms : MacrosFree ms)
    (hc' : Evals ext [c] s (.ok []) t') (hmid : Evals ext mid t' (.ok rs) t'')
    (hx : t''.scope x.value = t'.scope x.value) (hu : u.value = '%' :: x.value) :
    Evals ext (c :: mid ++ [.symbol u]) s (.ok (rs ++ firstSpaced u.lw ms)) t'' := by
  obtain ⟨t₁, h1, h2, _⟩ := C35_define ext c x body ms s t hc hb
  obtain ⟨_, rfl⟩ := hc'.unique h1
  have h3 : Evals ext (c :: mid) s (.ok ([] ++ rs)) t'' := hc'.cons hmid
  exact h3.append (C35_use ext u x.value ms ms t'' t'' hu (hx.trans h2) (macrosFree_evals ext ms hms t''))

/-- C35: a second definition replaces the first. -/
theorem C35_redefine (ext : Ext) (c c' : PNode) (x x' u : Node) (body body' ms ms' : List PNode) (s t t' : St)
    (hx : x'.value = x.value) (hc : IsCall (str! "define") (.symbol x :: body) c)
    (hc' : IsCall (str! "define") (.symbol x' :: body') c') (hb : Evals ext body s (.ok ms) t)
    (hb' : ∀ t₁, Evals ext [c] s (.ok []) t₁ → Evals ext body' t₁ (.ok ms') t') (hms : MacrosFree ms')
    (hu : u.value = '%' :: x.value) :
    ∃ t'', Evals ext [c, c', .symbol u] s (.ok (firstSpaced u.lw ms')) t'' := by
  obtain ⟨t₁, h1, _⟩ := C35_define ext c x body ms s t hc hb
  obtain ⟨t₂, h2, h3, _⟩ := C35_define ext c' x' body' ms' t₁ t' hc' (hb' t₁ h1)
  have h4 := C35_use ext u x.value ms' ms' t₂ t₂ hu (hx ▸ h3) (macrosFree_evals ext ms' hms t₂)
  exact ⟨t₂, h1.cons (h2.cons h4)⟩

/-- `(%define x (%symbol "%y"))` and `%x`. -/
def exReDef : PNode :=
  exList [exSym (str! "%define"), exSym ['x'], exList [exSym (str! "%symbol"), exStr (str! "%y")]]
def exReUse : Node := ⟨str! "%x", default, []⟩

/-- C35 is false in general: the value is expanded again at every use, so that a
value with a macro in it (here: the symbol `%y`) does not come out as it is. -/
theorem C35_variable_false : ∃ (c : PNode) (x u : Node) (body ms : List PNode) (t : St),
    IsCall (str! "define") (.symbol x :: body) c ∧ Evals exExt body exSt (.ok ms) t ∧ u.value = '%' :: x.value ∧
    ∃ e t', Evals exExt [c, .symbol u] exSt (.err e) t' := by
  obtain ⟨t, h, _⟩ := evals_ok_of (ext := exExt) (ns := [exList [exSym (str! "%symbol"), exStr (str! "%y")]]) (s := exSt)
    (out := [exSym (str! "%y")]) 10 (fun _ => true) (by decide +kernel)
  obtain ⟨e, t', h', _⟩ := evals_err_of (ext := exExt) (ns := [exReDef, .symbol exReUse]) (s := exSt) 10
    (fun e => e.msg == "No such macro.") (by decide +kernel)
  exact ⟨exReDef, ⟨['x'], default, []⟩, exReUse, _, _, t, .mk _ _ _ _ _ rfl rfl, h, rfl, e, t', h'⟩

/-- `(%define x (p a))`. -/
def exDefX : PNode := exList [exSym (str! "%define"), exSym ['x'] [' '], exList [exSym ['p'], exSym ['a'] [' ']]]

example : IsCall (str! "define") [exSym ['x'], exList [exSym ['p'], exSym ['a'] [' ']]] exDefX :=
  .mk _ _ _ _ _ rfl rfl
example : ∃ t, Evals exExt [exDefX, exSym (str! "%x") [' ']] exSt
    (.ok [exList [exSym ['p'], exSym ['a'] [' ']] [' ']]) t :=
  evals_ok_at 10 (by decide +kernel)

/-- The theorems on `exDefX` and `%x`, and on `%y`, which is not defined. -/
example (s : St) := C35_define exExt exDefX _ _ _ s s (.mk _ _ _ _ _ rfl rfl) (plain_evals _ [exList [exSym ['p'], exSym ['a'] [' ']]] _ rfl)
example : Evals exExt [exSym (str! "%x") [' ']] { exSt with scope := bound exSt.scope ['x'] [exSym ['a']] }
    (.ok [exSym ['a'] [' ']]) { exSt with scope := bound exSt.scope ['x'] [exSym ['a']] } :=
  C35_use exExt ⟨str! "%x", default, [' ']⟩ ['x'] _ _ _ _ rfl rfl (plain_evals _ [exSym ['a']] _ rfl)
example : ∃ e, Evals exExt [exSym (str! "%y")] exSt (.err e) exSt ∧ e.site = default :=
  C35_undefined exExt ⟨str! "%y", default, []⟩ ['y'] exSt rfl rfl
example := C35_not_variable exExt ⟨str! "%f", default, []⟩ ['f'] ⟨[exSym ['x']], []⟩
  { exSt with scope := fun x => if x = ['f'] then some ⟨[exSym ['x']], []⟩ else none } rfl rfl (by simp)
example (r : Res (List PNode)) (s t : St) := C35_exactly exExt ⟨str! "%x", default, [' ']⟩ ['x'] s t r rfl
example (s t' t'' : St) (h : Evals exExt [exDefX] s (.ok []) t')
    (hmid : Evals exExt [exStr (str! "hi")] t' (.ok [exStr (str! "hi")]) t'') (hx : t''.scope ['x'] = t'.scope ['x']) :=
  C35_variable_partial exExt exDefX ⟨['x'], default, []⟩ ⟨str! "%x", default, [' ']⟩ [exList [exSym ['p'], exSym ['a'] [' ']]]
    _ _ _ s s t' t'' (.mk _ _ _ _ _ rfl rfl) (plain_evals _ _ _ rfl) (freeNodes_sound _ rfl) h hmid hx rfl
example (s t' : St) (h : ∀ t₁, Evals exExt [exDefX] s (.ok []) t₁ → Evals exExt [exStr ['b']] t₁ (.ok [exStr ['b']]) t') :=
  C35_redefine exExt exDefX (exList [exSym (str! "%define"), exSym ['x'], exStr ['b']]) ⟨['x'], default, []⟩ ⟨['x'], default, []⟩
    ⟨str! "%x", default, [' ']⟩ [exList [exSym ['p'], exSym ['a'] [' ']]] _ _ _ s s t' rfl (.mk _ _ _ _ _ rfl rfl)
    (.mk _ _ _ _ _ rfl rfl) (plain_evals _ _ _ rfl) h (freeNodes_sound _ rfl) rfl

/-! ## C42 -/

/-- C42: if the name is defined, `%ifdef` is the expansion of the first branch
(with the whitespace before the call); the second one plays no role. -/
theorem C42_defined (ext : Ext) (c cond yes : PNode) (a : Node) (no : List PNode) (s t : St) (r : Res (List PNode))
    (hno : no.length ≤ 1) (hc : IsCall (str! "ifdef") (cond :: yes :: no) c) (ha : Literal cond a)
    (hd : (s.scope a.value).isSome) :
    Evals ext [c] s r t ↔ ∃ r0, Evals ext [yes] s r0 t ∧ r = spacedRes c.lw r0 := by
  refine evals_ifdef_node hc fun rec => ?_
  obtain ⟨m, hm⟩ := Option.isSome_iff_exists.1 hd
  rcases no with _ | ⟨no, _ | ⟨_, _⟩⟩
  · simp only [ifdefMacro, literal_atomic ha]
    rw [M.bind_ok (M.lookup_def a.value s), hm]
  · simp only [ifdefMacro, literal_atomic ha]
    rw [M.bind_ok (M.lookup_def a.value s), hm]
  · simp at hno

/-- C42: if it is not, `%ifdef` is the expansion of the second branch. -/
theorem C42_undefined (ext : Ext) (c cond yes no : PNode) (a : Node) (s t : St) (r : Res (List PNode))
    (hc : IsCall (str! "ifdef") [cond, yes, no] c) (ha : Literal cond a) (hd : s.scope a.value = none) :
    Evals ext [c] s r t ↔ ∃ r0, Evals ext [no] s r0 t ∧ r = spacedRes c.lw r0 := by
  refine evals_ifdef_node hc fun rec => ?_
  simp only [ifdefMacro, literal_atomic ha]
  rw [M.bind_ok (M.lookup_def a.value s), hd]

/-- C42: without a second branch it is nothing then. -/
theorem C42_undefined_nothing (ext : Ext) (c cond yes : PNode) (a : Node) (s t : St) (r : Res (List PNode))
    (hc : IsCall (str! "ifdef") [cond, yes] c) (ha : Literal cond a) (hd : s.scope a.value = none) :
    Evals ext [c] s r t ↔ r = .ok [] ∧ t = s := by
  refine evals_const hc (b := .ifdef) rfl (by simp) fun rec => ?_
  simp only [runBuiltin, ifdefMacro, literal_atomic ha]
  rw [M.bind_ok (M.lookup_def a.value s), hd]
  rfl

/-- `(%ifdef x yes %undefined)`. -/
def exIfdef : PNode := exList [exSym (str! "%ifdef"), exSym ['x'], exSym (str! "yes"), exSym (str! "%undefined")]

example : IsCall (str! "ifdef") [exSym ['x'], exSym (str! "yes"), exSym (str! "%undefined")] exIfdef :=
  .mk _ _ _ _ _ rfl rfl
example : ∃ t, Evals exExt [exDefX, exIfdef] exSt (.ok [exSym (str! "yes")]) t :=
  evals_ok_at 10 (by decide +kernel)

/-- The theorems on `exIfdef` where `x` is defined, where it is not, and without the second branch. -/
example (r : Res (List PNode)) (t : St) := C42_defined exExt exIfdef (exSym ['x']) (exSym (str! "yes")) _ [exSym (str! "%undefined")]
  { exSt with scope := bound exSt.scope ['x'] [exSym ['a']] } t r (by simp) (.mk _ _ _ _ _ rfl rfl) (.symbol _) rfl
example (r : Res (List PNode)) (t : St) := C42_undefined exExt exIfdef (exSym ['x']) (exSym (str! "yes")) (exSym (str! "%undefined")) _
  exSt t r (.mk _ _ _ _ _ rfl rfl) (.symbol _) rfl
example (r : Res (List PNode)) (t : St) := C42_undefined_nothing exExt (exList [exSym (str! "%ifdef"), exSym ['x'], exSym (str! "yes")])
  (exSym ['x']) (exSym (str! "yes")) _ exSt t r (.mk _ _ _ _ _ rfl rfl) (.symbol _) rfl

/-! ## C48 -/

/-- C48: an attribute whose value expands to at least one node becomes an attribute
(nodes after the first follow it); errors go through; it panics exactly if the value
does or if it expands to nothing. -/
theorem C48_attribute_partial (ext : Ext) (k : Str) (v : PNode) (si : Site) (w : Str) (s t : St) (r : Res (List PNode)) :
    Evals ext [.attr k v si w] s r t ↔ ∃ r0, Evals ext [v] s r0 t ∧
      r = match r0 with
        | .ok [] => .panic
        | .ok (v' :: rest) => .ok (.attr k v' si w :: rest)
        | .err e => .err e
        | .panic => .panic
        | .diverge => .diverge := by
  have h := evals_plain (ext := ext) (n := .attr k v si w) (ns := [v]) (s := s) (t := t) (r := r)
    (g := fun ns => match ns with | [] => .panic | v' :: rest => .ok (.attr k v' si w :: rest))
    (by intro as; split <;> simp) (by
      intro rec
      simp only [expandNode, expandNodes_one]
      congr 1
      funext ns
      cases ns <;> rfl)
  rw [h]
  constructor
  · rintro ⟨r0, h1, rfl⟩
    refine ⟨r0, h1, ?_⟩
    cases r0 with
    | ok ns => cases ns <;> rfl
    | _ => rfl
  · rintro ⟨r0, h1, rfl⟩
    refine ⟨r0, h1, ?_⟩
    cases r0 with
    | ok ns => cases ns <;> rfl
    | _ => rfl

/-- C48 is false: `(p :a (%do))` panics. -/
theorem C48_attribute_false : ∃ (k : Str) (v : PNode) (si : Site) (w : Str) (t t' : St),
    Evals exExt [v] exSt (.ok []) t ∧ Evals exExt [.attr k v si w] exSt .panic t' := by
  obtain ⟨t, h, _⟩ := evals_ok_of (ext := exExt) (ns := [exList [exSym (str! "%do")]]) (s := exSt)
    (out := []) 10 (fun _ => true) (by decide +kernel)
  obtain ⟨t', h'⟩ := evals_panic_of (ext := exExt) (ns := [exAttr ['a'] (exList [exSym (str! "%do")])]) (s := exSt) 10
    (by decide +kernel)
  exact ⟨_, _, _, _, t, t', h, h'⟩

/-- `:a %x`. -/
example : ∃ t, Evals exExt [exDefX, exAttr ['a'] (exSym (str! "%x"))] exSt
    (.ok [exAttr ['a'] (exList [exSym ['p'], exSym ['a'] [' ']])]) t :=
  evals_ok_at 10 (by decide +kernel)

/-- The theorem on `:a hi`. -/
example (s : St) : Evals exExt [exAttr ['a'] (exStr (str! "hi"))] s (.ok [exAttr ['a'] (exStr (str! "hi"))]) s :=
  (C48_attribute_partial exExt ['a'] (exStr (str! "hi")) default [' '] s s _).2 ⟨_, plain_evals _ _ _ rfl, rfl⟩

end Seam
