import Verif.Lemmas.Cases
import Verif.Lemmas.Scope
import Verif.Lemmas.Matched
import Verif.Lemmas.EvalCheck
import Verif.Props.Expand

/-!
# Properties of scopes and of `%match`, `%for`, `%namespace` (C36, C37, C41, C43, C49)

The relations `Chooses` and `Loops` (Spec/Control) say what `%match` and `%for` do with
their clauses and items.
-/

namespace Seam
open Spec

/-! ## C37 -/

/-- C37: a name that is defined stays defined, whatever is expanded and however that
ends. -/
theorem C37_stays_defined (ext : Ext) (ns : List PNode) (s t : St) (r : Res (List PNode)) (x : Str)
    (h : Evals ext ns s r t) (hx : ∃ m, s.scope x = some m) : ∃ m, t.scope x = some m :=
  Option.isSome_iff_exists.1 (evals_keeps staysDefined_rel h x (Option.isSome_iff_exists.2 hx))

/-- C37, for a document in two parts: what the first part defines is defined after the
second. -/
theorem C37_later (ext : Ext) (ns ms as : List PNode) (s t u : St) (r : Res (List PNode)) (x : Str)
    (h : Evals ext ns s (.ok as) t) (hx : ∃ m, t.scope x = some m) (h' : Evals ext (ns ++ ms) s r u) :
    ∃ m, u.scope x = some m := by
  rcases h'.append_inv with ⟨as', t', r', h1, h2, _⟩ | ⟨h1, h2⟩
  · obtain ⟨_, rfl⟩ := h.unique h1
    exact C37_stays_defined ext ms t u r' x h2 hx
  · exact absurd (h.unique h1).1.symm (h2 _)

/-- C37: likewise what was printed stays printed. -/
theorem C37_log (ext : Ext) (ns : List PNode) (s t : St) (r : Res (List PNode)) (h : Evals ext ns s r t) :
    ∃ more, t.log = s.log ++ more := by
  obtain ⟨m, hm⟩ := (evals_keeps advances_rel h).1
  exact ⟨m, hm.symm⟩

example : ∃ t, Evals exExt [exDefX, exIfdef] exSt (.ok [exSym (str! "yes")]) t ∧ (t.scope ['x']).isSome = true :=
  evals_ok_of 10 (fun t => (t.scope ['x']).isSome) (by decide +kernel)

/-- The theorems on `(%define x (p a))` and then `(%ifdef x yes %undefined)`. -/
example (t u : St) (r : Res (List PNode)) (h : Evals exExt [exDefX] exSt (.ok []) t) (hx : ∃ m, t.scope ['x'] = some m)
    (h' : Evals exExt ([exDefX] ++ [exIfdef]) exSt r u) := C37_later exExt _ _ _ exSt t u r ['x'] h hx h'
example : ∃ t, Evals exExt [exDefX] exSt (.ok []) t ∧ (t.scope ['x']).isSome = true :=
  evals_ok_of 10 (fun t => (t.scope ['x']).isSome) (by decide +kernel)

/-! ## C41 -/

/-- C41: in every state a value either matches a pattern, and then the names are bound and
nothing else happens, or it does not, and then nothing happens at all. -/
theorem C41_binds_or_rejects (p v : PNode) (s : St) (hf : Fair s.order) :
    (∃ t, Binds p v s t ∧ Matches p v s.scope t.scope ∧ SameEffects s t) ∨
    (∃ t, Rejects p v s t ∧ (∀ sc, ¬ Matches p v s.scope sc) ∧ t.scope = s.scope ∧ SameEffects s t) :=
  binds_or_rejects p v s hf

/-- C41: whether a value matches a pattern does not depend on what is defined. -/
theorem C41_everywhere (p v : PNode) (s s' t : St) (hf : Fair s.order) (hf' : Fair s'.order) (h : Binds p v s t) : ∃ t', Binds p v s' t' := by
  rcases binds_or_rejects p v s hf with ⟨u, _, h2, _⟩ | ⟨u, h1, _⟩
  · rcases binds_or_rejects p v s' hf' with ⟨u', h3, _⟩ | ⟨u', _, h4, _⟩
    · exact ⟨u', h3⟩
    · obtain ⟨sc, h5⟩ := matches_everywhere h2 s'.scope
      exact absurd h5 (h4 sc)
  · obtain ⟨e, _, h1, _⟩ := h1
    cases (Prod.mk.inj (h.symm.trans h1)).1

/-- C41: and the names in a pattern without `&&` then stand for the same, whatever they stood for before; every
other name keeps its meaning. -/
theorem C41_names (p v : PNode) (s s' t t' : St) (hf : Fair s.order) (hf' : Fair s'.order) (hk : NoKwRest p)
    (h : Binds p v s t) (h' : Binds p v s' t') :
    (∀ x, Binder x p → t.scope x = t'.scope x) ∧ ∀ x, ¬ Binder x p → t.scope x = s.scope x := by
  have key : ∀ {s t}, Fair s.order → Binds p v s t → Matches p v s.scope t.scope := by
    intro s t hf h
    rcases binds_or_rejects p v s hf with ⟨u, h1, h2, _⟩ | ⟨u, h1, _⟩
    · cases (Prod.mk.inj (h.symm.trans h1)).2
      exact h2
    · obtain ⟨e, _, h1, _⟩ := h1
      cases (Prod.mk.inj (h.symm.trans h1)).1
  have := matches_steers (key hf h) hk _ _ (key hf' h')
  exact ⟨fun x => (this x).1, fun x hx => ((this x).2 hx).1⟩

/-- C41: what `%match` does. -/
theorem C41_exact (ext : Ext) (c x : PNode) (ps : List PNode) (s t : St) (r : Res (List PNode))
    (hc : IsCall (str! "match") (x :: ps) c) (hf : Fair s.order) :
    Evals ext [c] s r t ↔
      -- the value is expanded; it must be one node, with which the clauses are tried in order
      (∃ e u, Evals ext [x] s (.ok [e]) u ∧ Chooses ext e ps u r t) ∨
      (∃ es, Evals ext [x] s (.ok es) t ∧ es.length ≠ 1 ∧ r = .err ⟨.expand, "Value to match against must be single value.", x.site⟩) ∨
      (Evals ext [x] s r t ∧ ∀ a, r ≠ .ok a) := by
  rw [evals_match hc]
  constructor
  · rintro ⟨q, u, h1, h2⟩
    cases q with
    | ok es =>
      by_cases hl : es.length = 1
      · obtain ⟨e, rfl⟩ := List.length_eq_one_iff.1 hl
        exact Or.inl ⟨e, u, h1, (chooses_iff (evals_fair h1 hf)).1 h2⟩
      · have : matchValue x ps es = fun _ => M.fail "Value to match against must be single value." x.site := by
          funext rec
          unfold matchValue
          split
          · simp at hl
          · rfl
        rw [then_ok, this, runs_fail] at h2
        obtain ⟨rfl, rfl⟩ := h2
        exact Or.inr (Or.inl ⟨es, h1, hl, rfl⟩)
    | err er => obtain ⟨rfl, rfl⟩ := h2; exact Or.inr (Or.inr ⟨h1, by simp⟩)
    | panic => obtain ⟨rfl, rfl⟩ := h2; exact Or.inr (Or.inr ⟨h1, by simp⟩)
    | diverge => exact h2.elim
  · rintro (⟨e, u, h1, h2⟩ | ⟨es, h1, h2, rfl⟩ | ⟨h1, h2⟩)
    · exact ⟨_, _, h1, (chooses_iff (evals_fair h1 hf)).2 h2⟩
    · refine ⟨_, _, h1, ?_⟩
      have : matchValue x ps es = fun _ => M.fail "Value to match against must be single value." x.site := by
        funext rec
        unfold matchValue
        split
        · simp at h2
        · rfl
      rw [then_ok, this, runs_fail]
      exact ⟨rfl, rfl⟩
    · refine ⟨_, _, h1, ?_⟩
      cases r with
      | ok a => exact absurd rfl (h2 a)
      | err er => exact ⟨rfl, rfl⟩
      | panic => exact ⟨rfl, rfl⟩
      | diverge => exact absurd rfl h1.1

/-- C41: the first clause whose pattern matches is taken: its body is expanded with the
names bound, and the bindings are gone afterwards.  The clauses after it play no role. -/
theorem C41_first (ext : Ext) (c x e p : PNode) (before body later : List PNode) (si : Site) (en : Token) (w : Str)
    (s u : St) (sc : Scope)
    (hc : IsCall (str! "match") (x :: (before ++ .list (p :: body) si en w :: later)) c) (hf : Fair s.order)
    (hx : Evals ext [x] s (.ok [e]) u)
    (hb : ∀ cl ∈ before, ∃ q b si' en' w', cl = .list (q :: b) si' en' w' ∧ MacroFree q ∧ ∀ sc', ¬ Matches q e u.scope sc')
    (hp : MacroFree p) (hm : Matches p e u.scope sc) :
    ∃ v, Matches p e u.scope v.scope ∧ SameEffects u v ∧ ∀ r t, Evals ext [c] s r t ↔
      ∃ t', Evals ext body v r t' ∧ t = { t' with scope := u.scope } := by
  obtain ⟨u', h1, h2, h3⟩ := chooses_skip (ext := ext) before (.list (p :: body) si en w :: later) u (evals_fair hx hf) hb
  have hf' : Fair u'.order := by rw [h2.2.2]; exact evals_fair hx hf
  rcases binds_or_rejects p e u' hf' with ⟨v, h4, h5, h6⟩ | ⟨v, _, h5, _⟩
  · refine ⟨v, h1 ▸ h5, ⟨h6.1.trans h2.1, h6.2.1.trans h2.2.1, h6.2.2.trans h2.2.2⟩, fun r t => ?_⟩
    have hsel : Evals ext [c] s r t ↔ Chooses ext e (.list (p :: body) si en w :: later) u' r t := by
      rw [← h3, C41_exact ext c x _ s t r hc hf]
      constructor
      · rintro (⟨e', u₁, g1, g2⟩ | ⟨es, g1, g2, _⟩ | ⟨g1, g2⟩)
        · obtain ⟨g3, rfl⟩ := hx.unique g1
          cases g3
          exact g2
        · obtain ⟨g3, _⟩ := hx.unique g1
          cases g3
          simp at g2
        · exact absurd (hx.unique g1).1.symm (g2 _)
      · intro g
        exact Or.inl ⟨e, u, hx, g⟩
    rw [hsel, chooses_hit_iff hf' hp h4, h1]
  · exact absurd (h1 ▸ hm) (h5 sc)

/-- C41: if no pattern matches, the result is nothing and nothing has happened. -/
theorem C41_none (ext : Ext) (c x e : PNode) (ps : List PNode) (s u : St)
    (hc : IsCall (str! "match") (x :: ps) c) (hf : Fair s.order) (hx : Evals ext [x] s (.ok [e]) u)
    (hb : ∀ cl ∈ ps, ∃ q b si' en' w', cl = .list (q :: b) si' en' w' ∧ MacroFree q ∧ ∀ sc', ¬ Matches q e u.scope sc') :
    ∃ t, Evals ext [c] s (.ok []) t ∧ t.scope = u.scope ∧ SameEffects u t := by
  obtain ⟨u', h1, h2, h3⟩ := chooses_skip (ext := ext) ps [] u (evals_fair hx hf) hb
  rw [List.append_nil] at h3
  exact ⟨u', (C41_exact ext c x ps s u' _ hc hf).2 (Or.inl ⟨e, u, hx, (h3 _ _).2 (.none _)⟩), h1, h2⟩

/-- `(%match 1 (2 two) (x (n %x)) (y %never))`. -/
def exMatch : PNode := exList [exSym (str! "%match"), exNum ['1'], exList [exNum ['2'], exSym (str! "two")],
  exList [exSym ['x'], exList [exSym ['n'], exSym (str! "%x") [' ']]], exList [exSym ['y'], exSym (str! "%never")]]

example : IsCall (str! "match") (exNum ['1'] :: ([exList [exNum ['2'], exSym (str! "two")]] ++
    exList [exSym ['x'], exList [exSym ['n'], exSym (str! "%x") [' ']]] ::
      [exList [exSym ['y'], exSym (str! "%never")]])) exMatch := .mk _ _ _ _ _ rfl rfl
example (sc sc' : Scope) : ¬ Matches (exNum ['2']) (exNum ['1']) sc sc' := by
  intro h
  cases h with
  | number _ _ _ h => simp at h
  | string _ _ _ _ _ h => simp [exNum] at h
example (sc : Scope) : ∃ sc', Matches (exSym ['x']) (exNum ['1']) sc sc' := ⟨_, .symbol _ _ _⟩
example : ∃ t, Evals exExt [exMatch] exSt (.ok [exList [exSym ['n'], exNum ['1'] [' ']]]) t ∧
    (t.scope ['x']).isNone = true := evals_ok_of 10 (fun t => (t.scope ['x']).isNone) (by decide +kernel)

/-- The pattern `(a b)` and the value `(1 2)`, in a state where nothing and one where `a` is defined. -/
def exTwoPat : PNode := exList [exSym ['a'], exSym ['b']]
def exTwoVal : PNode := exList [exNum ['1'], exNum ['2']]
example : ∃ t, Binds exTwoPat exTwoVal exSt t := ⟨_, rfl⟩
example (t : St) (h : Binds exTwoPat exTwoVal exSt t) :=
  C41_everywhere _ _ exSt { exSt with scope := exSt.scope.insert ['a'] ⟨[], []⟩ } t exSt_fair exSt_fair h
example (t t' : St) (h : Binds exTwoPat exTwoVal exSt t)
    (h' : Binds exTwoPat exTwoVal { exSt with scope := exSt.scope.insert ['a'] ⟨[], []⟩ } t') : t.scope ['a'] = t'.scope ['a'] :=
  (C41_names _ _ exSt { exSt with scope := exSt.scope.insert ['a'] ⟨[], []⟩ } t t' exSt_fair exSt_fair
    (.list _ _ _ _ (.cons _ _ (.symbol _ (fun _ => by simp)) (.cons _ _ (.symbol _ (fun _ => by simp)) .nil))) h h').1 _
    (.list _ _ _ _ (.plain _ _ (.head _) (.symbol _ rfl)))

/-- The theorems on `exMatch`, and on `(%match 1 (2 two))`. -/
example := C41_binds_or_rejects (exNum ['2']) (exNum ['1']) exSt exSt_fair
example (r : Res (List PNode)) (t : St) := C41_exact exExt exMatch _ _ exSt t r (.mk _ _ _ _ _ rfl rfl) exSt_fair
example := C41_first exExt exMatch (exNum ['1']) (exNum ['1']) (exSym ['x']) [exList [exNum ['2'], exSym (str! "two")]]
  [exList [exSym ['n'], exSym (str! "%x") [' ']]] [exList [exSym ['y'], exSym (str! "%never")]] default default [] exSt exSt _
  (.mk _ _ _ _ _ rfl rfl) exSt_fair (plain_evals _ _ _ rfl)
  (by
    intro cl hcl
    simp at hcl
    refine ⟨_, _, _, _, _, hcl, .number _, ?_⟩
    intro sc' h
    cases h with
    | number _ _ _ h => simp at h
    | string _ _ _ _ _ h => simp [exNum] at h)
  (.symbol _ (fun _ => by simp)) (.symbol _ _ _)
example := C41_none exExt (exList [exSym (str! "%match"), exNum ['1'], exList [exNum ['2'], exSym (str! "two")]])
  (exNum ['1']) (exNum ['1']) [exList [exNum ['2'], exSym (str! "two")]] exSt exSt
  (.mk _ _ _ _ _ rfl rfl) exSt_fair (plain_evals _ _ _ rfl)
  (by
    intro cl hcl
    simp at hcl
    refine ⟨_, _, _, _, _, hcl, .number _, ?_⟩
    intro sc' h
    cases h with
    | number _ _ _ h => simp at h
    | string _ _ _ _ _ h => simp [exNum] at h)

/-! ## C43 -/

/-- C43: `(%for it in (xs...) body...)` expands the items and then, in a copy of the
scope, the body once per item. -/
theorem C43_exact (ext : Ext) (c it : PNode) (b : Node) (args xs rest : List PNode) (si : Site) (e : Token) (w : Str)
    (s t : St) (r : Res (List PNode)) (hc : IsCall (str! "for") args c) (hf : Fair s.order)
    (hp : positional args = it :: .symbol b :: .list xs si e w :: rest) (hb : b.value = str! "in") :
    Evals ext [c] s r t ↔
      (∃ ys u t', Evals ext xs s (.ok ys) u ∧ Loops ext it (dropPositional 3 args) ys u r t' ∧
        t = { t' with scope := u.scope }) ∨
      (Evals ext xs s r t ∧ ∀ a, r ≠ .ok a) := by
  rw [evals_for hc hp hb]
  constructor
  · rintro ⟨q, u, h1, h2⟩
    cases q with
    | ok ys =>
      rw [then_ok, runs_inner] at h2
      obtain ⟨t', h2, rfl⟩ := h2
      exact Or.inl ⟨ys, u, t', h1, (loops_iff (evals_fair h1 hf)).1 h2, rfl⟩
    | err er => obtain ⟨rfl, rfl⟩ := h2; exact Or.inr ⟨h1, by simp⟩
    | panic => obtain ⟨rfl, rfl⟩ := h2; exact Or.inr ⟨h1, by simp⟩
    | diverge => exact h2.elim
  · rintro (⟨ys, u, t', h1, h2, rfl⟩ | ⟨h1, h2⟩)
    · refine ⟨_, _, h1, ?_⟩
      rw [then_ok, runs_inner]
      exact ⟨t', (loops_iff (evals_fair h1 hf)).2 h2, rfl⟩
    · refine ⟨_, _, h1, ?_⟩
      cases r with
      | ok a => exact absurd rfl (h2 a)
      | err er => exact ⟨rfl, rfl⟩
      | panic => exact ⟨rfl, rfl⟩
      | diverge => exact absurd rfl h1.1

/-- C43: the result is the concatenation, in order, of one expansion of the body per item,
each with the pattern bound to that item. -/
theorem C43_concatenation (ext : Ext) (c it : PNode) (b : Node) (args xs rest out : List PNode) (si : Site) (e : Token)
    (w : Str) (s t : St) (hc : IsCall (str! "for") args c) (hf : Fair s.order)
    (hp : positional args = it :: .symbol b :: .list xs si e w :: rest) (hb : b.value = str! "in")
    (h : Evals ext [c] s (.ok out) t) :
    ∃ ys u chunks, Evals ext xs s (.ok ys) u ∧ out = chunks.flatten ∧
      Pairs (fun y chunk => ∃ s₁ s₂ s₃ : St, Matches it y s₁.scope s₂.scope ∧
        Evals ext (dropPositional 3 args) s₂ (.ok chunk) s₃) ys chunks := by
  rcases (C43_exact ext c it b args xs rest si e w s t _ hc hf hp hb).1 h with ⟨ys, u, t', h1, h2, _⟩ | ⟨_, h2⟩
  · obtain ⟨chunks, h3, h4⟩ := loops_chunks (evals_fair h1 hf) h2
    exact ⟨ys, u, chunks, h1, h3, h4⟩
  · exact absurd rfl (h2 out)

/-- C43: anything not written in this form is an error, before anything is expanded. -/
theorem C43_syntax (ext : Ext) (c : PNode) (args : List PNode) (s : St) (hc : IsCall (str! "for") args c)
    (h : ¬ ∃ it b xs si e w rest, positional args = it :: .symbol b :: .list xs si e w :: rest ∧ b.value = str! "in") :
    ∃ e, Evals ext [c] s (.err e) s := evals_for_syntax hc h s

/-- `(%for x in (a b) (li %x))`. -/
def exFor : PNode := exList [exSym (str! "%for"), exSym ['x'], exSym (str! "in"), exList [exSym ['a'], exSym ['b']],
  exList [exSym (str! "li"), exSym (str! "%x") [' ']]]

example : IsCall (str! "for") [exSym ['x'], exSym (str! "in"), exList [exSym ['a'], exSym ['b']],
    exList [exSym (str! "li"), exSym (str! "%x") [' ']]] exFor := .mk _ _ _ _ _ rfl rfl
example : ∃ t, Evals exExt [exFor] exSt (.ok [exList [exSym (str! "li"), exSym ['a'] [' ']],
    exList [exSym (str! "li"), exSym ['b'] [' ']]]) t ∧ (t.scope ['x']).isNone = true :=
  evals_ok_of 10 (fun t => (t.scope ['x']).isNone) (by decide +kernel)

/-- The theorems on `exFor`, and on `(%for x (a))`. -/
example (r : Res (List PNode)) (t : St) := C43_exact exExt exFor (exSym ['x']) _ _ [exSym ['a'], exSym ['b']] _ _ _ _ exSt t r
  (.mk _ _ _ _ _ rfl rfl) exSt_fair rfl rfl
example (out : List PNode) (t : St) (h : Evals exExt [exFor] exSt (.ok out) t) :=
  C43_concatenation exExt exFor (exSym ['x']) _ _ [exSym ['a'], exSym ['b']] _ out _ _ _ exSt t
    (.mk _ _ _ _ _ rfl rfl) exSt_fair rfl rfl h
example := C43_syntax exExt (exList [exSym (str! "%for"), exSym ['x'], exList [exSym ['a']]]) _ exSt (.mk _ _ _ _ _ rfl rfl)
  (by
    rintro ⟨it, b, xs, si, e, w, rest, h, hb⟩
    exact absurd (congrArg List.length h) (by simp [positional, exList, exSym, dropFirstBlank, PNode.setLw, PNode.lw]))

/-! ## C36 -/

/-- C36: after a call of a user macro the scope is the one after the arguments were
expanded. -/
theorem C36_user (ext : Ext) (name : Str) (c : PNode) (args : List PNode) (s t : St) (r : Res (List PNode))
    (hc : IsCall name args c) (hb : builtin? name = none) (h : Evals ext [c] s r t) :
    ∃ q u, Evals ext args s q u ∧ t.scope = u.scope := by
  rw [evals_user_iff hc hb] at h
  obtain ⟨q, u, h1, h2⟩ := user_scope h
  exact ⟨q, u, h1, h2⟩

/-- C36: after `%match` on a value and patterns without macros the scope is as before. -/
theorem C36_match (ext : Ext) (c x : PNode) (ps : List PNode) (s t : St) (r : Res (List PNode))
    (hc : IsCall (str! "match") (x :: ps) c) (hf : Fair s.order) (hx : MacroFree x)
    (hp : ∀ p body si en w, .list (p :: body) si en w ∈ ps → MacroFree p) (h : Evals ext [c] s r t) :
    t.scope = s.scope := by
  have hx' := macroFree_evals ext x hx s
  rcases (C41_exact ext c x ps s t r hc hf).1 h with ⟨e, u, h1, h2⟩ | ⟨es, h1, _⟩ | ⟨h1, _⟩
  · obtain ⟨_, rfl⟩ := hx'.unique h1
    exact chooses_scope h2 hf hp
  · rw [(hx'.unique h1).2]
  · rw [(hx'.unique h1).2]

/-- C36: in general, after `%match` the scope is the one after the value and one of the
patterns (the last one that was tried) were expanded: nothing of a body remains. -/
theorem C36_match_body (ext : Ext) (e p : PNode) (body ps : List PNode) (si : Site) (en : Token) (w : Str) (s u v t : St)
    (p' : PNode) (r : Res (List PNode)) (hf : Fair s.order) (hp : Evals ext [p] s (.ok [p']) u) (hb : Binds p' e u v)
    (h : Chooses ext e (.list (p :: body) si en w :: ps) s r t) : t.scope = u.scope := by
  cases h with
  | hit _ q _ _ _ _ _ _ u' v' _ _ h1 h2 h3 =>
    obtain ⟨_, rfl⟩ := hp.unique h1
    rfl
  | miss _ q _ _ _ _ _ _ u' v' _ _ h1 h2 h3 =>
    obtain ⟨h4, rfl⟩ := hp.unique h1
    cases h4
    exact absurd (binds_matches (evals_fair hp hf) hb).1 ((rejects_matches (evals_fair hp hf) h2).1 _)
  | notOne _ qs _ _ _ _ _ _ _ _ h1 h2 =>
    obtain ⟨h4, _⟩ := hp.unique h1
    cases h4
    simp at h2
  | failed _ _ _ _ _ _ _ _ _ h1 h2 => exact absurd (hp.unique h1).1.symm (h2 _)
  | notList _ _ _ _ h => simp [PNode.list?] at h

/-- C36: after `%for` the scope is the one after the list of items was expanded. -/
theorem C36_for (ext : Ext) (c it : PNode) (b : Node) (args xs rest : List PNode) (si : Site) (e : Token) (w : Str)
    (s t : St) (r : Res (List PNode)) (hc : IsCall (str! "for") args c) (hf : Fair s.order)
    (hp : positional args = it :: .symbol b :: .list xs si e w :: rest) (hb : b.value = str! "in")
    (h : Evals ext [c] s r t) : ∃ q u, Evals ext xs s q u ∧ t.scope = u.scope := by
  rcases (C43_exact ext c it b args xs rest si e w s t _ hc hf hp hb).1 h with ⟨ys, u, t', h1, _, rfl⟩ | ⟨h1, _⟩
  · exact ⟨_, u, h1, rfl⟩
  · exact ⟨_, t, h1, rfl⟩

/-- C36: after `%namespace` only names with its prefix can differ. -/
theorem C36_namespace (ext : Ext) (c : PNode) (args : List PNode) (s t : St) (r : Res (List PNode))
    (hc : IsCall (str! "namespace") args c) (h : Evals ext [c] s r t) :
    t.scope = s.scope ∨ ∃ vs u pre rest, Evals ext args s (.ok vs) u ∧ NamespaceArgs vs pre rest ∧
      ∀ x, (∀ y, x ≠ pre ++ y) → t.scope x = s.scope x := by
  obtain ⟨q, u, ha⟩ := evals_namespace_args hc h
  by_cases hq : ∃ vs, q = .ok vs
  · obtain ⟨vs, rfl⟩ := hq
    by_cases hn : ∃ pre rest, NamespaceArgs vs pre rest
    · obtain ⟨pre, rest, hn⟩ := hn
      obtain ⟨_, rfl⟩ := h.unique (evals_namespace_ok hc ha hn)
      exact Or.inr ⟨vs, u, pre, rest, ha, hn, fun x hx => exportScope_other hx⟩
    · obtain ⟨e, he⟩ := evals_namespace_err hc ha fun pre rest hn' => hn ⟨pre, rest, hn'⟩
      obtain ⟨_, rfl⟩ := h.unique he
      exact Or.inl rfl
  · obtain ⟨_, rfl⟩ := h.unique (evals_namespace_fail hc ha fun a ha => hq ⟨a, ha⟩)
    exact Or.inl rfl

/-- `(%define x 1)(%define (f x) (%define y 2) %x)(%f 3)%x`: neither `y` nor the parameter
`x` of `f` is visible afterwards. -/
example : ∃ t, Evals exExt [exList [exSym (str! "%define"), exSym ['x'], exNum ['1']],
    exList [exSym (str! "%define"), exList [exSym ['f'], exSym ['x']],
      exList [exSym (str! "%define"), exSym ['y'], exNum ['2']], exSym (str! "%x")],
    exList [exSym (str! "%f"), exNum ['3']], exSym (str! "%x")] exSt (.ok [exNum ['3'], exNum ['1']]) t ∧
    (t.scope ['y']).isNone = true := evals_ok_of 10 (fun t => (t.scope ['y']).isNone) (by decide +kernel)

/-- The theorems on `(%f 3)`, `exMatch`, `exFor` and `(%namespace n a)`. -/
example (r : Res (List PNode)) (s t : St) (h : Evals exExt [exList [exSym (str! "%f"), exNum ['3']]] s r t) :=
  C36_user exExt ['f'] _ _ s t r (.mk _ _ _ _ _ rfl rfl) rfl h
example (r : Res (List PNode)) (t : St) (h : Evals exExt [exMatch] exSt r t) := C36_match exExt exMatch _ _ exSt t r
  (.mk _ _ _ _ _ rfl rfl) exSt_fair (.number _) (by
    intro p body si en w hp
    simp [exList] at hp
    rcases hp with ⟨⟨rfl, _⟩, _⟩ | ⟨⟨rfl, _⟩, _⟩ | ⟨⟨rfl, _⟩, _⟩ <;> exact freeNode_sound _ rfl) h
example (r : Res (List PNode)) (t : St) (h : Evals exExt [exFor] exSt r t) := C36_for exExt exFor (exSym ['x']) _ _
  [exSym ['a'], exSym ['b']] _ _ _ _ exSt t r (.mk _ _ _ _ _ rfl rfl) exSt_fair rfl rfl h
example (r : Res (List PNode)) (s t : St) (h : Evals exExt [exList [exSym (str! "%namespace"), exSym ['n'], exSym ['a']]] s r t) :=
  C36_namespace exExt _ _ s t r (.mk _ _ _ _ _ rfl rfl) h

/-! ## C49 -/

/-- C49: `(%namespace ns body...)` expands to the expansion of the body.  Afterwards
`ns/y` stands for what `y` stood for at the end of the body; names without that prefix are
as before. -/
theorem C49_namespace_partial (ext : Ext) (c : PNode) (args vs rest : List PNode) (pre : Str) (s u : St)
    (hc : IsCall (str! "namespace") args c) (ha : Evals ext args s (.ok vs) u) (hn : NamespaceArgs vs pre rest) :
    ∃ t, Evals ext [c] s (.ok rest) t ∧
      (∀ y m, u.scope y = some m → t.scope (pre ++ y) = some m) ∧
      (∀ y, u.scope y = none → t.scope (pre ++ y) = s.scope (pre ++ y)) ∧
      (∀ x, (∀ y, x ≠ pre ++ y) → t.scope x = s.scope x) ∧
      t.log = u.log := by
  refine ⟨_, evals_namespace_ok hc ha hn, fun y m hy => ?_, fun y hy => ?_, fun x hx => exportScope_other hx, rfl⟩
  · show exportScope pre u.scope s.scope (pre ++ y) = some m
    rw [exportScope_append, hy]
    rfl
  · show exportScope pre u.scope s.scope (pre ++ y) = _
    rw [exportScope_append, hy]
    rfl

/-- C49: so if a name `x` is added or changed, then it is `ns/y` for a `y` that was visible
at the end of the body. -/
theorem C49_nothing_else_partial (ext : Ext) (c : PNode) (args vs rest : List PNode) (pre x : Str) (s u t : St)
    (hc : IsCall (str! "namespace") args c) (ha : Evals ext args s (.ok vs) u) (hn : NamespaceArgs vs pre rest)
    (h : Evals ext [c] s (.ok rest) t) (hx : t.scope x ≠ s.scope x) :
    ∃ y m, x = pre ++ y ∧ u.scope y = some m := by
  obtain ⟨_, rfl⟩ := h.unique (evals_namespace_ok hc ha hn)
  apply Classical.byContradiction
  intro hno
  apply hx
  by_cases hp : ∃ y, x = pre ++ y
  · obtain ⟨y, rfl⟩ := hp
    cases hy : u.scope y with
    | some m => exact absurd ⟨y, m, rfl, hy⟩ hno
    | none =>
      show exportScope pre u.scope s.scope (pre ++ y) = _
      rw [exportScope_append, hy]
      rfl
  · exact exportScope_other fun y hy => hp ⟨y, hy⟩

/-- C49: arguments of another form are an error and leave the scope alone. -/
theorem C49_syntax (ext : Ext) (c : PNode) (args vs : List PNode) (s u : St)
    (hc : IsCall (str! "namespace") args c) (ha : Evals ext args s (.ok vs) u)
    (hn : ∀ pre rest, ¬ NamespaceArgs vs pre rest) :
    ∃ e t, Evals ext [c] s (.err e) t ∧ t.scope = s.scope := by
  obtain ⟨e, he⟩ := evals_namespace_err hc ha hn
  exact ⟨e, _, he, rfl⟩

/-- C49 is false: the definitions made before the namespace are exported too, although
its body defines nothing: `(%define x (p a))(%namespace n)` defines `n/x`. -/
theorem C49_namespace_false : ∃ (c : PNode) (s t : St), IsCall (str! "namespace") [exSym ['n']] c ∧
    Evals exExt [exDefX] exSt (.ok []) s ∧ Evals exExt [c] s (.ok []) t ∧
    (s.scope (str! "n/x")).isSome = false ∧ (t.scope (str! "n/x")).isSome = true := by
  obtain ⟨s, h, hs⟩ := evals_ok_of (ext := exExt) (ns := [exDefX]) (s := exSt) (out := []) 10
    (fun t => (t.scope ['x']).isSome && !(t.scope (str! "n/x")).isSome) (by decide +kernel)
  have hs : (s.scope ['x']).isSome = true ∧ (s.scope (str! "n/x")).isSome = false := by simpa using hs
  have hc : IsCall (str! "namespace") [exSym ['n']] (exList [exSym (str! "%namespace"), exSym ['n']]) := .mk _ _ _ _ _ rfl rfl
  have hn : NamespaceArgs [exSym ['n']] (str! "n/") [] := .mk _ ⟨['n'], default, []⟩ [] [] ['/'] (.symbol _) (.done _ _ (by simp))
  obtain ⟨t, h1, h2, _⟩ := C49_namespace_partial exExt _ _ _ _ _ s s hc
    (macrosFree_evals exExt [exSym ['n']] (.cons _ _ (.symbol _ (fun _ => by simp)) .nil) s) hn
  obtain ⟨m, hm⟩ := Option.isSome_iff_exists.1 hs.1
  exact ⟨_, s, t, hc, h, h1, hs.2, by rw [show (str! "n/x" : Str) = str! "n/" ++ ['x'] from rfl, h2 _ m hm]; rfl⟩

/-- `(%namespace n :separator "." (%define y 2) a)`. -/
def exNs : PNode := exList [exSym (str! "%namespace"), exSym ['n'], exAttr (str! "separator") (exStr ['.']),
  exList [exSym (str! "%define"), exSym ['y'], exNum ['2']], exSym ['a']]
example : NamespaceArgs [exSym ['n'], exAttr (str! "separator") (exStr ['.']), exSym ['a']] (str! "n.") [exSym ['a']] :=
  .mk _ ⟨['n'], default, []⟩ _ _ ['.'] (.symbol _) (.sep _ _ _ ⟨['.'], default, []⟩ _ _ _ _ (.string _) (.done _ _ (by simp [exSym, PNode.attribute?])))
example : ∃ t, Evals exExt [exNs] exSt (.ok [exSym ['a']]) t ∧
    ((t.scope ['y']).isNone && (t.scope (str! "n.y")).isSome) = true :=
  evals_ok_of 10 (fun t => (t.scope ['y']).isNone && (t.scope (str! "n.y")).isSome) (by decide +kernel)

/-- The theorems on `(%namespace n a)` and `(%namespace ())`. -/
example (s : St) := C49_namespace_partial exExt (exList [exSym (str! "%namespace"), exSym ['n'], exSym ['a']]) _ _ _ _ s s
  (.mk _ _ _ _ _ rfl rfl) (plain_evals _ _ _ rfl)
  (.mk _ ⟨['n'], default, []⟩ _ _ _ (.symbol _) (.done _ [exSym ['a']] (by simp [exSym, PNode.attribute?])))
example (s : St) := C49_syntax exExt (exList [exSym (str! "%namespace"), exList []]) _ [exList []] s s
  (.mk _ _ _ _ _ rfl rfl) (plain_evals _ _ _ rfl) (by
    intro pre rest h
    cases h with
    | mk _ _ _ _ _ h => cases h)

end Seam
