import Verif.Lemmas.Runs
import Verif.Spec.Control

/-! `%match`, `%for` and `%namespace`. -/

namespace Seam
open Spec

/-! ## Binding in a state -/

theorem binds_or_rejects (p v : PNode) (s : St) (hf : Fair s.order) :
    (∃ t, Binds p v s t ∧ Matches p v s.scope t.scope ∧ SameEffects s t) ∨
    (∃ t, Rejects p v s t ∧ (∀ sc, ¬ Matches p v s.scope sc) ∧ t.scope = s.scope ∧ SameEffects s t) := by
  rcases bind_cases p v s hf with h | ⟨e, t, h1, h2, h3⟩
  · exact Or.inl h
  · exact Or.inr ⟨_, ⟨e, t, h1, rfl⟩, h2, rfl, h3⟩

theorem binds_matches {p v : PNode} {s t : St} (hf : Fair s.order) (h : Binds p v s t) :
    Matches p v s.scope t.scope ∧ SameEffects s t := by
  rcases bind_cases p v s hf with ⟨t', h1, h2⟩ | ⟨e, t', h1, _⟩
  · rw [Binds, h1] at h
    obtain ⟨_, rfl⟩ := Prod.mk.inj h
    exact h2
  · rw [Binds, h1] at h
    cases h

theorem rejects_matches {p v : PNode} {s t : St} (hf : Fair s.order) (h : Rejects p v s t) :
    (∀ sc, ¬ Matches p v s.scope sc) ∧ t.scope = s.scope ∧ SameEffects s t := by
  obtain ⟨e, t', h, rfl⟩ := h
  rcases bind_cases p v s hf with ⟨t'', h1, h2⟩ | ⟨e, t'', h1, h2, h3⟩
  · rw [h1] at h
    cases h
  · rw [h1] at h
    obtain ⟨_, rfl⟩ := Prod.mk.inj h
    exact ⟨h2, rfl, h3⟩

theorem binds_fair {p v : PNode} {s t : St} (hf : Fair s.order) (h : Binds p v s t) : Fair t.order := by
  rw [(binds_matches hf h).2.2.2]; exact hf

theorem rejects_fair {p v : PNode} {s t : St} (hf : Fair s.order) (h : Rejects p v s t) : Fair t.order := by
  rw [(rejects_matches hf h).2.2.2.2]; exact hf

/-! ## `%match` -/

theorem Mon.matchLoop (e : PNode) (ps : List PNode) : Mon fun rec => matchLoop rec e ps :=
  fun _ _ h => matchLoop_le h e ps

theorem Mon.of_matchStep {α : Type} {b : M Unit} {F G : Rec → M α} (hF : Mon F) (hG : Mon G) :
    Mon fun rec => matchStep b (F rec) (G rec) := by
  intro rec rec' h s
  show (matchStep b (F rec) (G rec) s).1 = .diverge ∨ matchStep b (F rec) (G rec) s = matchStep b (F rec') (G rec') s
  unfold matchStep
  rcases b s with ⟨r, t⟩
  cases r with
  | ok u =>
    have := Le.inner (m := fun _ => F rec t) (m' := fun _ => F rec' t) (fun s' => hF rec rec' h t) s
    exact this
  | err e => exact hG _ _ h _
  | _ => exact Or.inr rfl

theorem runs_matchStep {α : Type} {ext : Ext} {b : M Unit} {F G : Rec → M α} {s t : St} {r : Res α}
    (hb : (b s).1 ≠ .panic ∧ (b s).1 ≠ .diverge) :
    Runs ext (fun rec => matchStep b (F rec) (G rec)) s r t ↔
      (∃ v t', b s = (.ok (), v) ∧ Runs ext F v r t' ∧ t = { t' with scope := s.scope }) ∨
      (∃ e v, b s = (.err e, v) ∧ Runs ext G { v with scope := s.scope } r t) := by
  rcases hs : b s with ⟨q, v⟩
  rw [hs] at hb
  cases q with
  | ok u =>
    have h : ∀ rec, matchStep b (F rec) (G rec) s = ((F rec v).1, { (F rec v).2 with scope := s.scope }) := by
      intro rec
      unfold matchStep
      rw [hs]
      rfl
    constructor
    · rintro ⟨hr, f, hf⟩
      obtain ⟨rfl, rfl⟩ := Prod.mk.inj ((h _).symm.trans hf)
      exact Or.inl ⟨v, _, rfl, ⟨hr, f, rfl⟩, rfl⟩
    · rintro (⟨v', t', h1, ⟨hr, f, hf⟩, rfl⟩ | ⟨e, v', h1, _⟩)
      · obtain ⟨_, rfl⟩ := Prod.mk.inj h1
        exact ⟨hr, f, (h _).trans (by rw [hf])⟩
      · cases h1
  | err e =>
    have h : ∀ rec, matchStep b (F rec) (G rec) s = G rec { v with scope := s.scope } := by
      intro rec
      unfold matchStep
      rw [hs]
    constructor
    · rintro ⟨hr, f, hf⟩
      exact Or.inr ⟨e, v, rfl, hr, f, (h _).symm.trans hf⟩
    · rintro (⟨v', t', h1, _⟩ | ⟨e, v', h1, hr, f, hf⟩)
      · cases h1
      · obtain ⟨_, rfl⟩ := Prod.mk.inj h1
        exact ⟨hr, f, (h _).trans hf⟩
  | panic => exact absurd rfl hb.1
  | diverge => exact absurd rfl hb.2

theorem bind_no_panic (p v : PNode) (s : St) (hf : Fair s.order) :
    (bind p v s).1 ≠ .panic ∧ (bind p v s).1 ≠ .diverge := by
  rcases bind_cases p v s hf with ⟨t, h, _⟩ | ⟨e, t, h, _⟩ <;> rw [h] <;> simp

theorem binds_or_rejects_step {α : Type} {ext : Ext} {p v : PNode} {F G : Rec → M α} {s t : St} {r : Res α} (hf : Fair s.order) :
    Runs ext (fun rec => matchStep (bind p v) (F rec) (G rec)) s r t ↔
      (∃ u t', Binds p v s u ∧ Runs ext F u r t' ∧ t = { t' with scope := s.scope }) ∨
      (∃ u, Rejects p v s u ∧ Runs ext G u r t) := by
  rw [runs_matchStep (bind_no_panic p v s hf)]
  constructor
  · rintro (⟨u, t', h1, h2⟩ | ⟨e, u, h1, h2⟩)
    · exact Or.inl ⟨u, t', h1, h2⟩
    · exact Or.inr ⟨_, ⟨e, u, h1, rfl⟩, h2⟩
  · rintro (⟨u, t', h1, h2⟩ | ⟨_, ⟨e, u, h1, rfl⟩, h2⟩)
    · exact Or.inl ⟨u, t', h1, h2⟩
    · exact Or.inr ⟨e, u, h1, h2⟩

/-- What `%match` does with an expanded pattern. -/
def matchBody (e p : PNode) (body ps pats : List PNode) (rec : Rec) : M (List PNode) :=
  match pats with
  | [p'] => matchStep (bind p' e) (expandNodes rec body) (matchLoop rec e ps)
  | _ => M.fail "Pattern must evaluate to a single node." p.site

theorem matchLoop_clause (rec : Rec) (e p : PNode) (body ps : List PNode) (si : Site) (en : Token) (w : Str) :
    matchLoop rec e (.list (p :: body) si en w :: ps) =
      (rec (.node p) >>= fun pats => matchBody e p body ps pats rec) := by
  rw [matchLoop]
  rfl

theorem Mon.matchBody (e p : PNode) (body ps pats : List PNode) : Mon (matchBody e p body ps pats) := by
  unfold Seam.matchBody
  split
  · exact Mon.of_matchStep (Mon.nodes body) (Mon.matchLoop e ps)
  · exact Mon.const _

theorem runs_matchBody_one {ext : Ext} {e p p' : PNode} {body ps : List PNode} {s t : St} {r : Res (List PNode)} (hf : Fair s.order) :
    Runs ext (matchBody e p body ps [p']) s r t ↔
      (∃ u t', Binds p' e s u ∧ Evals ext body u r t' ∧ t = { t' with scope := s.scope }) ∨
      (∃ u, Rejects p' e s u ∧ Runs ext (fun rec => matchLoop rec e ps) u r t) :=
  binds_or_rejects_step (p := p') (v := e) (F := fun rec => expandNodes rec body) (G := fun rec => matchLoop rec e ps) hf

theorem runs_matchBody_not {ext : Ext} {e p : PNode} {body ps qs : List PNode} (hq : qs.length ≠ 1) {s t : St} {r : Res (List PNode)} :
    Runs ext (matchBody e p body ps qs) s r t ↔ r = .err (expErr "Pattern must evaluate to a single node." p.site) ∧ t = s := by
  have : matchBody e p body ps qs = fun _ => M.fail "Pattern must evaluate to a single node." p.site := by
    funext rec
    unfold matchBody
    split
    · simp at hq
    · rfl
  rw [this]
  exact runs_fail

theorem err_eq {e : Err} {msg : String} {site : Site} (h1 : e.site = site) (h2 : e.stage = .expand) (h3 : e.msg = msg) :
    e = expErr msg site := by
  obtain ⟨_, _, _⟩ := e
  subst h1 h2 h3
  rfl

theorem chooses_iff {ext : Ext} {e : PNode} : ∀ {ps : List PNode} {s t : St} {r : Res (List PNode)}, Fair s.order →
    (Runs ext (fun rec => matchLoop rec e ps) s r t ↔ Chooses ext e ps s r t)
  | [], s, t, r, _ => by
    have : (fun rec => matchLoop rec e []) = fun _ => (pure [] : M (List PNode)) := by
      funext rec; rw [matchLoop]
    rw [this, runs_pure]
    constructor
    · rintro ⟨rfl, rfl⟩; exact .none _
    · intro h; cases h; exact ⟨rfl, rfl⟩
  | n :: ps, s, t, r, hf => by
    by_cases hn : n.list? = none
    · have : (fun rec => matchLoop rec e (n :: ps)) =
          fun _ => (M.fail "Pattern in `%match` must be a list `(pattern ...value)`." n.site : M (List PNode)) := by
        funext rec
        cases n <;> first | (simp [PNode.list?] at hn; done) | (unfold matchLoop; rfl)
      rw [this, runs_fail]
      constructor
      · rintro ⟨rfl, rfl⟩
        exact .notList n ps _ _ hn rfl rfl rfl
      · intro h
        cases h with
        | notList _ _ _ er _ h1 h2 h3 => exact ⟨by rw [err_eq h1 h2 h3], rfl⟩
        | _ => simp [PNode.list?] at hn
    · cases n with
      | list ns si en w =>
        cases ns with
        | nil =>
          have : (fun rec => matchLoop rec e (.list [] si en w :: ps)) =
              fun _ => (M.fail "Empty pattern not allowed in `%match`." si : M (List PNode)) := by
            funext rec
            rw [matchLoop]
          rw [this, runs_fail]
          constructor
          · rintro ⟨rfl, rfl⟩
            exact .empty ps si en w _ _ rfl rfl rfl
          · intro h
            cases h with
            | empty _ _ _ _ _ er h1 h2 h3 => exact ⟨by rw [err_eq h1 h2 h3], rfl⟩
            | notList _ _ _ _ h => simp [PNode.list?] at h
        | cons p body =>
          have : (fun rec => matchLoop rec e (.list (p :: body) si en w :: ps)) =
              fun rec => rec (.node p) >>= fun pats => matchBody e p body ps pats rec := by
            funext rec
            exact matchLoop_clause rec e p body ps si en w
          rw [this, runs_bind (Mon.call _) fun pats => Mon.matchBody e p body ps pats]
          constructor
          · rintro ⟨q, u, h1, h2⟩
            rw [runs_node] at h1
            cases q with
            | ok pats =>
              have h2 : Runs ext (matchBody e p body ps pats) u r t := h2
              by_cases hl : pats.length = 1
              · obtain ⟨p', rfl⟩ := List.length_eq_one_iff.1 hl
                rw [runs_matchBody_one (evals_fair h1 hf)] at h2
                rcases h2 with ⟨v, t', h4, h3, rfl⟩ | ⟨v, h2, h3⟩
                · exact .hit _ _ _ _ _ _ _ _ _ _ _ _ h1 h4 h3
                · exact .miss _ _ _ _ _ _ _ _ _ _ _ _ h1 h2 ((chooses_iff (rejects_fair (evals_fair h1 hf) h2)).1 h3)
              · rw [runs_matchBody_not hl] at h2
                obtain ⟨rfl, rfl⟩ := h2
                exact .notOne _ _ _ _ _ _ _ _ _ _ h1 hl rfl rfl rfl
            | err er =>
              obtain ⟨rfl, rfl⟩ := h2
              exact .failed _ _ _ _ _ _ _ _ _ h1 (by simp)
            | panic =>
              obtain ⟨rfl, rfl⟩ := h2
              exact .failed _ _ _ _ _ _ _ _ _ h1 (by simp)
            | diverge => exact h2.elim
          · intro h
            cases h with
            | hit _ p' _ _ _ _ _ _ u v t' _ h1 h2 h3 =>
              exact ⟨_, _, runs_node.2 h1, (runs_matchBody_one (evals_fair h1 hf)).2 (Or.inl ⟨v, t', h2, h3, rfl⟩)⟩
            | miss _ p' _ _ _ _ _ _ u v _ _ h1 h2 h3 =>
              exact ⟨_, _, runs_node.2 h1, (runs_matchBody_one (evals_fair h1 hf)).2
                (Or.inr ⟨v, h2, (chooses_iff (rejects_fair (evals_fair h1 hf) h2)).2 h3⟩)⟩
            | notOne _ qs _ _ _ _ _ _ _ er h1 h2 h3 h4 h5 =>
              exact ⟨_, _, runs_node.2 h1, (runs_matchBody_not h2).2 ⟨by rw [err_eq h3 h4 h5], rfl⟩⟩
            | failed _ _ _ _ _ _ _ _ _ h1 h2 =>
              refine ⟨_, _, runs_node.2 h1, ?_⟩
              cases r with
              | ok a => exact absurd rfl (h2 a)
              | err er => exact ⟨rfl, rfl⟩
              | panic => exact ⟨rfl, rfl⟩
              | diverge => exact absurd rfl h1.1
            | notList _ _ _ _ h => simp [PNode.list?] at h
      | _ => simp [PNode.list?] at hn

/-- What `%match` does with the expanded value. -/
def matchValue (expr : PNode) (patterns es : List PNode) (rec : Rec) : M (List PNode) :=
  match es with
  | [e] => matchLoop rec e patterns
  | _ => M.fail "Value to match against must be single value." expr.site

theorem Mon.matchValue (expr : PNode) (patterns es : List PNode) : Mon (matchValue expr patterns es) := by
  unfold Seam.matchValue
  split
  · exact Mon.matchLoop _ _
  · exact Mon.const _

theorem evals_match {ext : Ext} {x : PNode} {ps : List PNode} {c : PNode} (hc : IsCall (str! "match") (x :: ps) c)
    {s t : St} {r : Res (List PNode)} : Evals ext [c] s r t ↔
      ∃ q u, Evals ext [x] s q u ∧ Then q u (fun es => Runs ext (matchValue x ps es)) r t := by
  rw [evals_builtin_iff hc (b := .match_) rfl]
  have : (fun rec => runBuiltin ext rec .match_ c (x :: ps)) =
      fun rec => rec (.node x) >>= fun es => matchValue x ps es rec := rfl
  rw [this, runs_bind (Mon.call _) fun es => Mon.matchValue x ps es]
  simp only [runs_node]

/-! ## `%for` -/

theorem Mon.forLoop (it : PNode) (body xs : List PNode) : Mon fun rec => forLoop rec it body xs :=
  fun _ _ h => forLoop_le h it body xs

theorem then_ok {α : Type} {β : Type} {a : α} {u : St} {k : α → St → Res β → St → Prop} {r : Res β} {t : St} :
    Then (.ok a) u k r t ↔ k a u r t := Iff.rfl

theorem runs_after {ext : Ext} {F : Rec → M (List PNode)} (hF : Mon F) (as : List PNode) {s t : St}
    {r : Res (List PNode)} : Runs ext (fun rec => F rec >>= fun b => pure (as ++ b)) s r t ↔
      ∃ q, Runs ext F s q t ∧ r = addBefore as q := by
  rw [runs_bind hF fun b => Mon.const (pure (as ++ b))]
  constructor
  · rintro ⟨q, u, h1, h2⟩
    cases q with
    | ok b =>
      obtain ⟨rfl, rfl⟩ := runs_pure.1 (then_ok.1 h2)
      exact ⟨_, h1, rfl⟩
    | err e => obtain ⟨rfl, rfl⟩ := h2; exact ⟨_, h1, rfl⟩
    | panic => obtain ⟨rfl, rfl⟩ := h2; exact ⟨_, h1, rfl⟩
    | diverge => exact h2.elim
  · rintro ⟨q, h1, rfl⟩
    refine ⟨q, t, h1, ?_⟩
    cases q with
    | ok b => exact then_ok.2 (runs_pure.2 ⟨rfl, rfl⟩)
    | err e => exact ⟨rfl, rfl⟩
    | panic => exact ⟨rfl, rfl⟩
    | diverge => exact absurd rfl h1.1

theorem loops_iff {ext : Ext} {it : PNode} {body : List PNode} : ∀ {xs : List PNode} {s t : St} {r : Res (List PNode)},
    Fair s.order → (Runs ext (fun rec => forLoop rec it body xs) s r t ↔ Loops ext it body xs s r t)
  | [], s, t, r, _ => by
    have : (fun rec => forLoop rec it body []) = fun _ => (pure [] : M (List PNode)) := by
      funext rec; rw [forLoop]
    rw [this, runs_pure]
    constructor
    · rintro ⟨rfl, rfl⟩; exact .done _
    · intro h; cases h; exact ⟨rfl, rfl⟩
  | x :: xs, s, t, r, hf => by
    have : (fun rec => forLoop rec it body (x :: xs)) = fun rec => bind it x >>= fun _ =>
        expandNodes rec body >>= fun a => forLoop rec it body xs >>= fun b => pure (a ++ b) := by
      funext rec; rw [forLoop]
    rw [this, runs_bind (Mon.const _) (G := fun _ rec => expandNodes rec body >>= fun a =>
        forLoop rec it body xs >>= fun b => pure (a ++ b))
        fun _ => Mon.bind (Mon.nodes body) fun a => Mon.bind (Mon.forLoop it body xs) fun b => Mon.const (pure (a ++ b))]
    constructor
    · rintro ⟨q, u, h1, h2⟩
      rw [runs_const] at h1
      cases q with
      | ok un =>
        cases un
        rw [then_ok, runs_bind (Mon.nodes body) fun a => Mon.bind (Mon.forLoop it body xs) fun b => Mon.const (pure (a ++ b))] at h2
        obtain ⟨q, v, h2, h3⟩ := h2
        have hu := binds_fair hf h1.2
        cases q with
        | ok as =>
          rw [then_ok, runs_after (F := fun rec => forLoop rec it body xs) (Mon.forLoop it body xs) as] at h3
          obtain ⟨q, h3, rfl⟩ := h3
          exact .item _ _ _ _ _ _ _ _ h1.2 h2 ((loops_iff (evals_fair h2 hu)).1 h3)
        | err e => obtain ⟨rfl, rfl⟩ := h3; exact .failed _ _ _ _ _ _ h1.2 h2 (by simp)
        | panic => obtain ⟨rfl, rfl⟩ := h3; exact .failed _ _ _ _ _ _ h1.2 h2 (by simp)
        | diverge => exact h3.elim
      | err e =>
        obtain ⟨rfl, rfl⟩ := h2
        exact .mismatch _ _ _ _ _ h1.2
      | panic =>
        have := (bind_no_panic it x s hf).1
        rw [h1.2] at this
        exact absurd rfl this
      | diverge => exact h2.elim
    · intro h
      cases h with
      | item _ _ as _ u v _ r h1 h2 h3 =>
        refine ⟨.ok (), u, runs_const.2 ⟨by simp, h1⟩, ?_⟩
        rw [then_ok, runs_bind (Mon.nodes body) fun a => Mon.bind (Mon.forLoop it body xs) fun b => Mon.const (pure (a ++ b))]
        refine ⟨_, _, h2, ?_⟩
        rw [then_ok, runs_after (F := fun rec => forLoop rec it body xs) (Mon.forLoop it body xs) as]
        exact ⟨r, (loops_iff (evals_fair h2 (binds_fair hf h1))).2 h3, rfl⟩
      | failed _ _ _ u _ _ h1 h2 h3 =>
        refine ⟨.ok (), u, runs_const.2 ⟨by simp, h1⟩, ?_⟩
        rw [then_ok, runs_bind (Mon.nodes body) fun a => Mon.bind (Mon.forLoop it body xs) fun b => Mon.const (pure (a ++ b))]
        refine ⟨_, _, h2, ?_⟩
        cases r with
        | ok a => exact absurd rfl (h3 a)
        | err er => exact ⟨rfl, rfl⟩
        | panic => exact ⟨rfl, rfl⟩
        | diverge => exact absurd rfl h2.1
      | mismatch _ _ _ _ er h1 => exact ⟨.err er, _, runs_const.2 ⟨by simp, h1⟩, rfl, rfl⟩

/-! ## The arguments of `%for` -/

/-- The declarations of `%for`. -/
def forEntries : List Entry := [
  ⟨.int 1, true, .any []⟩, ⟨.int 2, true, .symbol [.exactly (str! "in")]⟩, ⟨.int 3, true, .list []⟩]

theorem forSchema_eq : forSchema = rulesOf forEntries := rfl

theorem forEntries_ok : WellDeclared forEntries where
  once := by simp [forEntries]
  positive e he := by simp [forEntries] at he; rcases he with rfl | rfl | rfl <;> simp
  mandatory e he _ := by simp [forEntries] at he; rcases he with rfl | rfl | rfl <;> exact ⟨_, rfl⟩

theorem undeclared_drop {es : List Entry} {n : Nat} (h1 : ∀ i, declaredAt es (.int i) = decide (1 ≤ i ∧ i ≤ n))
    (h2 : ∀ k, declaredAt es (.str k) = false) : ∀ (vs : List PNode) (j : Nat),
    ((places j vs).filter fun x => !declaredAt es x.1).map (·.2.2) = dropPositional (n - j) vs
  | [], j => by cases n - j <;> rfl
  | v :: vs, j => by
    have ih := undeclared_drop h1 h2 vs
    cases v with
    | attr k x s w =>
      simp only [places, List.filter_cons, h2, Bool.not_false, if_true, List.map_cons, ih j]
      cases n - j <;> simp [dropPositional]
    | _ =>
      simp only [places, List.filter_cons, h1]
      by_cases hj : j + 1 ≤ n
      · rw [if_neg (by simp [hj]), ih (j + 1), show n - j = (n - (j + 1)) + 1 by omega]
        simp [dropPositional]
      · rw [if_pos (by simp [hj]), List.map_cons, ih (j + 1), show n - j = 0 by omega, show n - (j + 1) = 0 by omega]
        simp [dropPositional]

theorem for_undeclared (vs : List PNode) : undeclared forEntries vs = dropPositional 3 vs := by
  refine undeclared_drop (es := forEntries) (n := 3) ?_ ?_ vs 0
  · intro i
    rw [Bool.eq_iff_iff]
    simp [declaredAt, forEntries]
    omega
  · intro k
    simp [declaredAt, forEntries]

/-- The arguments have the form which `%for` wants. -/
theorem for_accepts {vs : List PNode} : Accepts forEntries (some (.any [])) vs ↔
    ∃ it b xs si e w rest, positional vs = it :: .symbol b :: .list xs si e w :: rest ∧ b.value = str! "in" := by
  constructor
  · intro h
    obtain ⟨v1, h1, _⟩ := accepts_mandatory h (e := ⟨.int 1, true, .any []⟩) (by simp [forEntries]) (i := 0) rfl rfl
    obtain ⟨v2, h2, h2'⟩ := accepts_mandatory h (e := ⟨.int 2, true, .symbol [.exactly (str! "in")]⟩) (by simp [forEntries]) (i := 1) rfl rfl
    obtain ⟨v3, h3, h3'⟩ := accepts_mandatory h (e := ⟨.int 3, true, .list []⟩) (by simp [forEntries]) (i := 2) rfl rfl
    obtain ⟨b, rfl, hb⟩ := hasType_symbol_iff.1 h2'
    obtain ⟨xs, si, e, w, rfl⟩ := hasType_list_iff.1 h3'
    obtain ⟨a, ha, hv⟩ := satisfies_exactly (vs := [str! "in"]) (by simp) hb
    cases ha
    match hp : positional vs, h1, h2, h3 with
    | x1 :: x2 :: x3 :: rest, h1, h2, h3 =>
      simp at h1 h2 h3
      subst h1 h2 h3
      exact ⟨_, _, _, _, _, _, rest, rfl, by simpa using hv⟩
    | [], h1, _, _ => simp at h1
    | [_], _, h2, _ => simp at h2
    | [_, _], _, _, h3 => simp at h3
  · rintro ⟨it, b, xs, si, e, w, rest, hp, hb⟩
    have hget : ∀ i v, (ArgPos.int (i + 1), v, v) ∈ places 0 vs → (positional vs)[i]? = some v := by
      intro i v hm
      have := places_int_get (j := 0) hm
      simpa using this
    refine ⟨?_, fun x hx _ => ⟨_, rfl, hasType_any _⟩, ?_⟩
    · intro x hx en hen hpos
      simp [forEntries] at hen
      rcases hen with rfl | rfl | rfl
      · exact hasType_any _
      · obtain ⟨_, _, _⟩ := x
        subst hpos
        obtain rfl := places_int_self hx
        have := hget 1 _ hx
        rw [hp] at this
        simp at this
        subst this
        exact .symbol _ _ (Or.inr ⟨_, List.mem_singleton.2 rfl, _, .symbol _, hb⟩)
      · obtain ⟨_, _, _⟩ := x
        subst hpos
        obtain rfl := places_int_self hx
        have := hget 2 _ hx
        rw [hp] at this
        simp at this
        subst this
        exact .anyList _ _ _ _
    · intro en hen _
      simp [forEntries] at hen
      rcases hen with rfl | rfl | rfl
      · exact ⟨_, places_pos_mem (j := 0) (i := 0) (by rw [hp]; rfl), rfl⟩
      · exact ⟨_, places_pos_mem (j := 0) (i := 1) (by rw [hp]; rfl), rfl⟩
      · exact ⟨_, places_pos_mem (j := 0) (i := 2) (by rw [hp]; rfl), rfl⟩

theorem for_parsed {call it : PNode} {b : Node} {xs rest vs : List PNode} {si : Site} {e : Token} {w : Str}
    (hp : positional vs = it :: .symbol b :: .list xs si e w :: rest) (hb : b.value = str! "in") :
    ∃ p, ArgParser.new { patterns := forSchema, trailing := some (.any []) } call vs = .ok p ∧
      p.pos call 1 = .ok it ∧ p.posNode call 2 = .ok b ∧ p.posList call 3 = .ok xs ∧ p.trailing = dropPositional 3 vs := by
  have hacc := for_accepts.2 ⟨it, b, xs, si, e, w, rest, hp, hb⟩
  rcases argParser_new forEntries_ok (some (.any [])) call vs with ⟨p, h1, h2, _⟩ | ⟨er, _, h2⟩
  · have g1 := parsed_pos h2 (e := ⟨.int 1, true, .any []⟩) (by simp [forEntries]) (i := 0) rfl
    have g2 := parsed_pos h2 (e := ⟨.int 2, true, .symbol [.exactly (str! "in")]⟩) (by simp [forEntries]) (i := 1) rfl
    have g3 := parsed_pos h2 (e := ⟨.int 3, true, .list []⟩) (by simp [forEntries]) (i := 2) rfl
    rw [hp] at g1 g2 g3
    refine ⟨p, h1, ?_, ?_, ?_, ?_⟩
    · simp only [ArgParser.pos]; rw [g1]; rfl
    · simp only [ArgParser.posNode, ArgParser.pos]; rw [g2]; rfl
    · simp only [ArgParser.posList, ArgParser.pos]; rw [g3]; rfl
    · rw [h2.trailing, for_undeclared]
  · exact absurd hacc h2

theorem evals_for {ext : Ext} {args : List PNode} {c it : PNode} {b : Node} {xs rest : List PNode} {si : Site} {e : Token} {w : Str}
    (hc : IsCall (str! "for") args c)
    (hp : positional args = it :: .symbol b :: .list xs si e w :: rest) (hb : b.value = str! "in")
    {s t : St} {r : Res (List PNode)} : Evals ext [c] s r t ↔
      ∃ q u, Evals ext xs s q u ∧
        Then q u (fun ys => Runs ext fun rec => M.inner (forLoop rec it (dropPositional 3 args) ys)) r t := by
  rw [evals_builtin_iff hc (b := .for_) rfl]
  obtain ⟨p, h1, h2, h3, h4, h5⟩ := for_parsed (call := c) hp hb
  have : (fun rec => runBuiltin ext rec .for_ c args) = fun rec => expandNodes rec xs >>= fun ys =>
      M.inner (forLoop rec it (dropPositional 3 args) ys) := by
    funext rec s
    show (arguments forSchema (some (.any [])) c args >>= fun p => _) s = _
    rw [M.bind_ok (show arguments forSchema (some (.any [])) c args s = (.ok p, s) by rw [arguments, h1]; rfl),
      M.bind_ok (show M.lift (p.pos c 1) s = (.ok it, s) by rw [h2]; rfl),
      M.bind_ok (show M.lift (p.posNode c 2) s = (.ok b, s) by rw [h3]; rfl),
      M.bind_ok (show M.lift (p.posList c 3) s = (.ok xs, s) by rw [h4]; rfl), h5]
  rw [this, runs_bind (Mon.nodes xs) fun ys => Mon.inner (Mon.forLoop _ _ _)]
  simp only [runs_nodes]

theorem evals_for_syntax {ext : Ext} {args : List PNode} {c : PNode} (hc : IsCall (str! "for") args c)
    (h : ¬ ∃ it b xs si e w rest, positional args = it :: .symbol b :: .list xs si e w :: rest ∧ b.value = str! "in")
    (s : St) : ∃ e, Evals ext [c] s (.err e) s := by
  rcases argParser_new forEntries_ok (some (.any [])) c args with ⟨p, _, _, h2⟩ | ⟨er, h1, _⟩
  · exact absurd (for_accepts.1 h2) h
  · refine ⟨er, (evals_builtin_iff hc (b := .for_) rfl).2 ⟨by simp, 0, ?_⟩⟩
    show (arguments forSchema (some (.any [])) c args >>= fun p => _) s = _
    rw [M.bind_err (show arguments forSchema (some (.any [])) c args s = (.err er, s) by rw [arguments, forSchema_eq, h1]; rfl)]

/-! ## `%namespace` -/

theorem namespaceOpts_sound : ∀ {vs : List PNode} {old sep : Str} {rest : List PNode},
    namespaceOpts old vs = .ok (sep, rest) → NamespaceOpts old vs sep rest
  | [], old, sep, rest, h => by
    simp only [namespaceOpts] at h
    cases h
    exact .done _ _ (by simp)
  | v :: vs, old, sep, rest, h => by
    cases v with
    | attr k x s w =>
      simp only [namespaceOpts] at h
      split at h
      · rename_i hk
        subst hk
        split at h
        · rename_i a ha
          exact .sep _ _ _ _ _ _ _ _ (literal_of_atomic ha) (namespaceOpts_sound h)
        · cases h
      · cases h
    | _ =>
      simp only [namespaceOpts] at h
      cases h
      exact .done _ _ (by simp [PNode.attribute?])

theorem namespaceOpts_complete {vs : List PNode} {old sep : Str} {rest : List PNode} (h : NamespaceOpts old vs sep rest) :
    namespaceOpts old vs = .ok (sep, rest) := by
  induction h with
  | done sep rest h =>
    cases rest with
    | nil => rfl
    | cons n rest =>
      have := h n rfl
      cases n <;> first | rfl | simp [PNode.attribute?] at this
  | sep old new v a s w vs rest h _ ih =>
    simp only [namespaceOpts, if_true, literal_atomic h]
    exact ih

theorem namespaceOpts_err {vs : List PNode} {old : Str} : (∃ x, namespaceOpts old vs = .ok x) ∨ ∃ e, namespaceOpts old vs = .err e := by
  induction vs generalizing old with
  | nil => exact Or.inl ⟨_, rfl⟩
  | cons v vs ih =>
    cases v with
    | attr k x s w =>
      simp only [namespaceOpts]
      split
      · split
        · exact ih
        · exact Or.inr ⟨_, rfl⟩
      · exact Or.inr ⟨_, rfl⟩
    | _ => exact Or.inl ⟨_, rfl⟩

/-- The scope after a namespace. -/
theorem exportScope_append (pre y : Str) (inner outer : Scope) :
    exportScope pre inner outer (pre ++ y) = (inner y).or (outer (pre ++ y)) := by
  unfold exportScope
  rw [if_pos (by simp)]
  simp only [List.drop_left]
  cases inner y <;> rfl

theorem exportScope_other {pre x : Str} {inner outer : Scope} (h : ∀ y, x ≠ pre ++ y) : exportScope pre inner outer x = outer x := by
  unfold exportScope
  rw [if_neg]
  intro hp
  rw [List.isPrefixOf_iff_prefix] at hp
  obtain ⟨y, rfl⟩ := hp
  exact h y rfl

theorem evals_namespace_ok {ext : Ext} {args vs rest : List PNode} {c : PNode} {pre : Str} (hc : IsCall (str! "namespace") args c)
    {s u : St} (ha : Evals ext args s (.ok vs) u) (hn : NamespaceArgs vs pre rest) :
    Evals ext [c] s (.ok rest) { u with scope := exportScope pre u.scope s.scope } := by
  refine evals_builtin hc (b := .namespace_) rfl (by simp) (ha.ev.mono fun f hf => ?_)
  show namespaceMacro (run ext f) c args s = _
  unfold namespaceMacro
  rw [hf]
  cases hn with
  | mk n a vs rest sep h1 h2 =>
    simp only [literal_atomic h1, namespaceOpts_complete h2]

theorem evals_namespace_err {ext : Ext} {args vs : List PNode} {c : PNode} (hc : IsCall (str! "namespace") args c)
    {s u : St} (ha : Evals ext args s (.ok vs) u) (hn : ∀ pre rest, ¬ NamespaceArgs vs pre rest) :
    ∃ e, Evals ext [c] s (.err e) { u with scope := s.scope } := by
  have key : ∃ e, ∀ rec, expandNodes rec args s = (.ok vs, u) → namespaceMacro rec c args s = (.err e, { u with scope := s.scope }) := by
    cases vs with
    | nil =>
      refine ⟨expErr "Expected a namespace name." c.site, fun rec hr => ?_⟩
      unfold namespaceMacro
      rw [hr]
      rfl
    | cons n opts =>
      cases hl : n.atomic? with
      | none =>
        refine ⟨expErr "Expected a namespace name." c.site, fun rec hr => ?_⟩
        unfold namespaceMacro
        rw [hr]
        simp only [hl]
        rfl
      | some a =>
        rcases namespaceOpts_err (vs := opts) (old := ['/']) with ⟨⟨sep, rest⟩, ho⟩ | ⟨e, ho⟩
        · exact absurd (NamespaceArgs.mk n a opts rest sep (literal_of_atomic hl) (namespaceOpts_sound ho)) (hn _ _)
        · refine ⟨e, fun rec hr => ?_⟩
          unfold namespaceMacro
          rw [hr]
          simp only [hl, ho]
  obtain ⟨e, he⟩ := key
  exact ⟨e, evals_builtin hc (b := .namespace_) rfl (by simp) (ha.ev.mono fun f hf => he _ hf)⟩

theorem evals_namespace_fail {ext : Ext} {args : List PNode} {c : PNode} (hc : IsCall (str! "namespace") args c)
    {s u : St} {r : Res (List PNode)} (ha : Evals ext args s r u) (hr : ∀ a, r ≠ .ok a) :
    Evals ext [c] s r { u with scope := s.scope } := by
  refine evals_builtin hc (b := .namespace_) rfl ha.1 (ha.ev.mono fun f hf => ?_)
  show namespaceMacro (run ext f) c args s = _
  unfold namespaceMacro
  rw [hf]
  cases r with
  | ok a => exact absurd rfl (hr a)
  | _ => rfl

theorem evals_namespace_args {ext : Ext} {args : List PNode} {c : PNode} (hc : IsCall (str! "namespace") args c)
    {s t : St} {r : Res (List PNode)} (h : Evals ext [c] s r t) : ∃ q u, Evals ext args s q u := by
  obtain ⟨f, hf⟩ := evals_builtin_inv hc (b := .namespace_) rfl h
  have hf : namespaceMacro (run ext f) c args s = (r, t) := hf
  unfold namespaceMacro at hf
  rcases he : expandNodes (run ext f) args s with ⟨q, u⟩
  rw [he] at hf
  cases q with
  | diverge =>
    obtain ⟨rfl, _⟩ := Prod.mk.inj hf
    exact absurd rfl h.1
  | ok a => exact ⟨_, u, by simp, f, he⟩
  | err a => exact ⟨_, u, by simp, f, he⟩
  | panic => exact ⟨_, u, by simp, f, he⟩

end Seam
