import Verif.Lemmas.Keeps

/-!
# Hash order

A run during which no `&&` parameter was filled does not depend on the iteration
order of hash maps, except for the place at which an error is reported.
-/

namespace Seam
open Spec

/-- Equal outcomes, or errors with the same text. -/
inductive SameRes {α : Type} : Res α → Res α → Prop
  | same (r : Res α) : SameRes r r
  | err (e e' : Err) : e.stage = e'.stage → e.msg = e'.msg → SameRes (.err e) (.err e')

theorem SameRes.ok_left {α : Type} {a : α} {r : Res α} (h : SameRes (.ok a) r) : r = .ok a := by
  cases h; rfl

/-- The state with another hash order. -/
def St.reorder (o : Order) (s : St) : St := { s with order := o }

/-- The computation does not depend on the hash order, unless it fills a `&&` parameter. -/
def Indep (α : Type) (m : M α) : Prop := ∀ s,
  ((m s).2.order = s.order ∧ s.hashes ≤ (m s).2.hashes) ∧
  ∀ o, Fair s.order → Fair o → (m s).2.hashes = s.hashes →
    (m (s.reorder o)).2 = (m s).2.reorder o ∧ SameRes (m s).1 (m (s.reorder o)).1

theorem indep_of_simple {α : Type} {m : M α} (h1 : ∀ s, (m s).2.order = s.order ∧ s.hashes ≤ (m s).2.hashes)
    (h2 : ∀ s o, (m (s.reorder o)) = ((m s).1, (m s).2.reorder o)) : Indep α m := by
  intro s
  refine ⟨h1 s, fun o _ _ _ => ?_⟩
  rw [h2]
  exact ⟨rfl, .same _⟩

theorem indep_const {α : Type} (r : Res α) (g : St → St) (hg : ∀ s, (g s).order = s.order ∧ s.hashes ≤ (g s).hashes)
    (h : ∀ s o, g (s.reorder o) = (g s).reorder o) : Indep α (fun s => (r, g s)) :=
  indep_of_simple hg fun s o => by dsimp only; rw [h]

theorem Indep.bind {α β : Type} {m : M α} {f : α → M β} (hm : Indep α m) (hf : ∀ a, Indep β (f a)) :
    Indep β (m >>= f) := by
  intro s
  have h := hm s
  rw [M.bind_def]
  rcases hms : m s with ⟨r, t⟩
  rw [hms] at h
  obtain ⟨⟨h1, h2⟩, h3⟩ := h
  dsimp only at h1 h2 h3
  cases r with
  | ok a =>
    dsimp only
    obtain ⟨⟨k1, k2⟩, k3⟩ := hf a t
    refine ⟨⟨k1.trans h1, Nat.le_trans h2 k2⟩, fun o ho ho' he => ?_⟩
    obtain ⟨j1, j2⟩ := h3 o ho ho' (by omega)
    rw [M.bind_def]
    rcases hms' : m (s.reorder o) with ⟨r', t'⟩
    rw [hms'] at j1 j2
    dsimp only at j1 j2
    have := j2.ok_left
    subst this
    subst j1
    exact k3 o (h1 ▸ ho) ho' (by omega)
  | err e =>
    refine ⟨⟨h1, h2⟩, fun o ho ho' he => ?_⟩
    obtain ⟨j1, j2⟩ := h3 o ho ho' he
    rw [M.bind_def]
    rcases hms' : m (s.reorder o) with ⟨r', t'⟩
    rw [hms'] at j1 j2
    dsimp only at j1 j2
    subst j1
    cases j2 with
    | same => exact ⟨rfl, .same _⟩
    | err _ e' g1 g2 => exact ⟨rfl, .err _ _ g1 g2⟩
  | panic =>
    refine ⟨⟨h1, h2⟩, fun o ho ho' he => ?_⟩
    obtain ⟨j1, j2⟩ := h3 o ho ho' he
    rw [M.bind_def]
    rcases hms' : m (s.reorder o) with ⟨r', t'⟩
    rw [hms'] at j1 j2
    dsimp only at j1 j2
    subst j1
    cases j2 with
    | same => exact ⟨rfl, .same _⟩
  | diverge =>
    refine ⟨⟨h1, h2⟩, fun o ho ho' he => ?_⟩
    obtain ⟨j1, j2⟩ := h3 o ho ho' he
    rw [M.bind_def]
    rcases hms' : m (s.reorder o) with ⟨r', t'⟩
    rw [hms'] at j1 j2
    dsimp only at j1 j2
    subst j1
    cases j2 with
    | same => exact ⟨rfl, .same _⟩

theorem indep_lift {α : Type} (r : Res α) : Indep α (M.lift r) :=
  indep_const r id (fun _ => ⟨rfl, Nat.le_refl _⟩) fun _ _ => rfl

theorem indep_define (name : Str) (m : Macro) : Indep Unit (M.define name m) :=
  indep_of_simple (fun _ => ⟨rfl, Nat.le_refl _⟩) fun _ _ => rfl

theorem indep_bindNamed : ∀ (lhs rhs : List (Str × PNode)), Indep _ (bindNamed rhs lhs)
  | [], _ => indep_lift _
  | (_, _) :: lhs, rhs => by
    unfold bindNamed
    exact Indep.bind (indep_define _ _) fun _ => indep_bindNamed lhs _

theorem Spec.Fair.firstEntry {o : Order} (h : Fair o) {l : List (Str × PNode)} (hl : l ≠ []) (i : Nat) :
    ∃ e, (o i l).head? = some e ∧ e ∈ l := by
  have hp := h i l
  cases ho : o i l with
  | nil =>
    rw [ho] at hp
    exact absurd hp.symm.eq_nil hl
  | cons e es =>
    rw [ho] at hp
    exact ⟨e, rfl, hp.subset (List.mem_cons_self ..)⟩

theorem indep_excess (rhs : List (Str × PNode)) (hr : rhs ≠ []) : Indep Unit (do
    let entry ← M.firstEntry rhs
    match entry with
    | some (_, n) => M.fail "Unknown excess keywords provided." n.site
    | none => M.panic) := by
  intro s
  have key : ∀ s : St, ((do
      let entry ← M.firstEntry rhs
      match entry with
      | some (_, n) => M.fail "Unknown excess keywords provided." n.site
      | none => M.panic) : M Unit) s = (match (s.order s.hashes rhs).head? with
        | some (_, n) => (.err (expErr "Unknown excess keywords provided." n.site), s)
        | none => (.panic, s)) := by
    intro s
    rw [M.bind_def]
    show (match (s.order s.hashes rhs).head? with | some (_, n) => _ | none => _ : M Unit) s = _
    cases (s.order s.hashes rhs).head? with
    | none => rfl
    | some e => rfl
  rw [key]
  refine ⟨?_, fun o ho ho' _ => ?_⟩
  · split <;> exact ⟨rfl, Nat.le_refl _⟩
  · rw [key]
    obtain ⟨e, he, _⟩ := ho.firstEntry hr s.hashes
    obtain ⟨e', he', _⟩ := ho'.firstEntry hr s.hashes
    have h' : ((s.reorder o).order (s.reorder o).hashes rhs).head? = some e' := he'
    rw [he, h']
    exact ⟨rfl, .err _ _ rfl rfl⟩

theorem indep_iterate (rhs : List (Str × PNode)) : Indep _ (M.iterate rhs) := by
  intro s
  refine ⟨⟨rfl, Nat.le_succ _⟩, fun o _ _ h => ?_⟩
  have h : s.hashes + 1 = s.hashes := h
  omega

theorem indep_bindEnd (acc : BindAcc) (vs : List PNode) : Indep _ (bindEnd acc vs) := by
  have hend : ∀ rhs : List (Str × PNode), Indep Unit (match acc.kwRest with
      | some name => do
        let entries ← M.iterate rhs
        M.define (name.drop 2) (Macro.var (entries.map (·.2)))
      | none =>
        if rhs.isEmpty then pure ()
        else do
          let entry ← M.firstEntry rhs
          match entry with
          | some (_, n) => M.fail "Unknown excess keywords provided." n.site
          | none => M.panic) := by
    intro rhs
    split
    · exact Indep.bind (indep_iterate _) fun _ => indep_define _ _
    · split
      · exact indep_lift _
      · exact indep_excess rhs (by intro h; subst h; simp_all)
  unfold bindEnd
  rcases takeRest acc.rhs vs with ⟨rhs, rest⟩
  dsimp only
  split
  · exact Indep.bind (indep_define _ _) fun _ => Indep.bind (indep_bindNamed _ _) hend
  · exact Indep.bind (indep_lift _) fun _ => Indep.bind (indep_bindNamed _ _) hend
  · exact Indep.bind (indep_bindNamed _ _) hend

theorem St.reorder_scope (o : Order) (s : St) : (s.reorder o).scope = s.scope := rfl

theorem indep_closed : Closed Indep where
  pure a := indep_lift (.ok a)
  lift := indep_lift
  lookup name := indep_of_simple (fun _ => ⟨rfl, Nat.le_refl _⟩) fun _ _ => rfl
  define := indep_define
  tick := indep_of_simple (fun _ => ⟨rfl, Nat.le_refl _⟩) fun _ _ => rfl
  emit l := indep_of_simple (fun _ => ⟨rfl, Nat.le_refl _⟩) fun _ _ => rfl
  bindEnd := indep_bindEnd
  bind := Indep.bind
  inner := by
    intro α m h s
    obtain ⟨h1, h2⟩ := h s
    refine ⟨h1, fun o ho ho' he => ?_⟩
    obtain ⟨j1, j2⟩ := h2 o ho ho' he
    simp only [M.inner_def]
    rw [j1]
    exact ⟨rfl, j2⟩
  rethrow := by
    intro α m msg site h s
    obtain ⟨h1, h2⟩ := h s
    unfold rethrow
    rcases hm : m s with ⟨r, t⟩
    rw [hm] at h1 h2
    have fin : ∀ o, Fair s.order → Fair o → t.hashes = s.hashes →
        ∃ r', m (s.reorder o) = (r', t.reorder o) ∧ SameRes r r' := by
      intro o ho ho' he
      obtain ⟨j1, j2⟩ := h2 o ho ho' he
      exact ⟨_, Prod.ext rfl j1, j2⟩
    cases r <;>
    · refine ⟨h1, fun o ho ho' he => ?_⟩
      obtain ⟨r', g1, g2⟩ := fin o ho ho' he
      rw [g1]
      cases g2 <;> exact ⟨rfl, .same _⟩
  ignoreErr := by
    intro m h s
    obtain ⟨h1, h2⟩ := h s
    unfold ignoreErr
    rcases hm : m s with ⟨r, t⟩
    rw [hm] at h1 h2
    have fin : ∀ o, Fair s.order → Fair o → t.hashes = s.hashes →
        ∃ r', m (s.reorder o) = (r', t.reorder o) ∧ SameRes r r' := by
      intro o ho ho' he
      obtain ⟨j1, j2⟩ := h2 o ho ho' he
      exact ⟨_, Prod.ext rfl j1, j2⟩
    cases r <;>
    · refine ⟨h1, fun o ho ho' he => ?_⟩
      obtain ⟨r', g1, g2⟩ := fin o ho ho' he
      rw [g1]
      cases g2 <;> exact ⟨rfl, .same _⟩
  matchStep := by
    intro α b body rest hb hbody hrest s
    obtain ⟨h1, h2⟩ := hb s
    unfold matchStep
    rcases hm : b s with ⟨r, t⟩
    rw [hm] at h1 h2
    dsimp only at h1 h2
    cases r with
    | ok u =>
      obtain ⟨⟨k1, k2⟩, k3⟩ := hbody t
      refine ⟨⟨k1.trans h1.1, Nat.le_trans h1.2 k2⟩, fun o ho ho' he => ?_⟩
      have he : (body t).2.hashes = s.hashes := he
      obtain ⟨j1, j2⟩ := h2 o ho ho' (by omega)
      rcases hm' : b (s.reorder o) with ⟨r', t'⟩
      rw [hm'] at j1 j2
      dsimp only at j1 j2
      have := j2.ok_left
      subst this
      subst j1
      obtain ⟨i1, i2⟩ := k3 o (h1.1 ▸ ho) ho' (by omega)
      refine ⟨?_, i2⟩
      show ({ (body (t.reorder o)).2 with scope := s.scope } : St) = _
      rw [i1]
      rfl
    | err e =>
      obtain ⟨⟨k1, k2⟩, k3⟩ := hrest { t with scope := s.scope }
      dsimp only at k1 k2 k3 ⊢
      refine ⟨⟨k1.trans h1.1, Nat.le_trans h1.2 k2⟩, fun o ho ho' he => ?_⟩
      obtain ⟨j1, j2⟩ := h2 o ho ho' (by omega)
      obtain ⟨i1, i2⟩ := k3 o (h1.1 ▸ ho) ho' (by omega)
      rcases hm' : b (s.reorder o) with ⟨r', t'⟩
      rw [hm'] at j1 j2
      dsimp only at j1 j2
      subst j1
      cases j2 <;> exact ⟨i1, i2⟩
    | panic =>
      refine ⟨h1, fun o ho ho' he => ?_⟩
      obtain ⟨j1, j2⟩ := h2 o ho ho' he
      rcases hm' : b (s.reorder o) with ⟨r', t'⟩
      rw [hm'] at j1 j2
      dsimp only at j1 j2
      subst j1
      cases j2
      exact ⟨rfl, .same _⟩
    | diverge =>
      refine ⟨h1, fun o ho ho' he => ?_⟩
      obtain ⟨j1, j2⟩ := h2 o ho ho' he
      rcases hm' : b (s.reorder o) with ⟨r', t'⟩
      rw [hm'] at j1 j2
      dsimp only at j1 j2
      subst j1
      cases j2
      exact ⟨rfl, .same _⟩
  exporting := by
    intro m f h s
    obtain ⟨h1, h2⟩ := h s
    unfold exporting
    rcases hm : m s with ⟨r, t⟩
    rw [hm] at h1 h2
    dsimp only at h1 h2
    have fin : ∀ o, Fair s.order → Fair o → t.hashes = s.hashes →
        ∃ r', m (s.reorder o) = (r', t.reorder o) ∧ SameRes r r' := by
      intro o ho ho' he
      obtain ⟨j1, j2⟩ := h2 o ho ho' he
      exact ⟨_, Prod.ext rfl j1, j2⟩
    cases r with
    | ok args =>
      dsimp only
      cases hf : f args with
      | ok pr =>
        rcases pr with ⟨pre, rest⟩
        refine ⟨h1, fun o ho ho' he => ?_⟩
        obtain ⟨r', g1, g2⟩ := fin o ho ho' he
        cases g2
        rw [g1]
        dsimp only
        rw [hf]
        exact ⟨rfl, .same _⟩
      | _ =>
        refine ⟨h1, fun o ho ho' he => ?_⟩
        obtain ⟨r', g1, g2⟩ := fin o ho ho' he
        cases g2
        rw [g1]
        dsimp only
        rw [hf]
        exact ⟨rfl, .same _⟩
    | err e =>
      refine ⟨h1, fun o ho ho' he => ?_⟩
      obtain ⟨r', g1, g2⟩ := fin o ho ho' he
      rw [g1]
      cases g2 with
      | same => exact ⟨rfl, .same _⟩
      | err _ e' i1 i2 => exact ⟨rfl, .err _ _ i1 i2⟩
    | _ =>
      refine ⟨h1, fun o ho ho' he => ?_⟩
      obtain ⟨r', g1, g2⟩ := fin o ho ho' he
      rw [g1]
      cases g2
      exact ⟨rfl, .same _⟩

theorem evals_reorder {ext : Ext} {ns : List PNode} {s t : St} {r : Res (List PNode)} (h : Evals ext ns s r t)
    {o : Order} (ho : Fair s.order) (ho' : Fair o) (hh : t.hashes = s.hashes) :
    ∃ r', Evals ext ns (s.reorder o) r' (t.reorder o) ∧ SameRes r r' := by
  obtain ⟨hr, f, hf⟩ := h
  obtain ⟨_, h2⟩ := expandNodes_run_closed indep_closed ext f ns s
  rw [hf] at h2
  obtain ⟨j1, j2⟩ := h2 o ho ho' hh
  refine ⟨_, ⟨?_, f, Prod.ext rfl j1⟩, j2⟩
  intro hd
  have j2 : SameRes r .diverge := hd ▸ j2
  cases j2
  exact hr rfl

/-! ## Patterns without `&&` -/

/-- The computation iterates no hash map. -/
def Quiet {α : Type} (m : M α) : Prop := ∀ s, (m s).2.hashes = s.hashes

theorem Quiet.bind {α β : Type} {m : M α} {f : α → M β} (hm : Quiet m) (hf : ∀ a, Quiet (f a)) : Quiet (m >>= f) := by
  intro s
  have h := hm s
  rw [M.bind_def]
  rcases hms : m s with ⟨r, t⟩
  rw [hms] at h
  cases r with
  | ok a => exact (hf a t).trans h
  | _ => exact h

theorem quiet_lift {α : Type} (r : Res α) : Quiet (M.lift r) := fun _ => rfl
theorem quiet_define (name : Str) (m : Macro) : Quiet (M.define name m) := fun _ => rfl

theorem quiet_bindNamed : ∀ (lhs rhs : List (Str × PNode)), Quiet (bindNamed rhs lhs)
  | [], _ => quiet_lift _
  | (_, _) :: lhs, rhs => by
    unfold bindNamed
    exact Quiet.bind (quiet_define _ _) fun _ => quiet_bindNamed lhs _

theorem quiet_bindEnd (acc : BindAcc) (ha : acc.kwRest = none) (vs : List PNode) : Quiet (bindEnd acc vs) := by
  have hend : ∀ rhs : List (Str × PNode), Quiet (if rhs.isEmpty then pure ()
        else do
          let entry ← M.firstEntry rhs
          match entry with
          | some (_, n) => M.fail "Unknown excess keywords provided." n.site
          | none => M.panic : M Unit) := by
    intro rhs
    split
    · exact quiet_lift _
    · refine Quiet.bind (fun _ => rfl) fun e => ?_
      split <;> exact quiet_lift _
  unfold bindEnd
  rw [ha]
  rcases takeRest acc.rhs vs with ⟨rhs, rest⟩
  dsimp only
  split
  · exact Quiet.bind (quiet_define _ _) fun _ => Quiet.bind (quiet_bindNamed _ _) hend
  · exact Quiet.bind (quiet_lift _) fun _ => Quiet.bind (quiet_bindNamed _ _) hend
  · exact Quiet.bind (quiet_bindNamed _ _) hend

theorem isKwRest_false {p : PNode} (h : NoKwRest p) : isKwRest p = false := by
  cases h with
  | symbol n h =>
    simp only [isKwRest, PNode.symbol?, startsWith]
    cases hv : n.value with
    | nil => rfl
    | cons c v =>
      cases v with
      | nil => simp [List.isPrefixOf]
      | cons d v =>
        by_cases hc : c = '&'
        · by_cases hd : d = '&'
          · subst hc; subst hd; exact absurd hv (h v)
          · simp [List.isPrefixOf, Ne.symm hd]
        · simp [List.isPrefixOf, Ne.symm hc]
  | _ => rfl

mutual
theorem quiet_bind : ∀ (p : PNode), NoKwRest p → ∀ v, Quiet (bind p v)
  | .attr k0 n0 _ _, h, v => by
    cases h with
    | attr _ _ _ _ h =>
      have hrec := quiet_bind n0 h
      unfold bind
      split
      · split
        · exact hrec _
        · exact quiet_lift _
      · exact quiet_lift _
  | .list ns0 _ _ _, h, v => by
    cases h with
    | list _ _ _ _ h =>
      unfold bind
      split
      · exact quiet_bindLoop ns0 h _ _ rfl _
      · exact quiet_lift _
  | .symbol a, _, v => by unfold bind; exact quiet_define _ _
  | .number a, _, v => by
    unfold bind
    repeat' split
    all_goals exact quiet_lift _
  | .string a, _, v => by
    unfold bind
    repeat' split
    all_goals exact quiet_lift _
  | .raw a, _, v => by
    unfold bind
    repeat' split
    all_goals exact quiet_lift _
theorem quiet_bindLoop : ∀ (ps : List PNode), NoKwRests ps → ∀ (assigned : PNode) (acc : BindAcc),
    acc.kwRest = none → ∀ vs, Quiet (bindLoop assigned acc ps vs)
  | [], _, assigned, acc, ha, vs => by unfold bindLoop; exact quiet_bindEnd acc ha vs
  | p :: ps, h, assigned, acc, ha, vs => by
    cases h with
    | cons _ _ hp hps =>
      have h1 := quiet_bind p hp
      have h2 := quiet_bindLoop ps hps
      have h3 := isKwRest_false hp
      cases p <;> simp only [bindLoop, h3, Bool.false_eq_true, if_false]
      case attr => exact h2 _ _ (by exact ha) _
      all_goals
        split
        · split
          · exact h2 _ _ (by exact ha) _
          · exact quiet_lift _
        · split
          · exact quiet_lift _
          · exact Quiet.bind (h1 _) fun _ => h2 _ _ (by exact ha) _
end

end Seam
