import Verif.Lemmas.Bind
import Verif.Lemmas.Macros

/-! Calls of user macros, `%for` and `%match`. -/

namespace Seam
open Spec

/-! ## Binding has no effect except on the scope -/

/-- Nothing is printed and no file is read. -/
def Silent {α : Type} (m : M α) : Prop :=
  ∀ s, (m s).2.log = s.log ∧ (m s).2.fresh = s.fresh ∧ (m s).2.order = s.order

theorem Silent.bind {α β : Type} {m : M α} {f : α → M β} (hm : Silent m) (hf : ∀ a, Silent (f a)) : Silent (m >>= f) := by
  intro s
  have h := hm s
  rw [M.bind_def]
  rcases hms : m s with ⟨r, t⟩
  rw [hms] at h
  cases r with
  | ok a => exact ⟨(hf a t).1.trans h.1, (hf a t).2.1.trans h.2.1, (hf a t).2.2.trans h.2.2⟩
  | _ => exact h

theorem silent_lift {α : Type} (r : Res α) : Silent (M.lift r) := fun _ => ⟨rfl, rfl, rfl⟩
theorem silent_define (name : Str) (m : Macro) : Silent (M.define name m) := fun _ => ⟨rfl, rfl, rfl⟩

theorem silent_bindNamed : ∀ (lhs rhs : List (Str × PNode)), Silent (bindNamed rhs lhs)
  | [], _ => silent_lift _
  | (_, _) :: lhs, rhs => by
    unfold bindNamed
    exact Silent.bind (silent_define _ _) fun _ => silent_bindNamed lhs _

theorem silent_bindEnd (acc : BindAcc) (vs : List PNode) : Silent (bindEnd acc vs) := by
  have hend : ∀ rhs : List (Str × PNode), Silent (match acc.kwRest with
      | some name => do
        let entries ← M.iterate rhs
        M.define (name.drop 2) (Macro.var (entries.map (·.2)))
      | none =>
        if rhs.isEmpty then pure ()
        else do
          let entry ← M.firstEntry rhs
          match entry with
          | some (_, n) => M.fail "Unknown excess keywords provided." n.site
          | none => M.panic) := by
    intro rhs
    split
    · exact Silent.bind (fun _ => ⟨rfl, rfl, rfl⟩) fun _ => silent_define _ _
    · split
      · exact silent_lift _
      · refine Silent.bind (fun _ => ⟨rfl, rfl, rfl⟩) fun e => ?_
        split <;> exact silent_lift _
  unfold bindEnd
  rcases takeRest acc.rhs vs with ⟨rhs, rest⟩
  dsimp only
  split
  · exact Silent.bind (silent_define _ _) fun _ => Silent.bind (silent_bindNamed _ _) hend
  · exact Silent.bind (silent_lift _) fun _ => Silent.bind (silent_bindNamed _ _) hend
  · exact Silent.bind (silent_bindNamed _ _) hend

mutual
theorem silent_bind : ∀ (p v : PNode), Silent (bind p v)
  | .attr k0 n0 _ _, v => by
    have hrec := silent_bind n0
    unfold bind
    repeat' split
    all_goals first | exact hrec _ | exact silent_lift _
  | .list ns0 _ _ _, v => by
    have hrec := silent_bindLoop ns0
    unfold bind
    repeat' split
    all_goals first | exact hrec _ _ _ | exact silent_lift _
  | .symbol a, v => by unfold bind; exact silent_define _ _
  | .number a, v => by
    unfold bind
    repeat' split
    all_goals exact silent_lift _
  | .string a, v => by
    unfold bind
    repeat' split
    all_goals exact silent_lift _
  | .raw a, v => by
    unfold bind
    repeat' split
    all_goals exact silent_lift _
theorem silent_bindLoop : ∀ (ps : List PNode) (assigned : PNode) (acc : BindAcc) (vs : List PNode),
    Silent (bindLoop assigned acc ps vs)
  | [], assigned, acc, vs => by unfold bindLoop; exact silent_bindEnd acc vs
  | p :: ps, assigned, acc, vs => by
    have h1 := silent_bind p
    have h2 := silent_bindLoop ps
    cases p <;> simp only [bindLoop]
    case attr => exact h2 _ _ _
    all_goals
      repeat' split
      all_goals first | exact h2 _ _ _ | exact silent_lift _ | exact Silent.bind (h1 _) fun _ => h2 _ _ _
end

theorem bindList_cases (call : PNode) (ps vs : List PNode) (s : St) (hf : Fair s.order) :
    (∃ t, bindList call ps vs s = (.ok (), t) ∧ MatchesList ps vs s.scope t.scope ∧ SameEffects s t) ∨
    (∃ e t, bindList call ps vs s = (.err e, t) ∧ (∀ sc', ¬ MatchesList ps vs s.scope sc') ∧ SameEffects s t) := by
  have hs := silent_bindLoop ps call BindAcc.init vs s
  rcases bindLoop_total ps call BindAcc.init vs s hf with ⟨t, ht⟩ | ⟨e, t, ht⟩
  · rw [ht] at hs
    exact Or.inl ⟨t, ht, bindList_sound (binds_sound ps) vs hf ht, hs⟩
  · rw [ht] at hs
    refine Or.inr ⟨e, t, ht, fun sc' h => ?_, hs⟩
    obtain ⟨t', ht'⟩ := bindList_complete call (binds_complete ps) h s hf
    rw [ht] at ht'
    cases ht'

theorem bind_cases (p v : PNode) (s : St) (hf : Fair s.order) :
    (∃ t, bind p v s = (.ok (), t) ∧ Matches p v s.scope t.scope ∧ SameEffects s t) ∨
    (∃ e t, bind p v s = (.err e, t) ∧ (∀ sc', ¬ Matches p v s.scope sc') ∧ SameEffects s t) := by
  have hs := silent_bind p v s
  rcases bind_total p v s hf with ⟨t, ht⟩ | ⟨e, t, ht⟩
  · rw [ht] at hs
    exact Or.inl ⟨t, ht, bind_sound p v s t hf ht, hs⟩
  · rw [ht] at hs
    refine Or.inr ⟨e, t, ht, fun sc' h => ?_, hs⟩
    obtain ⟨t', ht'⟩ := bind_complete p v _ sc' s hf h
    rw [ht] at ht'
    cases ht'

/-! ## User macros -/

theorem userMacro_eq (rec : Rec) (name : Str) (call : PNode) (args vs : List PNode) (s u : St) (m : Macro)
    (ha : expandNodes rec args s = (.ok vs, u)) (hm : u.scope name = some m) :
    userMacro rec name call args s = M.inner (bindList call m.params vs >>= fun _ => expandNodes rec m.body) u := by
  unfold userMacro
  rw [M.bind_ok ha, M.bind_ok (M.lookup_def name u), hm]

/-- A call of a user macro whose arguments have been bound is the expansion of its
body. -/
theorem evals_user_ok {ext : Ext} {name : Str} {args vs : List PNode} {c : PNode} (hc : IsCall name args c)
    (hb : builtin? name = none) {s u v : St} {m : Macro} (ha : Evals ext args s (.ok vs) u)
    (hm : u.scope name = some m) (hbd : bindList c m.params vs u = (.ok (), v)) {r : Res (List PNode)} {t : St}
    (h : Evals ext m.body v r t) : Evals ext [c] s r { t with scope := u.scope } := by
  refine evals_user hc hb h.1 ((ha.ev.and h.ev).mono fun f hf => ?_)
  rw [userMacro_eq _ _ _ _ _ _ _ _ hf.1 hm, M.inner_def, M.bind_ok hbd, hf.2]

theorem evals_user_ok_inv {ext : Ext} {name : Str} {args vs : List PNode} {c : PNode} (hc : IsCall name args c)
    (hb : builtin? name = none) {s u v : St} {m : Macro} (ha : Evals ext args s (.ok vs) u)
    (hm : u.scope name = some m) (hbd : bindList c m.params vs u = (.ok (), v)) {r : Res (List PNode)} {t : St}
    (h : Evals ext [c] s r t) : ∃ t', Evals ext m.body v r t' ∧ t = { t' with scope := u.scope } := by
  obtain ⟨f, hf⟩ := evals_user_inv hc hb h
  obtain ⟨g, hg⟩ := ha.ev
  have hk := (evals_call hc).1 h
  obtain ⟨k, hk⟩ := hk.ev
  have h1 := hk (max g k + 1) (by omega)
  have h2 := hg (max g k) (by omega)
  simp only [run, step, expandInvocation, hb] at h1
  rw [userMacro_eq _ _ _ _ _ _ _ _ h2 hm, M.inner_def, M.bind_ok hbd] at h1
  obtain ⟨h3, h4⟩ := Prod.mk.inj h1
  exact ⟨_, ⟨h.1, max g k, Prod.ext h3 rfl⟩, h4.symm⟩

theorem evals_user_err {ext : Ext} {name : Str} {args vs : List PNode} {c : PNode} (hc : IsCall name args c)
    (hb : builtin? name = none) {s u v : St} {m : Macro} {e : Err} (ha : Evals ext args s (.ok vs) u)
    (hm : u.scope name = some m) (hbd : bindList c m.params vs u = (.err e, v)) :
    Evals ext [c] s (.err e) { v with scope := u.scope } := by
  refine evals_user hc hb (by simp) (ha.ev.mono fun f hf => ?_)
  rw [userMacro_eq _ _ _ _ _ _ _ _ hf hm, M.inner_def, M.bind_err hbd]

/-! ## Consequences of matching -/

theorem evals_fair {ext : Ext} {ns : List PNode} {s t : St} {r : Res (List PNode)} (h : Evals ext ns s r t)
    (hf : Fair s.order) : Fair t.order := by
  rw [(evals_keeps advances_rel h).2.2.2]
  exact hf

theorem nameParams_plain {ps : List PNode} {xs : List Str} (h : NameParams ps xs) :
    plainParams ps = ps ∧ restNames ps = [] ∧ kwRestNames ps = [] ∧ (∀ k, lastNamed k ps = none) ∧ ps.length = xs.length := by
  induction h with
  | nil => exact ⟨rfl, rfl, rfl, fun _ => rfl, rfl⟩
  | cons a ps xs ha _ ih =>
    have h1 : restName? (.symbol a) = none := by
      cases hr : restName? (.symbol a) with
      | none => rfl
      | some r =>
        exact absurd (restOf_some (v := a.value) hr).1 (ha _)
    have h2 : kwRestName? (.symbol a) = none := by
      cases hr : kwRestName? (.symbol a) with
      | none => rfl
      | some r => exact absurd (kwRestOf_some (v := a.value) hr) (ha _)
    refine ⟨by simp [plainParams, h1, h2, ih.1], ?_, ?_, ih.2.2.2.1, by simp [ih.2.2.2.2]⟩
    · show List.filterMap restName? (.symbol a :: ps) = []
      rw [List.filterMap_cons, h1]; exact ih.2.1
    · show List.filterMap kwRestName? (.symbol a :: ps) = []
      rw [List.filterMap_cons, h2]; exact ih.2.2.1

theorem matchesEach_names {ps : List PNode} {xs : List Str} (h : NameParams ps xs) : ∀ {vs : List PNode} {sc sc' : Scope},
    MatchesEach ps vs sc sc' → vs.length = xs.length ∧ (xs.Nodup → (∀ (i : Nat) x v, xs[i]? = some x → vs[i]? = some v →
      sc' x = some { params := [], body := [v] })) ∧ ∀ y, y ∉ xs → sc' y = sc y := by
  induction h with
  | nil =>
    intro vs sc sc' h
    cases h
    exact ⟨rfl, fun _ i x v h => by simp at h, fun _ _ => rfl⟩
  | cons a ps xs ha hn ih =>
    intro vs sc sc' h
    cases h with
    | cons _ v _ vs _ sc₁ _ h1 h2 =>
      obtain ⟨h3, h4, h5⟩ := ih h2
      cases h1 with
      | string _ _ _ _ _ h => rcases h with h | h <;> cases h
      | symbol =>
        refine ⟨by simp [h3], fun hd i x w hi hv => ?_, fun y hy => ?_⟩
        · rw [List.nodup_cons] at hd
          cases i with
          | zero =>
            simp at hi hv
            subst hi hv
            rw [h5 _ hd.1]
            simp [bound]
          | succ i =>
            simp at hi hv
            exact h4 hd.2 i x w hi hv
        · rw [List.mem_cons, not_or] at hy
          rw [h5 y hy.2]
          simp [bound, hy.1]

theorem matchesEach_names_exists {ps : List PNode} {xs : List Str} (h : NameParams ps xs) : ∀ {vs : List PNode} (sc : Scope),
    vs.length = xs.length → ∃ sc', MatchesEach ps vs sc sc' := by
  induction h with
  | nil =>
    intro vs sc h
    cases vs with
    | nil => exact ⟨sc, .nil sc⟩
    | cons => simp at h
  | cons a ps xs ha hn ih =>
    intro vs sc h
    cases vs with
    | nil => simp at h
    | cons v vs =>
      obtain ⟨sc', h'⟩ := ih (vs := vs) (bound sc a.value [v]) (by simpa using h)
      exact ⟨sc', .cons _ _ _ _ _ _ _ (.symbol a v sc) h'⟩

theorem positional_noNamed {vs : List PNode} (h : NoNamed vs) : positional vs = vs ∧ ∀ k, lastNamed k vs = none := by
  induction vs with
  | nil => exact ⟨rfl, fun _ => rfl⟩
  | cons v vs ih =>
    obtain ⟨h1, h2⟩ := ih fun w hw => h w (List.mem_cons_of_mem _ hw)
    have hv := h v (List.mem_cons_self ..)
    cases v <;> simp [PNode.attribute?] at hv <;> exact ⟨by simp [positional, h1], by simpa [lastNamed] using h2⟩

theorem lastNamed_of_mem {k : Str} {n : PNode} {s : Site} {w : Str} : ∀ {vs : List PNode}, .attr k n s w ∈ vs →
    lastNamed k vs ≠ none
  | [], h => by simp at h
  | v :: vs, h => by
    rcases List.mem_cons.1 h with rfl | h
    · simp only [lastNamed, if_true]
      cases lastNamed k vs <;> simp
    · have ih := lastNamed_of_mem h
      cases v with
      | attr k' v' _ _ =>
        simp only [lastNamed]
        cases hl : lastNamed k vs with
        | none => exact absurd hl ih
        | some => simp
      | _ => exact ih

theorem noNamed_iff {vs : List PNode} : NoNamed vs ↔ ∀ k, lastNamed k vs = none := by
  refine ⟨fun h => (positional_noNamed h).2, fun h v hv => ?_⟩
  cases v with
  | attr k n s w => exact absurd (h k) (lastNamed_of_mem hv)
  | _ => rfl

theorem matchesEach_length {ps vs : List PNode} {sc sc' : Scope} (h : MatchesEach ps vs sc sc') : vs.length = ps.length := by
  have : ∀ (ps vs : List PNode) (sc sc' : Scope), MatchesEach ps vs sc sc' → vs.length = ps.length := by
    intro ps
    induction ps with
    | nil => intro vs sc sc' h; cases h; rfl
    | cons p ps ih =>
      intro vs sc sc' h
      cases h with
      | cons _ _ _ _ _ _ _ _ h => simp [ih _ _ _ h]
  exact this ps vs sc sc' h

theorem lastAttr_named (k : Str) (vs : List PNode) :
    lastNamed k vs = (lastAttr k vs).bind fun n => n.attribute?.map (·.2) := by
  cases h : lastAttr k vs with
  | none => exact lastAttr_none.1 h
  | some n =>
    obtain ⟨v, s, w, rfl, hv⟩ := lastAttr_form k h
    rw [hv]
    rfl

end Seam
