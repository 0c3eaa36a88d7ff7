import Verif.Lemmas.Control
import Verif.Spec.Pairs

/-! Consequences of the descriptions of `%match`, `%for` and user macros. -/

namespace Seam
open Spec

theorem Spec.SameEffects.trans {s t u : St} (h : SameEffects s t) (h' : SameEffects t u) : SameEffects s u :=
  ⟨h'.1.trans h.1, h'.2.1.trans h.2.1, h'.2.2.trans h.2.2⟩

/-- A clause without macros that does not match is passed over. -/
theorem chooses_miss_iff {ext : Ext} {e p : PNode} {body ps : List PNode} {si : Site} {en : Token} {w : Str} {u v : St}
    (hf : Fair u.order) (hp : MacroFree p) (h : Rejects p e u v) {r : Res (List PNode)} {t : St} :
    Chooses ext e (.list (p :: body) si en w :: ps) u r t ↔ Chooses ext e ps v r t := by
  have hx := macroFree_evals ext p hp u
  constructor
  · intro hs
    cases hs with
    | hit _ q _ _ _ _ _ _ u' v' _ _ h1 h2 h3 =>
      obtain ⟨h4, rfl⟩ := hx.unique h1
      cases h4
      exact absurd (binds_matches hf h2).1 ((rejects_matches hf h).1 _)
    | miss _ q _ _ _ _ _ _ u' v' _ _ h1 h2 h3 =>
      obtain ⟨h4, rfl⟩ := hx.unique h1
      cases h4
      obtain ⟨e1, t1, g1, rfl⟩ := h
      obtain ⟨e2, t2, g2, rfl⟩ := h2
      obtain ⟨_, rfl⟩ := Prod.mk.inj (g1.symm.trans g2)
      exact h3
    | notOne _ qs _ _ _ _ _ _ _ _ h1 h2 =>
      obtain ⟨h4, _⟩ := hx.unique h1
      cases h4
      simp at h2
    | failed _ _ _ _ _ _ _ _ _ h1 h2 => exact absurd (hx.unique h1).1.symm (h2 _)
    | notList _ _ _ _ h => simp [PNode.list?] at h
  · intro hs
    exact .miss _ _ _ _ _ _ _ _ _ _ _ _ hx h hs

/-- A clause without macros that matches is taken. -/
theorem chooses_hit_iff {ext : Ext} {e p : PNode} {body ps : List PNode} {si : Site} {en : Token} {w : Str} {u v : St}
    (hf : Fair u.order) (hp : MacroFree p) (h : Binds p e u v) {r : Res (List PNode)} {t : St} :
    Chooses ext e (.list (p :: body) si en w :: ps) u r t ↔
      ∃ t', Evals ext body v r t' ∧ t = { t' with scope := u.scope } := by
  have hx := macroFree_evals ext p hp u
  constructor
  · intro hs
    cases hs with
    | hit _ q _ _ _ _ _ _ u' v' _ _ h1 h2 h3 =>
      obtain ⟨h4, rfl⟩ := hx.unique h1
      cases h4
      obtain ⟨_, rfl⟩ := Prod.mk.inj (h.symm.trans h2)
      exact ⟨_, h3, rfl⟩
    | miss _ q _ _ _ _ _ _ u' v' _ _ h1 h2 h3 =>
      obtain ⟨h4, rfl⟩ := hx.unique h1
      cases h4
      exact absurd (binds_matches hf h).1 ((rejects_matches hf h2).1 _)
    | notOne _ qs _ _ _ _ _ _ _ _ h1 h2 =>
      obtain ⟨h4, _⟩ := hx.unique h1
      cases h4
      simp at h2
    | failed _ _ _ _ _ _ _ _ _ h1 h2 => exact absurd (hx.unique h1).1.symm (h2 _)
    | notList _ _ _ _ h => simp [PNode.list?] at h
  · rintro ⟨t', h', rfl⟩
    exact .hit _ _ _ _ _ _ _ _ _ _ _ _ hx h h'

theorem chooses_skip {ext : Ext} {e : PNode} : ∀ (before later : List PNode) (u : St), Fair u.order →
    (∀ cl ∈ before, ∃ q b si en w, cl = .list (q :: b) si en w ∧ MacroFree q ∧ ∀ sc', ¬ Matches q e u.scope sc') →
    ∃ u', u'.scope = u.scope ∧ SameEffects u u' ∧
      ∀ r t, Chooses ext e (before ++ later) u r t ↔ Chooses ext e later u' r t
  | [], later, u, _, _ => ⟨u, rfl, ⟨rfl, rfl, rfl⟩, fun _ _ => Iff.rfl⟩
  | cl :: before, later, u, hf, hb => by
    obtain ⟨q, b, si, en, w, rfl, hq, hm⟩ := hb cl (by simp)
    rcases binds_or_rejects q e u hf with ⟨v, _, h, _⟩ | ⟨v, h, _, hs, he⟩
    · exact absurd h (hm _)
    · have hv : Fair v.order := by rw [he.2.2]; exact hf
      obtain ⟨u', h1, h2, h3⟩ := chooses_skip before later v hv (fun cl hcl => by
        rw [hs]; exact hb cl (by simp [hcl]))
      refine ⟨u', h1.trans hs, he.trans h2, fun r t => ?_⟩
      rw [List.cons_append, chooses_miss_iff hf hq h, h3]

theorem chooses_scope {ext : Ext} {e : PNode} {ps : List PNode} {s t : St} {r : Res (List PNode)}
    (h : Chooses ext e ps s r t) : Fair s.order →
    (∀ p body si en w, .list (p :: body) si en w ∈ ps → MacroFree p) → t.scope = s.scope := by
  induction h with
  | none s => intros; rfl
  | hit p p' body ps si en w s u v t r h1 h2 h3 =>
    intro hf hp
    obtain ⟨_, rfl⟩ := (macroFree_evals ext p (hp p body si en w (by simp)) s).unique h1
    rfl
  | miss p p' body ps si en w s u v t r h1 h2 h3 ih =>
    intro hf hp
    obtain ⟨_, rfl⟩ := (macroFree_evals ext p (hp p body si en w (by simp)) s).unique h1
    rw [ih (rejects_fair hf h2) (fun p b a c d hm => hp p b a c d (by simp [hm])), (rejects_matches hf h2).2.1]
  | notOne p qs body ps si en w s u er h1 =>
    intro hf hp
    rw [((macroFree_evals ext p (hp p body si en w (by simp)) s).unique h1).2]
  | failed p body ps si en w s u r h1 =>
    intro hf hp
    rw [((macroFree_evals ext p (hp p body si en w (by simp)) s).unique h1).2]
  | empty => intros; rfl
  | notList => intros; rfl

theorem loops_chunks {ext : Ext} {it : PNode} {body : List PNode} {xs : List PNode} {s t : St} {out : List PNode}
    (hf : Fair s.order) (h : Loops ext it body xs s (.ok out) t) : ∃ chunks : List (List PNode), out = chunks.flatten ∧
      Pairs (fun y chunk => ∃ s₁ s₂ s₃ : St, Matches it y s₁.scope s₂.scope ∧ Evals ext body s₂ (.ok chunk) s₃) xs chunks := by
  suffices H : ∀ r, Loops ext it body xs s r t → ∀ out, r = .ok out → ∃ chunks : List (List PNode), out = chunks.flatten ∧
      Pairs (fun y chunk => ∃ s₁ s₂ s₃ : St, Matches it y s₁.scope s₂.scope ∧ Evals ext body s₂ (.ok chunk) s₃) xs chunks from
    H _ h _ rfl
  clear h
  intro r h
  induction h with
  | done s => intro out ho; cases ho; exact ⟨[], rfl, .nil⟩
  | item x xs as s u v t r h1 h2 h3 ih =>
    intro out ho
    cases r with
    | ok bs =>
      cases ho
      obtain ⟨cs, rfl, hcs⟩ := ih (evals_fair h2 (binds_fair hf h1)) bs rfl
      exact ⟨as :: cs, rfl, .cons ⟨s, u, v, (binds_matches hf h1).1, h2⟩ hcs⟩
    | _ => cases ho
  | failed x xs s u t r h1 h2 h3 => intro out ho; exact absurd ho (h3 _)
  | mismatch => intro out ho; cases ho

/-- After a call of a user macro the scope is the one after the arguments. -/
theorem user_scope {ext : Ext} {name : Str} {c : PNode} {args : List PNode} {s t : St} {r : Res (List PNode)}
    (h : Runs ext (fun rec => userMacro rec name c args) s r t) : ∃ q u, Evals ext args s q u ∧ t.scope = u.scope := by
  obtain ⟨hr, f, h⟩ := h
  unfold userMacro at h
  rcases M.bind_cases h with ⟨vs, u, h1, h2⟩ | ⟨e, h1, rfl⟩ | ⟨h1, rfl⟩ | ⟨h1, rfl⟩
  · refine ⟨_, u, ⟨by simp, f, h1⟩, ?_⟩
    rw [M.bind_ok (M.lookup_def name u)] at h2
    cases hm : u.scope name with
    | none =>
      rw [hm] at h2
      obtain ⟨_, rfl⟩ := Prod.mk.inj h2
      rfl
    | some m =>
      rw [hm] at h2
      obtain ⟨_, rfl⟩ := Prod.mk.inj ((M.inner_def _ u).symm.trans h2)
      rfl
  · exact ⟨_, t, ⟨by simp, f, h1⟩, rfl⟩
  · exact ⟨_, t, ⟨by simp, f, h1⟩, rfl⟩
  · exact absurd rfl hr

end Seam
