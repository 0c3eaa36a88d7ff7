import Verif.Lemmas.MovedStep
import Verif.Lemmas.Source
import Verif.Lemmas.EvalCheck

/-! Whole runs of the expander on moved trees. -/

namespace Seam
open Spec

theorem sameR_res {S : Site → Site → Prop} {W : Str → Str → Prop} {r r' : Res (List PNode)} (h : SameR S (Laids S W) r r')
    (hd : r ≠ .diverge) : LaidRes S W r r' := by
  cases r <;> cases r' <;> first | exact absurd rfl hd | skip
  all_goals first | exact h.elim | skip
  · exact .ok _ _ h
  · exact .err _ _ h
  · exact .panic

theorem laid_of_sim {ext : Ext} {S : Site → Site → Prop} {W : Str → Str → Prop} [Blanking W] {rec : Rec} {fuel : Nat}
    (hs : SimRec S W rec (run ext fuel))
    {ns ms : List PNode} {s t s' : St} {r : Res (List PNode)} (hm : Laids S W ns ms) (hst : LaidSt S W s t) (hk : ByKeys s.order)
    (hd : r ≠ .diverge) (h : expandNodes rec ns s = (r, s')) :
    ∃ r' t', Evals ext ms t r' t' ∧ LaidRes S W r r' ∧ LaidSt S W s' t' := by
  have hx := expandNodes_sim hs hm s t ⟨hst, hk⟩
  rw [h] at hx
  have hr := sameR_res hx.1 hd
  refine ⟨_, _, ⟨?_, fuel, rfl⟩, hr, (hx.2 hd).1⟩
  intro h
  rw [h] at hr
  cases hr

theorem moved_of_sim {ext : Ext} {S : Site → Site → Prop} {rec : Rec} {fuel : Nat} (hs : SimRec S (· = ·) rec (run ext fuel))
    {ns ms : List PNode} {s t s' : St} {r : Res (List PNode)} (hm : Moveds S ns ms) (hst : MovedSt S s t) (hk : ByKeys s.order)
    (hd : r ≠ .diverge) (h : expandNodes rec ns s = (r, s')) :
    ∃ r' t', Evals ext ms t r' t' ∧ MovedRes S r r' ∧ MovedSt S s' t' := by
  obtain ⟨r', t', h1, h2, h3⟩ := laid_of_sim hs (moveds_laid hm) (movedSt_laid hst) hk hd h
  exact ⟨r', t', h1, laidRes_moved h2, laidSt_moved h3⟩

theorem namedRun_le {ext : Ext} : ∀ fuel, LeRec (namedRun ext fuel) (run ext fuel)
  | 0, c => by
    intro s
    exact .inl rfl
  | fuel + 1, .node n => step_le (namedRun_le fuel) (.node n)
  | fuel + 1, .invoke name call ps => by
    simp only [namedRun]
    split
    · intro s; exact .inl rfl
    · exact step_le (namedRun_le fuel) (.invoke name call ps)

theorem named_evals {ext : Ext} {ns : List PNode} {s s' : St} {r : Res (List PNode)} (h : NamedEvals ext ns s r s') :
    Evals ext ns s r s' := by
  obtain ⟨hd, fuel, h⟩ := h
  refine ⟨hd, fuel, ?_⟩
  rcases expandNodes_le (namedRun_le (ext := ext) fuel) ns s with hx | hx
  · rw [h] at hx; exact absurd hx hd
  · rw [← hx, h]

/-- A finished run without `%lambda` with a given result and a property of the final state. -/
theorem named_ok_of {ext : Ext} {ns : List PNode} {s : St} (fuel : Nat) (p : List PNode → St → Bool)
    (h : (expandNodes (namedRun ext fuel) ns s).1.okP (fun out => p out (expandNodes (namedRun ext fuel) ns s).2) = true) :
    ∃ out t, NamedEvals ext ns s (.ok out) t ∧ p out t = true := by
  obtain ⟨a, h1, h2⟩ := Res.okP_elim h
  exact ⟨a, _, ⟨by simp, fuel, Prod.ext h1 rfl⟩, h2⟩

mutual
theorem Spec.Moved.mono {S T : Site → Site → Prop} (h : ∀ p q, S p q → T p q) : ∀ {n m : PNode}, Moved S n m → Moved T n m
  | _, _, .symbol a b hm => .symbol _ _ ⟨hm.1, hm.2.1, h _ _ hm.2.2⟩
  | _, _, .number a b hm => .number _ _ ⟨hm.1, hm.2.1, h _ _ hm.2.2⟩
  | _, _, .string a b hm => .string _ _ ⟨hm.1, hm.2.1, h _ _ hm.2.2⟩
  | _, _, .raw a b hm => .raw _ _ ⟨hm.1, hm.2.1, h _ _ hm.2.2⟩
  | _, _, .list _ _ _ _ _ _ _ hs h1 h2 h3 => .list _ _ _ _ _ _ _ (Moveds.mono h hs) (h _ _ h1) h2 (h _ _ h3)
  | _, _, .attr _ _ _ _ _ _ hs h1 => .attr _ _ _ _ _ _ (Moved.mono h hs) (h _ _ h1)
theorem Spec.Moveds.mono {S T : Site → Site → Prop} (h : ∀ p q, S p q → T p q) : ∀ {ns ms : List PNode}, Moveds S ns ms → Moveds T ns ms
  | _, _, .nil => .nil
  | _, _, .cons _ _ _ _ h1 h2 => .cons _ _ _ _ (Moved.mono h h1) (Moveds.mono h h2)
end

theorem movedSt_init {S : Site → Site → Prop} (order : Order) : MovedSt S (St.init order) (St.init order) where
  defined _ := Iff.rfl
  scope _ _ _ h := by simp [St.init, Scope.empty] at h
  fresh := .inl rfl
  log := .nil
  hashes := rfl
  order := rfl

theorem byKeys_id : ByKeys (fun _ l => l) := by
  have key : ∀ l : List (Str × PNode), l = (List.range l.length).filterMap (fun k => l[k]?) := by
    intro l
    induction l with
    | nil => rfl
    | cons a l ih =>
      rw [List.length_cons, List.range_succ_eq_map]
      simp only [List.filterMap_cons, List.getElem?_cons_zero, List.filterMap_map]
      congr 1
  intro i l l' h
  refine ⟨List.range l.length, key l, ?_⟩
  have hl : l.length = l'.length := by simpa using congrArg List.length h
  rw [hl]
  exact key l'

end Seam
