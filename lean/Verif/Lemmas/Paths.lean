import Verif.Lemmas.Cli
import Verif.Lemmas.Glob
import Verif.Spec.Paths

/-! The components of a path. -/

namespace Seam
open Spec

theorem restComps_eq : ∀ ps, restComps ps = ps.filterMap pieceOf
  | [] => rfl
  | p :: ps => by
    rw [restComps, restComps_eq ps, List.filterMap_cons, pieceOf]
    by_cases h : p = [] ∨ p = ['.']
    · rw [if_pos h, if_pos h]
    · rw [if_neg h, if_neg h]
      split <;> rfl

theorem slashPieces_acc : ∀ (s acc : Str), ∃ p ps, slashPieces [] s = p :: ps ∧ slashPieces acc s = (acc ++ p) :: ps
  | [], acc => ⟨[], [], rfl, by simp [slashPieces]⟩
  | c :: cs, acc => by
    by_cases hc : c == '/'
    · refine ⟨[], slashPieces [] cs, ?_, ?_⟩ <;> rw [slashPieces, if_pos hc]
      rw [List.append_nil]
    · obtain ⟨p, ps, h1, h2⟩ := slashPieces_acc cs [c]
      obtain ⟨p', ps', h1', h3⟩ := slashPieces_acc cs (acc ++ [c])
      rw [h1] at h1'
      cases h1'
      refine ⟨c :: p, ps, ?_, ?_⟩
      · rw [slashPieces, if_neg hc]; exact h2
      · rw [slashPieces, if_neg hc, h3]; simp

theorem slashPieces_slash (s : Str) : slashPieces [] ('/' :: s) = [] :: slashPieces [] s := by
  rw [slashPieces]; rfl

theorem slashPieces_front : ∀ (p acc s : Str), '/' ∉ p → slashPieces acc (p ++ s) = slashPieces (acc ++ p) s
  | [], acc, s, _ => by simp
  | c :: p, acc, s, h => by
    have hc : (c == '/') = false := by
      simp only [beq_eq_false_iff_ne]
      exact fun e => h (e ▸ List.mem_cons_self)
    rw [List.cons_append, slashPieces, hc]
    show slashPieces (acc ++ [c]) (p ++ s) = _
    rw [slashPieces_front p _ s (fun hm => h (List.mem_cons_of_mem _ hm))]
    simp

theorem slashPieces_join : ∀ (ps : List Str), ps ≠ [] → (∀ p ∈ ps, '/' ∉ p) → slashPieces [] (joinPieces ps) = ps
  | [], h, _ => (h rfl).elim
  | [p], _, h => by
    rw [joinPieces, slashPieces_plain p [] (h p (by simp))]
    rfl
  | p :: q :: ps, _, h => by
    rw [joinPieces, slashPieces_front p _ _ (h p (by simp)), List.nil_append, slashPieces]
    show p :: slashPieces [] _ = _
    rw [slashPieces_join (q :: ps) (by simp) (fun x hx => h x (List.mem_cons_of_mem _ hx))]
    simp

theorem join_slashPieces : ∀ s : Str, joinPieces (slashPieces [] s) = s ∧ slashPieces [] s ≠ [] ∧ ∀ p ∈ slashPieces [] s, '/' ∉ p
  | [] => ⟨rfl, by simp [slashPieces], by simp [slashPieces]⟩
  | c :: cs => by
    obtain ⟨h1, h2, h3⟩ := join_slashPieces cs
    by_cases hc : c = '/'
    · subst hc
      rw [slashPieces_slash]
      refine ⟨?_, by simp, ?_⟩
      · generalize slashPieces [] cs = l at h1 h2
        cases l with
        | nil => exact (h2 rfl).elim
        | cons p ps => rw [joinPieces, h1]; rfl; simp
      · intro p hp
        rcases List.mem_cons.1 hp with rfl | hp
        · simp
        · exact h3 p hp
    · have hc' : (c == '/') = false := by simpa using hc
      obtain ⟨p, ps, g1, g2⟩ := slashPieces_acc cs [c]
      have e : slashPieces [] (c :: cs) = (c :: p) :: ps := by
        rw [slashPieces, hc']; exact g2
      rw [e]
      rw [g1] at h1 h3
      refine ⟨?_, by simp, ?_⟩
      · cases ps with
        | nil => rw [joinPieces] at h1 ⊢; rw [h1]
        | cons q ps => rw [joinPieces] at h1 ⊢; rw [← h1]; rfl; simp; simp
      · intro q hq
        rcases List.mem_cons.1 hq with rfl | hq
        · intro hm
          rcases List.mem_cons.1 hm with h | h
          · exact hc h.symm
          · exact h3 p (by simp) h
        · exact h3 q (List.mem_cons_of_mem _ hq)

/-- The model's components are those of the specification. -/
theorem pathOf_iff (s : Str) (c : List PComp) : PathOf s c ↔ pathComps s = c := by
  constructor
  · intro h
    cases h with
    | empty => rfl
    | root ps hp hs =>
      unfold pathComps
      rw [slashPieces_slash, slashPieces_join ps hp hs]
      show PComp.root :: restComps ps = _
      rw [restComps_eq]
    | cur ps hs =>
      unfold pathComps
      rw [slashPieces_join _ (by simp) (fun p hp => by
        rcases List.mem_cons.1 hp with rfl | hp
        · decide
        · exact hs p hp)]
      have : (joinPieces (str! "." :: ps)).isEmpty = false := by cases ps <;> rfl
      simp [this, restComps_eq]
    | rel p ps h1 h2 hs =>
      unfold pathComps
      rw [slashPieces_join _ (by simp) hs]
      have : (joinPieces (p :: ps)).isEmpty = false := by
        cases p with
        | nil => exact (h1 rfl).elim
        | cons x p => cases ps <;> rfl
      simp only [this, if_neg h1, if_neg h2, restComps_eq]
      rfl
  · rintro rfl
    obtain ⟨h1, h2, h3⟩ := join_slashPieces s
    cases s with
    | nil => exact .empty
    | cons x s =>
      unfold pathComps
      generalize hl : slashPieces [] (x :: s) = l at h1 h2 h3
      cases l with
      | nil => exact (h2 rfl).elim
      | cons p ps =>
        show PathOf _ (if p = [] then _ else if p = ['.'] then _ else _)
        by_cases hp : p = []
        · rw [if_pos hp, restComps_eq]
          subst hp
          cases ps with
          | nil => rw [joinPieces] at h1; cases h1
          | cons q ps =>
            rw [joinPieces] at h1
            · rw [← h1]
              exact .root _ (by simp) fun p hp => h3 p (List.mem_cons_of_mem _ hp)
            · simp
        · rw [if_neg hp]
          by_cases hd : p = ['.']
          · rw [if_pos hd, restComps_eq, ← h1, hd]
            exact .cur _ fun p hp => h3 p (List.mem_cons_of_mem _ hp)
          · rw [if_neg hd, restComps_eq, ← h1]
            exact .rel p ps hp hd h3

theorem pathBefore_iff (a b : Str) : PathBefore a b ↔ pathCmp a b = .lt := by
  unfold PathBefore pathCmp
  simp only [pathOf_iff, ← pathLt_iff]
  exact ⟨fun ⟨p, q, h1, h2, h3⟩ => h1 ▸ h2 ▸ h3, fun h => ⟨_, _, rfl, rfl, h⟩⟩

theorem samePath_iff (a b : Str) : SamePath a b ↔ pathCmp a b = .eq := by
  unfold SamePath pathCmp
  simp only [pathOf_iff, compsCmp_eq]
  exact ⟨fun ⟨p, h1, h2⟩ => h1.trans h2.symm, fun h => ⟨_, rfl, h.symm⟩⟩

end Seam
