import Verif.Lemmas.ExchangeRun
import Verif.Lemmas.Mono
import Verif.Spec.Fold

/-! Programs in which parts were worked out beforehand do the same. -/

namespace Seam
open Spec

theorem watch_below (ext : Ext) (fine : PNode → St → Bool) : CutOf ext (guardRun ext fine) where
  zero _ _ := rfl
  succ f c s := by
    cases c with
    | node n =>
      simp only [guardRun]
      split
      · exact .inr rfl
      · exact .inl rfl
    | invoke name call ps => exact .inr rfl

theorem guardRun_le {ext : Ext} {fine : PNode → St → Bool} : ∀ fuel, LeRec (guardRun ext fine fuel) (run ext fuel)
  | 0, _ => fun _ => .inl rfl
  | fuel + 1, c => by
    intro s
    rcases (watch_below ext fine).succ fuel c s with h | h
    · exact .inl h
    · rw [h]
      exact step_le (guardRun_le fuel) c s

theorem watched_evals {ext : Ext} {fine : PNode → St → Bool} {ns : List PNode} {s t : St} {r : Res (List PNode)}
    (h : Watched ext fine ns s r t) : Evals ext ns s r t := by
  obtain ⟨hd, fuel, h⟩ := h
  refine ⟨hd, fuel, ?_⟩
  rcases expandNodes_le (guardRun_le (ext := ext) (fine := fine) fuel) ns s with hx | hx
  · rw [h] at hx; exact absurd hx hd
  · rw [← hx, h]

/-- The first node of a watched run is fine. -/
theorem watch_fine {ext : Ext} {fine : PNode → St → Bool} {n : PNode} {s : St} : ∀ g,
    (expandNodes (guardRun ext fine g) [n] s).1 = .diverge ∨ fine n s = true
  | 0 => by rw [expandNodes_one]; exact .inl rfl
  | g + 1 => by
    rw [expandNodes_one]
    simp only [guardRun]
    split
    · exact .inr ‹_›
    · exact .inl rfl

theorem fold_swaps {ext : Ext} {fine : PNode → St → Bool} {K : PNode → List PNode → Prop} (hm : ∀ n vs, K n vs → MacrosFree vs)
    (hK : ∀ n vs s, K n vs → fine n s = true → Evals ext [n] s (.ok vs) s) :
    KeptSwaps .eq ext (guardRun ext fine) (fun as bs => ∃ n, as = [n] ∧ K n bs) := by
  rintro g _ _ bs ⟨n, rfl, hn⟩ s t hst
  by_cases hd : (expandNodes (guardRun ext fine g) [n] s).1 = .diverge
  · exact .inl (LogRel.idle hd)
  · have hf := (watch_fine g).resolve_left hd
    have h1 : Evals ext [n] s (expandNodes (guardRun ext fine g) [n] s).1 (expandNodes (guardRun ext fine g) [n] s).2 :=
      watched_evals ⟨hd, g, rfl⟩
    obtain ⟨h2, h3⟩ := h1.unique (hK n bs s hn hf)
    refine .inr ⟨t, ?_, ?_⟩
    · rw [h3]; exact hst
    · rw [h2]; exact (macrosFree_evals ext bs (hm n bs hn) t).ev

theorem fold_evals {ext : Ext} {fine : PNode → St → Bool} {K : PNode → List PNode → Prop} (hm : ∀ n vs, K n vs → MacrosFree vs)
    (hK : ∀ n vs s, K n vs → fine n s = true → Evals ext [n] s (.ok vs) s) {ns ms : List PNode}
    (h : Exchanged (fun as bs => ∃ n, as = [n] ∧ K n bs) ns ms) {s t s' : St} {r : Res (List PNode)}
    (hst : AlikeSt (fun as bs => ∃ n, as = [n] ∧ K n bs) s t) (hr : Watched ext fine ns s r s') :
    ∃ t', Evals ext ms t r t' ∧ AlikeSt (fun as bs => ∃ n, as = [n] ∧ K n bs) s' t' := by
  obtain ⟨hd, f, hf⟩ := hr
  rcases (run_kept (watch_below ext fine) (fold_swaps hm hK) f).2.1 ns ms h s t (alikeLog_eq.2 hst) with h1 | ⟨t', h1, h2⟩
  · rw [hf] at h1; exact absurd (LogRel.of_idle rfl h1) hd
  · rw [hf] at h1 h2
    exact ⟨t', .of_ev hd h2, alikeLog_eq.1 h1⟩

end Seam
