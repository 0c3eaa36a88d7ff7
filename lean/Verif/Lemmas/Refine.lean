import Verif.Lemmas.Silent
import Verif.Lemmas.Convert

/-! Programs that have a result. -/

namespace Seam
open Spec

def LogRel.eqLax : LogRel := { LogRel.eq with lax := true }

def LogRel.fewerLax : LogRel := { LogRel.fewer with lax := true }

theorem LogRel.idle_lax {R : LogRel} (hR : R.lax = true) {α : Type} {r : Res α} (h : ∀ a, r ≠ .ok a) : R.Idle r := by
  cases r with
  | diverge => trivial
  | ok a => exact absurd rfl (h a)
  | err e => exact hR
  | panic => exact hR

theorem refine_swaps {ext : Ext} {E : List PNode → List PNode → Prop}
    (hE : ∀ as bs, E as bs → ∀ s vs t, Evals ext as s (.ok vs) t → Evals ext bs s (.ok vs) t) : KeptSwaps .eqLax ext (run ext) E := by
  intro g hR as bs he s t hst
  rcases expandNodes_kept hR as s t hst with h | ⟨t', h1, h2⟩
  · exact .inl h
  · by_cases hd : ∃ vs, (expandNodes (run ext g) as s).1 = .ok vs
    · obtain ⟨vs, hd⟩ := hd
      refine .inr ⟨t', h1, ?_⟩
      rw [hd] at h2 ⊢
      exact (hE _ _ he t _ t' (.of_ev (by simp) h2)).ev
    · exact .inl (LogRel.idle_lax rfl fun a h => hd ⟨a, h⟩)

theorem fewerLax_swaps (ext : Ext) : KeptSwaps .fewerLax ext (run ext) (fun as bs => bs = [] ∧ PrintsOnly ext as) := by
  rintro g _ as _ ⟨rfl, hp⟩ s t hst
  by_cases hd : ∃ vs, (expandNodes (run ext g) as s).1 = .ok vs
  · obtain ⟨vs, hd⟩ := hd
    have h2 : Evals ext as s (.ok vs) (expandNodes (run ext g) as s).2 := ⟨by simp, g, Prod.ext hd rfl⟩
    obtain ⟨rfl, lines, h4⟩ := hp s vs _ h2
    refine .inr ⟨t, ?_, ?_⟩
    · rw [h4]
      exact ⟨hst.scope, List.Sublist.trans (show t.log.Sublist s.log from hst.log) (List.sublist_append_left _ _), hst.fresh, hst.hashes, hst.order⟩
    · rw [hd]; exact ⟨0, fun _ _ => rfl⟩
  · exact .inl (LogRel.idle_lax rfl fun a h => hd ⟨a, h⟩)

theorem refine_evals {R : LogRel} {ext : Ext} {E : List PNode → List PNode → Prop} (hE : KeptSwaps R ext (run ext) E)
    {ns ms out : List PNode} (h : Exchanged E ns ms) {s t s' : St} (hst : AlikeLog R E s t)
    (hr : Evals ext ns s (.ok out) s') : ∃ t', Evals ext ms t (.ok out) t' ∧ AlikeLog R E s' t' := by
  obtain ⟨hd, f, hf⟩ := hr
  rcases (run_kept (run_below ext) hE f).2.1 ns ms h s t hst with h1 | ⟨t', h1, h2⟩
  · rw [hf] at h1; exact False.elim h1
  · rw [hf] at h1 h2
    exact ⟨t', .of_ev hd h2, h1⟩

/-- A call of `%log` that has a result. -/
theorem log_result {ext : Ext} {c : PNode} {args vs : List PNode} {s t : St} (hc : IsCall (str! "log") args c)
    (h : Evals ext [c] s (.ok vs) t) :
    vs = [] ∧ ∃ ws u l, Evals ext args s (.ok ws) u ∧ t = { u with log := u.log ++ [l] } := by
  rw [evals_builtin_iff hc (b := .log) rfl] at h
  obtain ⟨_, f, hf⟩ := h
  change logMacro (run ext f) c args s = _ at hf
  unfold logMacro at hf
  rcases hm : expandNodes (run ext f) args s with ⟨r, u⟩
  cases r with
  | ok ws =>
    rw [M.bind_ok hm] at hf
    generalize hw : atomicValues ws = w at hf
    cases w with
    | none => cases hf
    | some words =>
      cases hf
      exact ⟨rfl, ws, u, _, ⟨by simp, f, hm⟩, rfl⟩
  | err e => rw [M.bind_err hm] at hf; cases hf
  | panic => rw [M.bind_panic hm] at hf; cases hf
  | diverge =>
    rw [M.bind_def, hm] at hf
    cases hf

end Seam
