import Verif.Lemmas.ExchangeRun
import Verif.Spec.Silent

/-! Programs with fewer printed lines. -/

namespace Seam
open Spec

/-- Fewer lines are printed. -/
def LogRel.fewer : LogRel :=
  { rel := fun a b => b.Sublist a, refl := fun _ => .refl _, snoc := fun _ _ _ h => h.append (.refl _) }

/-- More lines are printed. -/
def LogRel.more : LogRel :=
  { rel := fun a b => a.Sublist b, refl := fun _ => .refl _, snoc := fun _ _ _ h => h.append (.refl _) }

theorem fewer_swaps (ext : Ext) : KeptSwaps .fewer ext (run ext) (fun as bs => bs = [] ∧ OnlyPrints ext as) := by
  rintro g _ as _ ⟨rfl, hp⟩ s t hst
  by_cases hd : (expandNodes (run ext g) as s).1 = .diverge
  · exact .inl (LogRel.idle hd)
  · obtain ⟨lines, h1⟩ := hp s
    have h2 : Evals ext as s (expandNodes (run ext g) as s).1 (expandNodes (run ext g) as s).2 := ⟨hd, g, rfl⟩
    obtain ⟨h3, h4⟩ := h2.unique h1
    refine .inr ⟨t, ?_, ?_⟩
    · rw [h4]
      exact ⟨hst.scope, List.Sublist.trans (show t.log.Sublist s.log from hst.log) (List.sublist_append_left _ _), hst.fresh, hst.hashes, hst.order⟩
    · rw [h3]; exact ⟨0, fun _ _ => rfl⟩

theorem more_swaps (ext : Ext) : KeptSwaps .more ext (run ext) (fun as bs => as = [] ∧ OnlyPrints ext bs) := by
  rintro g _ _ bs ⟨rfl, hp⟩ s t hst
  obtain ⟨lines, h1⟩ := hp t
  exact .inr ⟨{ t with log := t.log ++ lines }, ⟨hst.scope, List.Sublist.trans (show s.log.Sublist t.log from hst.log) (List.sublist_append_left _ _), hst.fresh, hst.hashes,
    hst.order⟩, h1.ev⟩

theorem alike_evals {R : LogRel} (hR : R.lax = false) {ext : Ext} {E : List PNode → List PNode → Prop} (hE : KeptSwaps R ext (run ext) E)
    {ns ms : List PNode} (h : Exchanged E ns ms) {s t s' : St} {r : Res (List PNode)} (hst : AlikeLog R E s t)
    (hr : Evals ext ns s r s') : ∃ t', Evals ext ms t r t' ∧ AlikeLog R E s' t' := by
  obtain ⟨hd, f, hf⟩ := hr
  rcases (run_kept (run_below ext) hE f).2.1 ns ms h s t hst with h1 | ⟨t', h1, h2⟩
  · rw [hf] at h1; exact absurd (LogRel.of_idle hR h1) hd
  · rw [hf] at h1 h2
    exact ⟨t', .of_ev hd h2, h1⟩

theorem exchanged_mono {E F : List PNode → List PNode → Prop} (h : ∀ as bs, E as bs → F as bs) {as bs : List PNode}
    (hx : Exchanged E as bs) : Exchanged F as bs :=
  exchanged_symm (E := fun as bs => F bs as) (fun _ _ h => h) (exchanged_symm (fun _ _ he => h _ _ he) hx)

end Seam
