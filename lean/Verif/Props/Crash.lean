import Verif.Lemmas.Crash
import Verif.Lemmas.EvalCheck
import Verif.Spec.Eval

/-!
# C68: expanding does not crash
-/

namespace Seam
open Spec

/-- C68, the part that holds: apart from the crashes that `mendedExpand` replaces (a
keyword whose value expands to nothing, and what the outside world does) there is no
crash: with these replaced, expanding any source never crashes, and it gives the same
outcome in the same state wherever the program itself does not crash. -/
theorem C68_no_other_crash_partial (ext : Ext) (order : Order) (fuel : Nat) (path code : Str) (hf : Fair order) :
    (mendedExpand ext order fuel path code).1 ≠ .panic ∧
    ((expand ext order fuel path code).1 ≠ .panic → mendedExpand ext order fuel path code = expand ext order fuel path code) := by
  have hn := parse_noPanic ext.unescape { path := path, id := 1, code := code }
  unfold mendedExpand expand
  generalize parse ext.unescape { path := path, id := 1, code := code } = r at hn ⊢
  rcases r with tree | e | _ | _
  · dsimp only
    constructor
    · have he : ExtSnd (fun _ : Site => True) True (calmed ext) :=
        ⟨fun _ => calmed_calm ext, .all (fun _ => trivial) fun _ => trivial,
          fun _ _ _ _ _ _ _ _ _ _ => ⟨fun _ _ => trivial, fun _ _ => trivial⟩⟩
      have h := (expandNodes_snd (mendedRun_snd he fuel) (ns := tree) (fun _ _ => ⟨fun _ _ => trivial, fun _ _ => trivial⟩)) (St.init order) trivial
        ⟨fun _ _ h => absurd h (by simp [St.init, Scope.empty]), fun _ h => absurd h (by simp [St.init]), hf⟩
      intro hp
      have h2 := h.2
      rw [hp] at h2
      exact h2 trivial
    · intro h
      rcases expandNodes_lep (mendedRun_lep ext fuel) tree (St.init order) with h1 | h1
      · exact absurd h1 h
      · exact h1.symm
  · exact ⟨by simp, fun _ => rfl⟩
  · exact (hn rfl).elim
  · exact ⟨by simp, fun _ => rfl⟩

/-- C68 is false: a keyword whose value expands to nothing crashes the program. -/
theorem C68_crash_false : ∃ code, code = str! "(p :k (%do))" ∧
    (expand exExt (fun _ l => l) 9 (str! "a.sex") code).1 = .panic :=
  ⟨_, rfl, Res.isPanic_elim (by decide +kernel)⟩

/-- A source with keywords, definitions and calls that is expanded without a crash. -/
def exCalm : Str := str! "(%define (f a &rest) (p :k %a (%splat %rest)))(%f (%do x) (b c))"

example : ∃ ns, (expand exExt (fun _ l => l) 20 (str! "a.sex") exCalm).1 = .ok ns ∧ (ns.length == 1) = true :=
  Res.okP_elim (by decide +kernel)

example : Fair (fun _ l => l) := fun _ _ => .refl _

end Seam
