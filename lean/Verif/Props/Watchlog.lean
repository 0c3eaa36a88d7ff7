import Verif.Lemmas.Silent
import Verif.Lemmas.Fold
import Verif.Props.Silent
import Verif.Props.Fold

/-! C118: parts that only print in the states in which they are expanded. -/

namespace Seam
open Spec

theorem watchlog_swaps {ext : Ext} {fine : PNode → St → Bool} {K : PNode → Prop}
    (hK : ∀ n s, K n → fine n s = true → ∃ lines, Evals ext [n] s (.ok []) { s with log := s.log ++ lines }) :
    KeptSwaps .fewer ext (guardRun ext fine) (fun as bs => bs = [] ∧ ∃ n, as = [n] ∧ K n) := by
  rintro g _ _ _ ⟨rfl, n, rfl, hn⟩ s t hst
  by_cases hd : (expandNodes (guardRun ext fine g) [n] s).1 = .diverge
  · exact .inl (LogRel.idle hd)
  · have hf := (watch_fine g).resolve_left hd
    have h1 : Evals ext [n] s (expandNodes (guardRun ext fine g) [n] s).1 (expandNodes (guardRun ext fine g) [n] s).2 :=
      watched_evals ⟨hd, g, rfl⟩
    obtain ⟨lines, h0⟩ := hK n s hn hf
    obtain ⟨h2, h3⟩ := h1.unique h0
    refine .inr ⟨t, ?_, ?_⟩
    · rw [h3]
      exact ⟨hst.scope, List.Sublist.trans (show t.log.Sublist s.log from hst.log) (List.sublist_append_left _ _), hst.fresh,
        hst.hashes, hst.order⟩
    · rw [h2]; exact ⟨0, fun _ _ => rfl⟩

/-- C118: let `K n` say that `n` is to be taken out.  If, whenever such a part is expanded in a run of the program, it only prints, then
the program without these parts, wherever one likes, has the same outcome and prints some of the lines, in the same order. -/
theorem C118_watched (ext : Ext) (fine : PNode → St → Bool) (K : PNode → Prop)
    (hK : ∀ n s, K n → fine n s = true → ∃ lines, Evals ext [n] s (.ok []) { s with log := s.log ++ lines })
    (ns ms : List PNode) (h : Exchanged (fun as bs => bs = [] ∧ ∃ n, as = [n] ∧ K n) ns ms) (s t : St) (r : Res (List PNode))
    (hr : Watched ext fine ns s r t) : ∃ t', Evals ext ms s r t' ∧ t'.log.Sublist t.log := by
  obtain ⟨hd, f, hf⟩ := hr
  rcases (run_kept (watch_below ext fine) (watchlog_swaps hK) f).2.1 ns ms h s s (.refl s) with h1 | ⟨t', h1, h2⟩
  · rw [hf] at h1; exact absurd (LogRel.of_idle rfl h1) hd
  · rw [hf] at h1 h2
    exact ⟨t', .of_ev hd h2, h1.log⟩

/-- C118: `(%log %x)` can be taken out if `x` is a literal whenever it is expanded. -/
theorem C118_variable (ext : Ext) (fine : PNode → St → Bool) (x : Str)
    (hf : ∀ c u s, IsCall (str! "log") [.symbol u] c → u.value = '%' :: x → fine c s = true →
      ∃ v a, s.scope x = some { params := [], body := [v] } ∧ MacroFree v ∧ Literal v a)
    (ns ms : List PNode)
    (h : Exchanged (fun as bs => bs = [] ∧ ∃ c, as = [c] ∧ ∃ u : Node, IsCall (str! "log") [.symbol u] c ∧ u.value = '%' :: x) ns ms)
    (s t : St) (r : Res (List PNode)) (hr : Watched ext fine ns s r t) : ∃ t', Evals ext ms s r t' ∧ t'.log.Sublist t.log := by
  refine C118_watched ext fine (fun c => ∃ u : Node, IsCall (str! "log") [.symbol u] c ∧ u.value = '%' :: x) ?_ ns ms h s t r hr
  rintro c s' ⟨u, hc, hu⟩ hfine
  obtain ⟨v, a, h1, h2, h3⟩ := hf c u s' hc hu hfine
  refine ⟨_, C66_log ext c _ _ [a.value] s' s' hc
    (C35_use ext u x [v] [v] s' s' hu h1 (macrosFree_evals ext [v] (.cons _ _ h2 .nil) s')) (.cons ?_ .nil)⟩
  cases h3 with
  | symbol n => exact ⟨_, .symbol _, rfl⟩
  | number n => exact ⟨_, .number _, rfl⟩
  | string n => exact ⟨_, .string _, rfl⟩
  | raw n => exact ⟨_, .raw _, rfl⟩

/-- Is `x` the number 1, if this is a call of `%log`? -/
def exFineLog (n : PNode) (s : St) : Bool :=
  match n with
  | .list (.symbol u :: _) _ _ _ => if u.value = str! "%log" then
      (match s.scope ['x'] with
      | some ⟨[], vs⟩ => PNode.sames vs [exNum ['1']]
      | _ => false) else true
  | _ => true

theorem exFineLog_sound (c : PNode) (u : Node) (s : St) (hc : IsCall (str! "log") [.symbol u] c) (h : exFineLog c s = true) :
    ∃ v a, s.scope ['x'] = some { params := [], body := [v] } ∧ MacroFree v ∧ Literal v a := by
  obtain ⟨hd, t, si, e, w, h1, _⟩ := hc
  simp only [exFineLog] at h
  rw [if_pos h1] at h
  split at h
  · next vs heq =>
    rw [PNode.sames_sound _ _ h] at heq
    exact ⟨_, _, heq, .number _, .number _⟩
  · cases h

/-- In `(%define x 1) (%define (f) (%log %x) y) (p (%f))` the call of `%log` can be taken out. -/
example : Exchanged (fun as bs => bs = [] ∧ ∃ c, as = [c] ∧ ∃ u : Node, IsCall (str! "log") [.symbol u] c ∧ u.value = '%' :: ['x'])
      (exUnit :: exBody [exList [exSym (str! "%log"), exSym (str! "%x")], exSym ['y']]) (exUnit :: exBody [exSym ['y']]) ∧
    ∃ t, Watched exExt exFineLog (exUnit :: exBody [exList [exSym (str! "%log"), exSym (str! "%x")], exSym ['y']]) exSt
      (.ok [exList [exSym (str! "p"), exSym ['y']]]) t := by
  refine ⟨.append [_] [_] _ _ (.same _) (.append [_] [_] _ _ (.function _ [] [_, _] [_] default default [] _ _
    (.mk _ _ _ _ _ rfl rfl) (.mk _ _ _ _ _ rfl rfl) (.mk _ _ _ _ _)
    (.append [_] [] _ _ (.swap _ _ ⟨rfl, _, rfl, ⟨str! "%x", default, []⟩, .mk _ _ _ _ _ rfl rfl, rfl⟩) (.same _))) (.same _)), ?_⟩
  have h : ((expandNodes (guardRun exExt exFineLog 9) (exUnit :: exBody [exList [exSym (str! "%log"), exSym (str! "%x")], exSym ['y']]) exSt).1.okP
      (PNode.sames · [exList [exSym (str! "p"), exSym ['y']]])) = true := by decide +kernel
  obtain ⟨a, h1, h2⟩ := Res.okP_elim h
  obtain rfl := PNode.sames_sound _ _ h2
  exact ⟨_, by simp, 9, Prod.ext h1 rfl⟩

end Seam
