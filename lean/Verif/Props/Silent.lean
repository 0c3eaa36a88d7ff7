import Verif.Lemmas.Silent
import Verif.Lemmas.EvalCheck
import Verif.Props.Outside
import Verif.Props.Markup

/-! C118: printing lines for debugging does not change the document. -/

namespace Seam
open Spec

/-- C118: if some parts that only print are taken out of a program, wherever nodes are expanded, then the program has the same outcome,
has defined the same names, and prints some of the lines that were printed before, in the same order. -/
theorem C118_silenced (ext : Ext) (ns ms : List PNode) (h : Silenced ext ns ms) (s t : St) (r : Res (List PNode))
    (hr : Evals ext ns s r t) :
    ∃ t', Evals ext ms s r t' ∧ t'.log.Sublist t.log ∧ ∀ x, (t'.scope x).map (·.params) = (t.scope x).map (·.params) := by
  obtain ⟨t', h1, h2⟩ := alike_evals rfl (fewer_swaps ext) h (.refl s) hr
  refine ⟨t', h1, h2.log, fun x => ?_⟩
  have := h2.scope x
  revert this
  generalize t.scope x = a
  generalize t'.scope x = b
  intro this
  cases this <;> rfl

/-- C118: with and without such parts there are the same outcomes: the same result, the same error, the same crash, or neither program
comes to an end. -/
theorem C118_outcome (ext : Ext) (ns ms : List PNode) (h : Silenced ext ns ms) (s : St) (r : Res (List PNode)) :
    (∃ t, Evals ext ns s r t) ↔ ∃ t, Evals ext ms s r t := by
  constructor
  · rintro ⟨t, hr⟩
    obtain ⟨t', h1, -⟩ := alike_evals rfl (fewer_swaps ext) h (.refl s) hr
    exact ⟨t', h1⟩
  · rintro ⟨t, hr⟩
    obtain ⟨t', h1, -⟩ := alike_evals rfl (more_swaps ext) (exchanged_symm (fun _ _ he => he) h) (.refl s) hr
    exact ⟨t', h1⟩

/-- C118: `(%log ...)` with literals that are not variables only prints, so these calls can be taken out, or put in, anywhere. -/
theorem C118_log (ext : Ext) (ns ms : List PNode)
    (h : Exchanged (fun as bs => bs = [] ∧ ∃ c args words, as = [c] ∧ IsCall (str! "log") args c ∧ MacrosFree args ∧ Values args words) ns ms)
    (s : St) (r : Res (List PNode)) : (∃ t, Evals ext ns s r t) ↔ ∃ t, Evals ext ms s r t := by
  refine C118_outcome ext ns ms (exchanged_mono (fun as bs => ?_) h) s r
  rintro ⟨rfl, c, args, words, rfl, hc, hm, hv⟩
  exact ⟨rfl, fun s => ⟨_, C66_log ext c args args words s s hc (macrosFree_evals ext args hm s) hv⟩⟩

/-- C118: calls with other arguments cannot be taken out in general: `(%log %x) p` is an error if `x` is not defined, and `p` is not. -/
theorem C118_variable_false : ∃ (ext : Ext) (c n : PNode) (s : St) (e : Err) (t u : St), (∃ args, IsCall (str! "log") args c) ∧
    Evals ext [c, n] s (.err e) t ∧ Evals ext [n] s (.ok [n]) u := by
  obtain ⟨e, t, h1, -⟩ := evals_err_of (ext := exExt) (s := exSt)
    (ns := [exList [exSym (str! "%log"), exSym (str! "%x")], exSym (str! "p")]) 6 (fun _ => true) (by decide +kernel)
  obtain ⟨u, h2⟩ := evals_ok_at (ext := exExt) (s := exSt) (ns := [exSym (str! "p")]) (out := [exSym (str! "p")]) 4 (by decide +kernel)
  exact ⟨_, _, _, _, e, t, u, ⟨_, .mk _ _ _ _ _ rfl rfl⟩, h1, h2⟩

/-- `(%log here "a b")`. -/
def exSays : PNode := exList [exSym (str! "%log"), exSym (str! "here"), exStr (str! "a b")]

/-- `(%define (f) B ...) (p (%f))`. -/
def exBody (b : List PNode) : List PNode :=
  [exList (exSym (str! "%define") :: exList [exSym (str! "f")] :: b), exList [exSym (str! "p"), exList [exSym (str! "%f")]]]

/-- In the body of a macro, `(%log here "a b")` is taken out; the program has a result. -/
example : Exchanged (fun as bs => bs = [] ∧ ∃ c args words, as = [c] ∧ IsCall (str! "log") args c ∧ MacrosFree args ∧ Values args words)
      (exBody [exSays, exSym (str! "x")]) (exBody [exSym (str! "x")]) ∧
    ∃ t, Evals exExt (exBody [exSays, exSym (str! "x")]) exSt (.ok [exList [exSym (str! "p"), exSym (str! "x")]]) t :=
  ⟨.append [_] [_] _ _ (.function _ [] [exSays, exSym (str! "x")] [exSym (str! "x")] default default [] _ _ (.mk _ _ _ _ _ rfl rfl)
      (.mk _ _ _ _ _ rfl rfl) (.mk _ _ _ _ _) (.append [_] [] _ _ (.swap _ _ ⟨rfl, exSays, _, [str! "here", str! "a b"], rfl,
        .mk _ _ _ _ _ rfl rfl, .cons _ _ (.symbol _ (by intro n; simp)) (.cons _ _ (.string _) .nil),
        .cons ⟨_, .symbol _, rfl⟩ (.cons ⟨_, .string _, rfl⟩ .nil)⟩) (.same _))) (.same _),
    evals_ok_at 8 (by decide +kernel)⟩

end Seam
