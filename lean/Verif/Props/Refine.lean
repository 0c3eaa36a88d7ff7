import Verif.Lemmas.Refine
import Verif.Props.Silent
import Verif.Props.Exchange
import Verif.Props.Lists

/-! C116, C118: exchanging parts of programs that have a result. -/

namespace Seam
open Spec

/-- C116: if each part, whenever it has a result, is exchanged for one that has the same result and leaves the same state, and the
program has a result, then the program with exchanged parts has the same result, and prints the same. -/
theorem C116_refined (ext : Ext) (E : List PNode → List PNode → Prop)
    (hE : ∀ as bs, E as bs → ∀ s vs t, Evals ext as s (.ok vs) t → Evals ext bs s (.ok vs) t)
    (ns ms out : List PNode) (h : Exchanged E ns ms) (s t : St) (hr : Evals ext ns s (.ok out) t) :
    ∃ t', Evals ext ms s (.ok out) t' ∧ t'.log = t.log := by
  obtain ⟨t', h1, h2⟩ := refine_evals (refine_swaps hE) h (.refl s) hr
  exact ⟨t', h1, h2.log⟩

/-- C118: if a program has a result, parts that only print when they have a result can be taken out. -/
theorem C118_succeeds (ext : Ext) (ns ms out : List PNode) (h : Exchanged (fun as bs => bs = [] ∧ PrintsOnly ext as) ns ms) (s t : St)
    (hr : Evals ext ns s (.ok out) t) : ∃ t', Evals ext ms s (.ok out) t' ∧ t'.log.Sublist t.log := by
  obtain ⟨t', h1, h2⟩ := refine_evals (fewerLax_swaps ext) h (.refl s) hr
  exact ⟨t', h1, h2.log⟩

/-- C118: if a program has a result, all calls of `%log` whose arguments change nothing when they have a result can be taken out. -/
theorem C118_log_succeeds (ext : Ext) (ns ms out : List PNode)
    (h : Exchanged (fun as bs => bs = [] ∧ ∃ c args, as = [c] ∧ IsCall (str! "log") args c ∧
      ∀ s vs t, Evals ext args s (.ok vs) t → t = s) ns ms) (s t : St)
    (hr : Evals ext ns s (.ok out) t) : ∃ t', Evals ext ms s (.ok out) t' ∧ t'.log.Sublist t.log := by
  refine C118_succeeds ext ns ms out (exchanged_mono (fun as bs => ?_) h) s t hr
  rintro ⟨rfl, c, args, rfl, hc, ha⟩
  refine ⟨rfl, fun s vs t ht => ?_⟩
  obtain ⟨rfl, ws, u, l, h1, rfl⟩ := log_result hc ht
  obtain rfl := ha _ _ _ h1
  exact ⟨rfl, [l], rfl⟩

/-- `(%string "a" "b")`. -/
def exGlued : PNode := exList [exSym (str! "%string"), exStr ['a'], exStr ['b']]

theorem exGlued_same (s : St) (vs : List PNode) (t : St) (h : Evals exExt [exGlued] s (.ok vs) t) : t = s := by
  have h1 : MacrosFree [exStr ['a'], exStr ['b']] := .cons _ _ (.string _) (.cons _ _ (.string _) .nil)
  have h2 := (C46_string exExt exGlued _ _ _ s s (macrosFree_evals exExt _ h1 s) (.cons (.string _) (.cons (.string _) .nil))).1
    (.mk _ _ _ _ _ rfl rfl)
  exact (h.unique h2).2

/-- In `(%define (f) (%log (%string "a" "b")) x) (p (%f))` the call of `%log` is taken out; the program has a result. -/
example : Exchanged (fun as bs => bs = [] ∧ ∃ c args, as = [c] ∧ IsCall (str! "log") args c ∧
      ∀ s vs t, Evals exExt args s (.ok vs) t → t = s)
      (exBody [exList [exSym (str! "%log"), exGlued], exSym (str! "x")]) (exBody [exSym (str! "x")]) ∧
    ∃ t, Evals exExt (exBody [exList [exSym (str! "%log"), exGlued], exSym (str! "x")]) exSt (.ok [exList [exSym (str! "p"), exSym (str! "x")]]) t :=
  ⟨.append [_] [_] _ _ (.function _ [] [_, exSym (str! "x")] [exSym (str! "x")] default default [] _ _ (.mk _ _ _ _ _ rfl rfl)
      (.mk _ _ _ _ _ rfl rfl) (.mk _ _ _ _ _) (.append [_] [] _ _ (.swap _ _ ⟨rfl, _, [exGlued], rfl, .mk _ _ _ _ _ rfl rfl,
        exGlued_same⟩) (.same _))) (.same _),
    evals_ok_at 9 (by decide +kernel)⟩

/-- `(%log (a))` never has a result, so it may be exchanged for `y` in programs that have one. -/
example : ∀ s vs t, Evals exExt [exList [exSym (str! "%log"), exList [exSym ['a']]]] s (.ok vs) t → Evals exExt [exSym ['y']] s (.ok vs) t := by
  intro s vs t h
  have h1 : MacrosFree [exList [exSym ['a']]] := .cons _ _ (.list _ _ _ _ (.cons _ _ (.symbol _ (by intro n; simp)) .nil)) .nil
  obtain ⟨e, h2, _⟩ := C66_not_literal exExt (exList [exSym (str! "%log"), exList [exSym ['a']]]) (exList [exSym ['a']])
    [exList [exSym ['a']]] [exList [exSym ['a']]] s s (.mk _ _ _ _ _ rfl rfl) (macrosFree_evals exExt _ h1 s) (by simp)
    (by rintro a ⟨⟩)
  cases (h.unique h2).1

/-- It stands in a macro that is not called. -/
example : Exchanged (fun as bs => as = [exList [exSym (str! "%log"), exList [exSym ['a']]]] ∧ bs = [exSym ['y']])
      [exList [exSym (str! "%define"), exList [exSym (str! "f")], exList [exSym (str! "%log"), exList [exSym ['a']]]], exSym ['p']]
      [exList [exSym (str! "%define"), exList [exSym (str! "f")], exSym ['y']], exSym ['p']] ∧
    ∃ t, Evals exExt [exList [exSym (str! "%define"), exList [exSym (str! "f")], exList [exSym (str! "%log"), exList [exSym ['a']]]], exSym ['p']]
      exSt (.ok [exSym ['p']]) t :=
  ⟨.append [_] [_] _ _ (.function _ [] [_] [_] default default [] _ _ (.mk _ _ _ _ _ rfl rfl) (.mk _ _ _ _ _ rfl rfl)
    (.mk _ _ _ _ _) (.swap _ _ ⟨rfl, rfl⟩)) (.same _), evals_ok_at 8 (by decide +kernel)⟩

end Seam
