import Verif.Lemmas.ExchangeRun
import Verif.Lemmas.EvalCheck
import Verif.Props.Laws
import Verif.Props.Markup

/-! C116: parts that do the same can be exchanged. -/

namespace Seam
open Spec

/-- C116: if the parts that are exchanged do the same from every state, then the program with exchanged parts has the
same outcome, also when it is run in a state in which such parts of the bodies of macros were exchanged; and
afterwards the states again differ in nothing else. -/
theorem C116_exchange (ext : Ext) (E : List PNode → List PNode → Prop) (hE : ∀ ns ms, E ns ms → Equivalent ext ns ms)
    (ns ms : List PNode) (h : Exchanged E ns ms) (s t s' : St) (r : Res (List PNode)) (hst : AlikeSt E s t)
    (hr : Evals ext ns s r s') : ∃ t', Evals ext ms t r t' ∧ AlikeSt E s' t' := exchanged_evals hE h hst hr

/-- C116: two programs that come from each other by exchanging parts that do the same have the same outcomes: the same result, the
same error, the same crash, or neither comes to an end; and they print the same. -/
theorem C116_outcome (ext : Ext) (ns ms : List PNode) (h : Exchanged (Equivalent ext) ns ms) (s : St) (r : Res (List PNode))
    (log : List LogLine) : (∃ t, Evals ext ns s r t ∧ t.log = log) ↔ ∃ t, Evals ext ms s r t ∧ t.log = log := by
  have key : ∀ {ns ms : List PNode}, Exchanged (Equivalent ext) ns ms → (∃ t, Evals ext ns s r t ∧ t.log = log) →
      ∃ t, Evals ext ms s r t ∧ t.log = log := by
    rintro ns ms h ⟨t, h1, h2⟩
    obtain ⟨t', h3, h4⟩ := exchanged_evals (fun _ _ h => h) h (.refl s) h1
    exact ⟨t', h3, h4.log.trans h2⟩
  exact ⟨key h, key (exchanged_symm (fun _ _ h s r t => (h s r t).symm) h)⟩

/-- C116: `(%do ...)` can be replaced by its arguments, in all of these places at once. -/
theorem C116_do (ext : Ext) (ns ms : List PNode) (h : Exchanged (fun as bs => ∃ c, as = [c] ∧ IsCall (str! "do") bs c) ns ms)
    (s t : St) (r : Res (List PNode)) (hr : Evals ext ns s r t) : ∃ t', Evals ext ms s r t' ∧ t'.log = t.log := by
  obtain ⟨t', h1, h2⟩ := exchanged_evals (fun as bs => by
    rintro ⟨c, rfl, hc⟩ s r t
    exact evals_do hc) h (.refl s) hr
  exact ⟨t', h1, h2.log⟩

/-- C116: `(%strip (%strip ...))` can be replaced by `(%strip ...)`, in all of these places at once. -/
theorem C116_strip (ext : Ext) (ns ms : List PNode)
    (h : Exchanged (fun as bs => ∃ c d args, as = [c] ∧ bs = [d] ∧ IsCall (str! "strip") [d] c ∧ IsCall (str! "strip") args d) ns ms)
    (s t : St) (r : Res (List PNode)) (hr : Evals ext ns s r t) : ∃ t', Evals ext ms s r t' ∧ t'.log = t.log := by
  obtain ⟨t', h1, h2⟩ := exchanged_evals (fun as bs => by
    rintro ⟨c, d, args, rfl, rfl, hc, hd⟩ s r t
    exact C96_strip_twice ext c d args s t r hc hd) h (.refl s) hr
  exact ⟨t', h1, h2.log⟩

/-- C116: parts that have the same result from every state, free of macros, and change nothing can be replaced by the result, in all
of these places at once. -/
theorem C116_result (ext : Ext) (ns ms : List PNode)
    (h : Exchanged (fun as bs => MacrosFree bs ∧ ∀ s, Evals ext as s (.ok bs) s) ns ms)
    (s t : St) (r : Res (List PNode)) (hr : Evals ext ns s r t) : ∃ t', Evals ext ms s r t' ∧ t'.log = t.log := by
  obtain ⟨t', h1, h2⟩ := exchanged_evals (fun as bs => by
    rintro ⟨hm, ha⟩ s r t
    have hb := macrosFree_evals ext bs hm s
    constructor
    · intro hx
      obtain ⟨rfl, rfl⟩ := hx.unique (ha s)
      exact hb
    · intro hx
      obtain ⟨rfl, rfl⟩ := hx.unique hb
      exact ha _) h (.refl s) hr
  exact ⟨t', h1, h2.log⟩

/-- `(%do x)`. -/
def exDo : PNode := exList [exSym (str! "%do"), exSym (str! "x")]

theorem exDo_call : IsCall (str! "do") [exSym (str! "x")] exDo := .mk _ _ _ _ _ rfl rfl

/-- `(%define (f) B) (p (%f))`, where `B` is the part that is exchanged. -/
def exUses (b : PNode) : List PNode :=
  [exList [exSym (str! "%define"), exList [exSym (str! "f")], b], exList [exSym (str! "p"), exList [exSym (str! "%f")]]]

/-- In the body of a macro, `(%do x)` is exchanged for `x`; the program has a result. -/
example : Exchanged (fun as bs => ∃ c, as = [c] ∧ IsCall (str! "do") bs c) (exUses exDo) (exUses (exSym (str! "x"))) ∧
    ∃ t, Evals exExt (exUses exDo) exSt (.ok [exList [exSym (str! "p"), exSym (str! "x")]]) t :=
  ⟨.append [_] [_] _ _ (.function _ [] [exDo] [exSym (str! "x")] default default [] _ _ (.mk _ _ _ _ _ rfl rfl) (.mk _ _ _ _ _ rfl rfl)
      (.mk _ _ _ _ _) (.swap _ _ ⟨exDo, rfl, exDo_call⟩)) (.same _),
    evals_ok_at 8 (by decide +kernel)⟩

/-- `(%do x)` has the result `x` from every state. -/
example : MacrosFree [exSym (str! "x")] ∧ ∀ s, Evals exExt [exDo] s (.ok [exSym (str! "x")]) s :=
  have h : MacrosFree [exSym (str! "x")] := .cons _ _ (.symbol _ (by intro n; simp)) .nil
  ⟨h, fun s => (evals_do exDo_call).2 (macrosFree_evals exExt _ h s)⟩

/-- C116: in other places parts may not be exchanged.  `(%do x)` and `x` do the same from every state, but `(%ifdef x a b)` is `b` if
`x` is not defined, and `(%ifdef (%do x) a b)` is an error; the name in the condition is not expanded. -/
theorem C116_condition_false : ∃ (ext : Ext) (x y : PNode) (s : St) (out : List PNode) (e : Err) (t u : St), Equivalent ext [x] [y] ∧
    Evals ext [exList [exSym (str! "%ifdef"), y, exSym (str! "a"), exSym (str! "b")]] s (.ok out) t ∧
    Evals ext [exList [exSym (str! "%ifdef"), x, exSym (str! "a"), exSym (str! "b")]] s (.err e) u := by
  obtain ⟨t, h1⟩ := evals_ok_at (ext := exExt) (s := exSt) (out := [exSym (str! "b")])
    (ns := [exList [exSym (str! "%ifdef"), exSym (str! "x"), exSym (str! "a"), exSym (str! "b")]]) 4 (by decide +kernel)
  obtain ⟨e, u, h2, _⟩ := evals_err_of (ext := exExt) (s := exSt)
    (ns := [exList [exSym (str! "%ifdef"), exDo, exSym (str! "a"), exSym (str! "b")]]) 4 (fun _ => true) (by decide +kernel)
  exact ⟨exExt, exDo, exSym (str! "x"), exSt, _, e, t, u, fun _ _ _ => evals_do exDo_call, h1, h2⟩

end Seam
