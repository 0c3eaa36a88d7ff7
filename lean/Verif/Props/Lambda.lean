import Verif.Lemmas.Lambda
import Verif.Props.Apply
import Verif.Props.Scope
import Verif.Props.Reader

/-!
# The macros that `%lambda` makes (C84)

`c.site.off` is the place of the call `c` in its source text, in bytes.
-/

namespace Seam
open Spec

/-- C84: `%lambda` calls at different places of a source yield different names, whatever the
hash of their positions is. -/
theorem C84_apart (ext : Ext) (c c' : PNode) (args args' out out' : List PNode) (s s' t t' : St)
    (hc : IsCall (str! "lambda") args c) (hc' : IsCall (str! "lambda") args' c') (hd : c.site.off ≠ c'.site.off)
    (h : Evals ext [c] s (.ok out) t) (h' : Evals ext [c'] s' (.ok out') t') :
    ∃ a a', out = [.symbol a] ∧ out' = [.symbol a'] ∧ a.value ≠ a'.value := by
  obtain ⟨_, _, _, _, rfl, _⟩ := lambda_ok_inv hc h
  obtain ⟨_, _, _, _, rfl, _⟩ := lambda_ok_inv hc' h'
  refine ⟨_, _, rfl, rfl, fun he => hd ?_⟩
  exact (uuid_inj (List.append_cancel_left he)).2

/-- C84: for calls in different files, the names are equal only if offsets and hashes are. -/
theorem C84_files (ext : Ext) (c c' : PNode) (args args' : List PNode) (a a' : Node) (s s' t t' : St)
    (hc : IsCall (str! "lambda") args c) (hc' : IsCall (str! "lambda") args' c')
    (h : Evals ext [c] s (.ok [.symbol a]) t) (h' : Evals ext [c'] s' (.ok [.symbol a']) t') :
    a.value = a'.value ↔ c.site.off = c'.site.off ∧
      ext.siteHash c.site.path c.site.line c.site.off c.site.bol c.site.span =
        ext.siteHash c'.site.path c'.site.line c'.site.off c'.site.bol c'.site.span := by
  obtain ⟨_, _, _, _, h1, _⟩ := lambda_ok_inv hc h
  obtain ⟨_, _, _, _, h2, _⟩ := lambda_ok_inv hc' h'
  simp only [List.cons.injEq, PNode.symbol.injEq, and_true] at h1 h2
  subst h1 h2
  constructor
  · intro he
    obtain ⟨h1, h2⟩ := uuid_inj (List.append_cancel_left he)
    exact ⟨h2, h1⟩
  · rintro ⟨h1, h2⟩
    show _ ++ (natStr _ ++ '-' :: natStr _) = _ ++ (natStr _ ++ '-' :: natStr _)
    rw [h2, h1]

/-- C84: in a tree read from a source text no two tokens, so no two calls, are at the same
place. -/
theorem C84_source (u : Unescape) (b : Buf) (ns : List PNode) (h : parse u b = .ok ns) :
    (sitess ns).Pairwise fun p q => p.off ≠ q.off :=
  (covers_ascending (C05_lossless u b ns h)).2.imp fun h => Nat.ne_of_lt h

/-- C84: after `%lambda` calls at different places, one after the other, each of the macros is
defined with its own parameters and body.  Missing: this holds only in the scope in which
the calls are made, see `C84_escape_false`. -/
theorem C84_defined_partial (ext : Ext) : ∀ (cs out : List PNode) (s t : St),
    (∀ c ∈ cs, ∃ args, IsCall (str! "lambda") args c) → (cs.Pairwise fun c c' => c.site.off ≠ c'.site.off) →
    Evals ext cs s (.ok out) t →
    Pairs (fun c n => ∃ a args head back ps, n = .symbol a ∧ IsCall (str! "lambda") args c ∧ positional args = head :: back ∧
      LambdaParams head ps ∧ t.scope a.value = some { params := ps, body := dropPositional 1 args }) cs out := by
  intro cs
  induction cs with
  | nil =>
    intro out s t _ _ h
    obtain ⟨h1, _⟩ := h.unique (Evals.nil ext s)
    cases h1
    exact .nil
  | cons c cs ih =>
    intro out s t hl hd h
    rcases Spec.Evals.append_inv (ns := [c]) (ms := cs) h with ⟨as, t', r', h1, h2, h3⟩ | ⟨_, h2⟩
    · cases r' with
      | ok bs =>
        cases h3
        obtain ⟨args, hc⟩ := hl c List.mem_cons_self
        obtain ⟨head, back, ps, ⟨hp, hh⟩, rfl, rfl⟩ := lambda_ok_inv hc h1
        have hd := List.pairwise_cons.1 hd
        have hl' := fun c hc => hl c (List.mem_cons_of_mem _ hc)
        refine .cons ⟨_, args, head, back, ps, rfl, hc, hp, hh, ?_⟩ (ih bs _ t hl' hd.2 h2)
        rw [lambdas_keep hl' hd.1 h2]
        simp [Scope.insert]
      | _ => simp [addBefore] at h3
    · exact absurd rfl (h2 _)

/-- C84: a macro that `%lambda` makes in the body of a macro is gone when the call
returns: applying it is an error. -/
theorem C84_escape (ext : Ext) (f : Str) (c d : PNode) (args ws : List PNode) (a : Node) (x : Str) (s t : St)
    (hc : IsCall f args c) (hf : builtin? f = none) (ha : MacrosFree args) (h : Evals ext [c] s (.ok [.symbol a]) t)
    (hx : a.value = str! "__lambda" ++ x) (hs : s.scope a.value = none) (hd : IsCall (str! "apply") (c :: ws) d)
    (hw : MacrosFree ws) : Evals ext [d] s (.err (expErr "Macro not found." d.site)) t := by
  obtain ⟨q, u, h1, h2⟩ := C36_user ext f c args s t _ hc hf h
  obtain ⟨_, rfl⟩ := (macrosFree_evals ext args ha s).unique h1
  have hv : Evals ext (c :: ws) s (.ok ([.symbol a] ++ ws)) t := h.cons (macrosFree_evals ext ws hw t)
  rw [evals_apply hd hv (f := a) (back := positional ws) rfl, invokes_user (hx ▸ builtin?_lambda x)]
  have hv' := macrosFree_evals ext ws hw t
  rw [show ([.symbol a] ++ ws : List PNode) = .symbol a :: ws from rfl, dropPositional_symbol]
  obtain ⟨g, hg⟩ := hv'.ev
  refine ⟨by simp, g, ?_⟩
  show userMacro _ _ _ _ _ = _
  unfold userMacro
  rw [M.bind_ok (hg g (Nat.le_refl _)), M.bind_ok (M.lookup_def _ _), h2, hs]
  rfl

/-- `(%define (mk) (%lambda (x) %x))(%apply (%mk) 1)`. -/
def exMake : PNode := exList [exSym (str! "%define"), exList [exSym (str! "mk")],
  exList [exSym (str! "%lambda"), exList [exSym ['x']], exSym (str! "%x")]]
def exMade : PNode := exList [exSym (str! "%mk")]

def exMadeUse : PNode := exList [exSym (str! "%apply"), exMade, exNum ['1']]
/-- `(%lambda x %x)` and `(%lambda (y) (p %y))`, the latter at byte 15. -/
def exFirstLambda : PNode := exList [exSym (str! "%lambda"), exSym ['x'], exSym (str! "%x")]
def exSecondLambda : PNode := .list [exSym (str! "%lambda"), exList [exSym ['y']], exList [exSym ['p'], exSym (str! "%y")]]
  { (default : Site) with off := 15 } default []

/-- C84 is false for a macro that returns a `%lambda`: the `%lambda` itself can be applied, but
not what the macro returns. -/
theorem C84_escape_false : ∃ (ext : Ext) (s t t' t'' : St) (a : Node) (e : Err),
    Evals ext [exMake, exMade] s (.ok [.symbol a]) t ∧
    Evals ext [exMake, exMadeUse] s (.err e) t' ∧ e.msg = "Macro not found." ∧
    Evals ext [exList [exSym (str! "%apply"), exFirstLambda, exNum ['1']]] s (.ok [exNum ['1']]) t'' := by
  obtain ⟨t, h, _⟩ := evals_ok_of (ext := exExt) (ns := [exMake, exMade]) (s := exSt)
    (out := [exSym (str! "__lambda0-0")]) 9 (fun _ => true) (by decide +kernel)
  obtain ⟨e, t', h', he⟩ := evals_err_of (ext := exExt) (ns := [exMake, exMadeUse]) (s := exSt) 9
    (fun e => decide (e.msg = "Macro not found.")) (by decide +kernel)
  obtain ⟨t'', h'', _⟩ := evals_ok_of (ext := exExt) (ns := [exList [exSym (str! "%apply"), exFirstLambda, exNum ['1']]]) (s := exSt)
    (out := [exNum ['1']]) 9 (fun _ => true) (by decide +kernel)
  exact ⟨exExt, exSt, t, t', t'', _, e, h, h', by simpa using he, h''⟩

/-! ## Examples -/

example : IsCall (str! "lambda") [exSym ['x'], exSym (str! "%x")] exFirstLambda ∧
    IsCall (str! "lambda") [exList [exSym ['y']], exList [exSym ['p'], exSym (str! "%y")]] exSecondLambda ∧
    exFirstLambda.site.off ≠ exSecondLambda.site.off ∧
    ∃ t, Evals exExt [exFirstLambda, exSecondLambda] exSt
      (.ok [exSym (str! "__lambda0-0"), .symbol ⟨str! "__lambda0-15", exSecondLambda.site, []⟩]) t :=
  ⟨.mk _ _ _ _ _ rfl rfl, .mk _ _ _ _ _ rfl rfl, by decide, evals_ok_at 9 (by decide +kernel)⟩
example : ∃ ns, parse some demo = .ok ns := let ⟨ns, h, _⟩ := demo_parses; ⟨ns, h⟩
/-- The hypotheses of `C84_escape`. -/
example : ∃ u t, Evals exExt [exMake] exSt (.ok []) u ∧ IsCall (str! "mk") [] exMade ∧ builtin? (str! "mk") = none ∧
    MacrosFree [] ∧ Evals exExt [exMade] u (.ok [exSym (str! "__lambda0-0")]) t ∧ u.scope (str! "__lambda0-0") = none ∧
    IsCall (str! "apply") [exMade, exNum ['1']] exMadeUse ∧ MacrosFree [exNum ['1']] := by
  obtain ⟨u, h, hu⟩ := evals_ok_of (ext := exExt) (ns := [exMake]) (s := exSt) (out := []) 9
    (fun u => (u.scope (str! "__lambda0-0")).isNone) (by decide +kernel)
  obtain ⟨t, h', _⟩ := evals_ok_of (ext := exExt) (ns := [exMake, exMade]) (s := exSt)
    (out := [exSym (str! "__lambda0-0")]) 9 (fun _ => true) (by decide +kernel)
  rcases Spec.Evals.append_inv (ns := [exMake]) (ms := [exMade]) h' with ⟨as, t', r', h1, h2, h3⟩ | ⟨_, h2⟩
  · obtain ⟨h4, rfl⟩ := h.unique h1
    cases h4
    cases r' with
    | ok bs =>
      simp only [addBefore, List.nil_append, Res.ok.injEq] at h3
      subst h3
      exact ⟨u, t, h, .mk _ _ _ _ _ rfl rfl, rfl, .nil, h2, by simpa using hu, .mk _ _ _ _ _ rfl rfl,
        .cons _ _ (.number _) .nil⟩
    | _ => simp [addBefore] at h3
  · exact absurd rfl (h2 _)

end Seam
