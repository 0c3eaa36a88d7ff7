import Verif.Lemmas.Rename
import Verif.Props.Fill

/-!
# Renaming macros (C93)
-/

namespace Seam
open Spec

/-- C93: a program in which two names are exchanged everywhere has the same outcome, with the names
exchanged, as long as the names are only used as names (see Spec/Rename). -/
theorem C93_expands (ext : Ext) (f g : Str) (hf : OwnName f) (hg : OwnName g) (ns : List PNode) (s t : St)
    (r : Res (List PNode)) (h : SwapEvals ext f g ns s r t) :
    Evals ext (swapNodes f g ns) (swapSt f g s) (swapRes f g r) (swapSt f g t) := swapEvals_evals hf hg h

/-- C93: the runs of `C93_expands` are runs of the expander. -/
theorem C93_runs (ext : Ext) (f g : Str) (ns : List PNode) (s t : St) (r : Res (List PNode)) (h : SwapEvals ext f g ns s r t) :
    Evals ext ns s r t := swap_evals h

/-- C93: so a macro can be given another name that is not used yet: with the name replaced
everywhere the document is the same, if the name is not in it, and the same lines are logged. -/
theorem C93_document (ext : Ext) (f g : Str) (hf : OwnName f) (hg : OwnName g) (hfg : f ≠ g) (ns out : List PNode) (order : Order)
    (hk : Fair order) (t : St) (h : SwapEvals ext f g ns (St.init order) (.ok out) t) (hn : occurss g ns = false)
    (h1 : occurss f out = false) (h2 : occurss g out = false) :
    ∃ order' t', Fair order' ∧ Evals ext (renameNodes f g ns) (St.init order') (.ok out) t' ∧ t'.log = t.log := by
  refine ⟨swapOrder f g order, swapSt f g t, swapOrder_fair hf hg hk, ?_, rfl⟩
  have := C93_expands ext f g hf hg ns _ t _ h
  rw [swapRes, nameless_occurss hfg h1 h2, ← renameNodes_swap hn] at this
  exact this

/-- C93: and what fails fails in the same way, at the same place. -/
theorem C93_errors (ext : Ext) (f g : Str) (hf : OwnName f) (hg : OwnName g) (ns : List PNode) (order : Order)
    (hk : Fair order) (t : St) (e : Err) (h : SwapEvals ext f g ns (St.init order) (.err e) t) (hn : occurss g ns = false) :
    ∃ order' t', Fair order' ∧ Evals ext (renameNodes f g ns) (St.init order') (.err e) t' ∧ t'.log = t.log := by
  refine ⟨swapOrder f g order, swapSt f g t, swapOrder_fair hf hg hk, ?_, rfl⟩
  have := C93_expands ext f g hf hg ns _ t _ h
  rw [← renameNodes_swap hn] at this
  exact this

/-- A macro, called directly and through `%apply`. -/
def exRename : List PNode := [exCard, exCardCall, exList [exSym (str! "%apply"), exSym (str! "card"), exSym ['u'], exSym ['v']],
  exList [exSym (str! "%string"), exSym ['w']]]

example : OwnName (str! "card") ∧ OwnName (str! "box") := ownCard

example : occurss (str! "box") exRename = false ∧ occurss (str! "card") exRename = true ∧
    ∃ out t, SwapEvals exExt (str! "card") (str! "box") exRename (St.init fun _ l => l) (.ok out) t ∧
      (!occurss (str! "card") out && !occurss (str! "box") out && out.length == 3) = true :=
  ⟨by decide +kernel, by decide +kernel,
    swap_ok_of 12 (fun out _ => !occurss (str! "card") out && !occurss (str! "box") out && out.length == 3) (by decide +kernel)⟩

example : ∃ e t, SwapEvals exExt (str! "card") (str! "box") [exCard, exList [exSym (str! "%card"), exSym ['x']]]
    (St.init fun _ l => l) (.err e) t := by
  have h : (expandNodes (swapRun exExt (str! "card") (str! "box") 12) [exCard, exList [exSym (str! "%card"), exSym ['x']]]
      (St.init fun _ l => l)).1.errP (fun _ => true) = true := by decide +kernel
  obtain ⟨e, h1, _⟩ := Res.errP_elim h
  exact ⟨e, _, by simp, 12, Prod.ext h1 rfl⟩

/-- C93 is false when a name is made from a text: `(%apply (%symbol "card") x "y")` calls the macro
by its old name. -/
theorem C93_text_false : ∃ (ext : Ext) (ns out : List PNode) (e : Err) (s t t' : St), OwnName (str! "card") ∧ OwnName (str! "box") ∧
    occurss (str! "box") ns = false ∧ occurss (str! "card") out = false ∧ occurss (str! "box") out = false ∧
    Evals ext ns s (.ok out) t ∧ Evals ext (renameNodes (str! "card") (str! "box") ns) s (.err e) t' := by
  have h1 := evals_ok_of (ext := exExt) (ns := [exCard, exList [exSym (str! "%apply"), exList [exSym (str! "%symbol"), exStr (str! "card")], exSym ['x'], exStr ['y']]])
    (out := [exList [exSym (str! "div"), exAttr (str! "id") (exSym ['x']), exList [exSym ['p'], .string ⟨['y'], default, [' ']⟩]]])
    (s := exSt) 12 (fun _ => true) (by decide +kernel)
  obtain ⟨t, h1, _⟩ := h1
  obtain ⟨e, t', h2, _⟩ := evals_err_of (ext := exExt)
    (ns := renameNodes (str! "card") (str! "box") [exCard, exList [exSym (str! "%apply"), exList [exSym (str! "%symbol"), exStr (str! "card")], exSym ['x'], exStr ['y']]])
    (s := exSt) 12 (fun _ => true) (by decide +kernel)
  exact ⟨exExt, _, _, e, exSt, t, t', ownCard.1, ownCard.2, by decide +kernel, by decide +kernel, by decide +kernel, h1, h2⟩

/-- C93 is false with `%namespace`, which makes longer names: after `(%namespace n (%define card a))`
the macro is called `n/card`, which is another name. -/
theorem C93_namespace_false : ∃ (ext : Ext) (ns out : List PNode) (e : Err) (s t t' : St), OwnName (str! "card") ∧ OwnName (str! "box") ∧
    occurss (str! "box") ns = false ∧ occurss (str! "card") out = false ∧ occurss (str! "box") out = false ∧
    Evals ext ns s (.ok out) t ∧ Evals ext (renameNodes (str! "card") (str! "box") ns) s (.err e) t' := by
  have h1 := evals_ok_of (ext := exExt) (ns := [exList [exSym (str! "%namespace"), exSym ['n'], exList [exSym (str! "%define"), exSym (str! "card"), exSym ['a']]], exSym (str! "%n/card")])
    (out := [exSym ['a']]) (s := exSt) 12 (fun _ => true) (by decide +kernel)
  obtain ⟨t, h1, _⟩ := h1
  obtain ⟨e, t', h2, _⟩ := evals_err_of (ext := exExt)
    (ns := renameNodes (str! "card") (str! "box") [exList [exSym (str! "%namespace"), exSym ['n'], exList [exSym (str! "%define"), exSym (str! "card"), exSym ['a']]], exSym (str! "%n/card")])
    (s := exSt) 12 (fun _ => true) (by decide +kernel)
  exact ⟨exExt, _, _, e, exSt, t, t', ownCard.1, ownCard.2, by decide +kernel, by decide +kernel, by decide +kernel, h1, h2⟩

end Seam
