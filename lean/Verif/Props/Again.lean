import Verif.Lemmas.Again
import Verif.Lemmas.EvalCheck
import Verif.Props.Tree

/-!
# C69: the S-expression output can be processed again
-/

namespace Seam
open Spec

/-- C69: if the symbols of an expanded tree are words that do not name macros and its
text can be read back (`Printables`, with raw text written as a call of `%raw`), then
expanding the S-expression output gives the same tree up to positions, leaves no
definitions, and prints the same text again.  Missing: symbols that are not words or that
start with `%`, for which this is false. -/
theorem C69_output_again_partial (ext : Ext) (order : Order) (dbg : Str → Str) (ns : List PNode) (hm : MacrosFree ns)
    (hp : Printables ext.unescape dbg (rawCallss ns)) (path : Str) :
    ∃ ns' f, (∀ g, f ≤ g → expand ext order g path (sexpNodes dbg ns) = (.ok ns', St.init order)) ∧
      SameNodes ns ns' ∧ sexpNodes dbg ns' = sexpNodes dbg ns := by
  obtain ⟨ms, h1, h2⟩ := C14_sexp_reads_back ext.unescape dbg (rawCallss ns) hp path 1
  rw [sexp_rawCallss] at h1
  obtain ⟨ns', h3, h4⟩ := again_nodes ext ns hm h2 (St.init order)
  obtain ⟨f, hf⟩ := h3.ev
  refine ⟨ns', f, fun g hg => ?_, h4, (sexp_sames dbg h4).symm⟩
  unfold expand
  rw [h1]
  exact hf g hg

/-- Quotes without escapes. -/
def exQuote (s : Str) : Str := '"' :: s ++ ['"']

/-- `(p :k "v" (%raw "<b>") x)` after expansion. -/
def exAgain : List PNode :=
  [.list [.symbol ⟨str! "p", default, []⟩, .attr ['k'] (.string ⟨str! "v", default, [' ']⟩) default [' '],
      .raw ⟨str! "<b>", default, [' ']⟩, .symbol ⟨str! "x", default, [' ']⟩]
    default { kind := .rparen, value := [')'], lw := [], site := default } []]

example : MacrosFree exAgain :=
  .cons _ _ (.list _ _ _ _ (.cons _ _ (.symbol _ (by simp)) (.cons _ _ (.attr _ _ _ _ (.string _)) (.cons _ _ (.raw _)
    (.cons _ _ (.symbol _ (by simp)) .nil))))) .nil

example : Printables some exQuote (rawCallss exAgain) := by
  have nb : ∀ w : Str, (w.all blank = true) → Blanks w := fun w h c hc => List.all_eq_true.1 h c hc
  have wd : ∀ w : Str, (w.all identChar = true) → Starts symbolStart w → Word symbolStart w :=
    fun w h hs => ⟨hs, fun c hc => List.all_eq_true.1 h c hc⟩
  have sp : ∀ (a b : PNode), b.lw = [' '] → Apart exQuote a b := fun a b h h' => by rw [h] at h'; simp at h'
  refine .one _ (.list _ _ _ _ (nb _ rfl) (nb _ rfl) ?_)
  refine .cons _ _ _ (.symbol _ (nb _ rfl) (wd _ rfl rfl)) (sp _ _ rfl) ?_
  refine .cons _ _ _ (.attr _ _ _ _ (nb _ rfl) (by decide)
    (.string _ (str! "v") (nb _ rfl) rfl (.plain _ _ (by decide) (by decide) .nil) rfl) (fun _ => rfl)) (sp _ _ rfl) ?_
  refine .cons _ _ _ (.list _ _ _ _ (nb _ rfl) (nb _ rfl) ?_) (sp _ _ rfl) (.one _ (.symbol _ (nb _ rfl) (wd _ rfl rfl)))
  refine .cons _ _ _ (.symbol _ (nb _ rfl) (wd _ rfl rfl)) (sp _ _ rfl) (.one _ ?_)
  exact .string _ (str! "<b>") (nb _ rfl) rfl
    (.plain _ _ (by decide) (by decide) (.plain _ _ (by decide) (by decide) (.plain _ _ (by decide) (by decide) .nil))) rfl

/-- C69 is false: `(%symbol "%x")` expands to a symbol that is printed as `%x`, and
expanding this is an error. -/
theorem C69_symbol_false : ∃ code ns, code = str! "(%symbol \"%x\")" ∧
    (expand exExt (fun _ l => l) 9 (str! "a.sex") code).1 = .ok ns ∧ sexpNodes exQuote ns = str! "%x" ∧
    ∃ e, (expand exExt (fun _ l => l) 9 (str! "a.sex") (sexpNodes exQuote ns)).1 = .err e := by
  obtain ⟨ns, h1, h2⟩ := Res.okP_elim (r := (expand exExt (fun _ l => l) 9 (str! "a.sex") (str! "(%symbol \"%x\")")).1)
    (p := fun ns => sexpNodes exQuote ns == str! "%x") (by decide +kernel)
  have h2 : sexpNodes exQuote ns = str! "%x" := by simpa using h2
  refine ⟨_, ns, rfl, h1, h2, ?_⟩
  rw [h2]
  obtain ⟨e, he, _⟩ := Res.errP_elim (r := (expand exExt (fun _ l => l) 9 (str! "a.sex") (str! "%x")).1)
    (p := fun _ => true) (by decide +kernel)
  exact ⟨e, he⟩

end Seam
