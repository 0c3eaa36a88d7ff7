import Verif.Lemmas.StackRun
import Verif.Lemmas.Check
import Verif.Props.Markup

/-!
C102: the stack that is needed to read, expand and write a document grows with its nesting, not with
its length.
-/

namespace Seam
open Spec Stacked

/-- C102: on a bounded stack every outcome is that of the unbounded functions, unless the stack
overflows: the reader. -/
theorem C102_same (u : Unescape) (levels : Nat) (b : Buf) : parseIn u levels b = overflow ∨ parseIn u levels b = fits (parse u b) :=
  root_onStack u _ levels _

/-- C102: a source that is read needs exactly as many levels as its tree is deep, however long it is. -/
theorem C102_reads (u : Unescape) (levels : Nat) (b : Buf) (ns : List PNode) (h : parse u b = .ok ns) :
    (nestings ns ≤ levels → parseIn u levels b = fits (.ok ns)) ∧ (levels < nestings ns → parseIn u levels b = overflow) := by
  have h' := root_needs u _ levels _ ns h
  refine ⟨fun hl => ?_, fun hl => ?_⟩
  · exact h'.trans (if_pos hl)
  · exact h'.trans (if_neg (by omega))

/-- C102: any source, also one that is refused: if no token but closing parentheses has `levels` or
more parentheses and keywords open before it, the outcome is the same on a stack of `levels`. -/
theorem C102_enough (u : Unescape) (levels : Nat) (b : Buf) (toks : List Token) (e : Ending) (ht : TokensOf b toks e) (hl : 0 < levels)
    (h : Shallow levels [] (toks.map Token.kind)) : parseIn u levels b = fits (parse u b) := by
  have hn := tokens_length ht
  exact (C102_same u levels b).resolve_left
    (root_fits u b levels hl _ _ toks e (at_new ht) (by unfold parseFuel; omega) h)

/-- C102: the writers.  A tree of nesting `levels` at most is written on a stack of `levels` with the
same outcome, in each format. -/
theorem C102_writes (dbg : Str → Str) (levels : Nat) (tree : List PNode) (h : nestings tree ≤ levels) :
    textIn levels tree = fits (.ok (textNodes tree)) ∧
    sexpIn dbg levels tree = fits (.ok (sexpNodes dbg tree)) ∧
    xmlIn levels tree = fits (xmlGenerate tree) ∧
    htmlIn dbg levels tree = fits (htmlGenerate dbg tree) ∧
    cssIn dbg levels tree = fits (cssGenerate dbg tree) :=
  ⟨(each_fits (text_fits levels) (by simp only [textNodes]) (fun _ _ => by simp only [textNodes]) tree).enough h,
    (each_fits (sexp_fits dbg levels) (by simp only [sexpNodes]) (fun _ _ => by simp only [sexpNodes]) tree).enough h,
    (xmlKidsIn_fits (xml_fits levels) .rest tree).enough h,
    (htmlKidsIn_fits (html_fits dbg levels) .rest tree).enough h,
    (css_fits dbg levels tree).enough h⟩

/-- C102: with fewer levels the writers give the same outcome or the stack overflows. -/
theorem C102_writes_same (dbg : Str → Str) (levels : Nat) (tree : List PNode) :
    (textIn levels tree = overflow ∨ textIn levels tree = fits (.ok (textNodes tree))) ∧
    (sexpIn dbg levels tree = overflow ∨ sexpIn dbg levels tree = fits (.ok (sexpNodes dbg tree))) ∧
    (xmlIn levels tree = overflow ∨ xmlIn levels tree = fits (xmlGenerate tree)) ∧
    (htmlIn dbg levels tree = overflow ∨ htmlIn dbg levels tree = fits (htmlGenerate dbg tree)) ∧
    (cssIn dbg levels tree = overflow ∨ cssIn dbg levels tree = fits (cssGenerate dbg tree)) :=
  ⟨(each_fits (text_fits levels) (by simp only [textNodes]) (fun _ _ => by simp only [textNodes]) tree).onStack,
    (each_fits (sexp_fits dbg levels) (by simp only [sexpNodes]) (fun _ _ => by simp only [sexpNodes]) tree).onStack,
    (xmlKidsIn_fits (xml_fits levels) .rest tree).onStack,
    (htmlKidsIn_fits (html_fits dbg levels) .rest tree).onStack,
    (css_fits dbg levels tree).onStack⟩

/-- C102: the expander.  A tree without macros needs exactly as many levels as it is deep. -/
theorem C102_expands (ext : Ext) (ns : List PNode) (h : MacrosFree ns) (levels : Nat) (s : St) :
    expandNodes (run ext levels) ns s = if nestings ns ≤ levels then (.ok ns, s) else (.diverge, s) :=
  run_macrosFree ext ns h levels s

/-- C102: there is no number of levels that suffices for every source: more opening parentheses in a
row than there are levels overflow the stack, in a source that is well formed. -/
theorem C102_deep (u : Unescape) (levels : Nat) (path : Str) (id : Nat) :
    ∃ ns, parse u { path := path, id := id, code := List.replicate (levels + 1) '(' ++ List.replicate (levels + 1) ')' } = .ok ns ∧
      parseIn u levels { path := path, id := id, code := List.replicate (levels + 1) '(' ++ List.replicate (levels + 1) ')' } = overflow := by
  have h := printable_overflows u (fun s => s) (deepList levels) (deepList_printable u _ _) levels (by rw [deepList_nesting]; omega) path id
  rwa [deepList_text] at h

/-- C102: parentheses are not needed for this: keywords that have keywords as values do the same. -/
theorem C102_deep_keywords (u : Unescape) (levels : Nat) (path : Str) (id : Nat) :
    ∃ ns, parse u { path := path, id := id, code := (List.replicate levels (str! " :a")).flatten ++ str! " x" } = .ok ns ∧
      parseIn u levels { path := path, id := id, code := (List.replicate levels (str! " :a")).flatten ++ str! " x" } = overflow := by
  have h := printable_overflows u (fun s => s) (deepAttr levels) (deepAttr_printable u _ _) levels (by rw [deepAttr_nesting]; omega) path id
  rwa [deepAttr_text] at h

/-- A list in a list. -/
def exNested : List PNode := [exList [exSym (str! "p"), exList [exSym (str! "b"), exStr (str! "x")]], exSym (str! "y")]

example : nestings exNested = 3 := rfl
/-- The bound is reached. -/
example : textIn 2 exNested = overflow := rfl
example : textIn 3 exNested = fits (.ok (textNodes exNested)) := rfl
example : MacrosFree exNested := by
  repeat (first | constructor | (intro name hn; cases hn))

/-- `(p :a (b c)) d`: four levels. -/
example : ∃ ns, parse some { path := [], id := 1, code := str! "(p :a (b c)) d" } = .ok ns ∧ nestings ns = 4 := by
  obtain ⟨ns, h1, h2⟩ := Res.okP_elim (p := fun ns => nestings ns == 4)
    (show (parse some { path := [], id := 1, code := str! "(p :a (b c)) d" }).okP _ = true by decide +kernel)
  exact ⟨ns, h1, by simpa using h2⟩

/-- The tokens of `(p :a (b c)) d`: four levels suffice. -/
example : Shallow 4 [] [.lparen, .symbol, .keyword, .lparen, .symbol, .symbol, .rparen, .rparen, .symbol] := by
  intro before k after h hk
  match before with
  | [] => decide
  | [_] | [_, _] | [_, _, _] | [_, _, _, _] | [_, _, _, _, _] => simp at h; simp [← h, afterToken, valueEnds]
  | [_, _, _, _, _, _] => simp at h; exact absurd h.2.2.2.2.2.2.1.symm hk
  | [_, _, _, _, _, _, _] => simp at h; exact absurd h.2.2.2.2.2.2.2.1.symm hk
  | [_, _, _, _, _, _, _, _] =>
    simp at h
    obtain ⟨rfl, rfl, rfl, rfl, rfl, rfl, rfl, rfl, _⟩ := h
    decide
  | _ :: _ :: _ :: _ :: _ :: _ :: _ :: _ :: _ :: _ => simp at h

end Seam
