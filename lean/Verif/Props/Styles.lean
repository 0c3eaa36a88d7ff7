import Verif.Lemmas.Styles
import Verif.Props.Written

/-!
# Reading the style sheet back gives the rules (C94)
-/

namespace Seam
open Spec

/-- C94: the style sheet can be written, and reading it gives exactly the rules of the tree. -/
theorem C94_sheet (quote : Str → Str) (tree : List PNode) (is : List CssItem) (h : SheetItems quote tree is) :
    ∃ out, cssDocument quote tree = .ok out ∧ readCss out = some is := by
  obtain ⟨t, h1, h2⟩ := sheetItems_reads h
  cases h with
  | nil => exact ⟨str! "\n", rfl, by rfl⟩
  | cons ns s e w rest i is h3 h4 h5 =>
    exact ⟨t, (C75_document quote _ t).2 (Or.inr ⟨by simp, h1⟩), readsItems_read h2⟩

/-- C94: so two trees with the same style sheet have the same rules. -/
theorem C94_same (quote : Str → Str) (tree tree' : List PNode) (is is' : List CssItem) (h : SheetItems quote tree is)
    (h' : SheetItems quote tree' is') (he : cssDocument quote tree = cssDocument quote tree') : is = is' := by
  obtain ⟨out, h1, h2⟩ := C94_sheet quote tree is h
  obtain ⟨out', h3, h4⟩ := C94_sheet quote tree' is' h'
  rw [h1, h3] at he
  cases he
  rw [h2] at h4
  exact Option.some.inj h4

/-- C94: brackets and quotes are closed in the text of a value if they are in its words; words with
white space are quoted, for which anything will do. -/
theorem C94_values (quote : Str → Str) (hq : ∀ s, Sealed (quote s)) (n : PNode) (t : Str) (h : ValueText quote n t)
    (hv : ValueSealed n) : Sealed t := valueText_sealed hq h hv

/-- C94: so they are in a word without any of the characters with a meaning in style sheets. -/
theorem C94_words (t : Str) (h : ∀ c ∈ t, c ∉ cssMarks) : Sealed t := sealed_word h

example : ∀ s, Sealed (exQuoteCss s) := exQuoteCss_sealed

/-- `(@import x.css) (@media screen :min-width 4 (p.a em :color red :font "A; B"))`. -/
def exStyles : List PNode :=
  [exList [exSym (str! "@import"), exSym (str! "x.css")],
   exList [exSym (str! "@media"), exSym (str! "screen"), exAttr (str! "min-width") (exNum (str! "4")),
    exList [exSym (str! "p.a"), exSym (str! "em"), exAttr (str! "color") (exSym (str! "red")), exAttr (str! "font") (exStr (str! "A; B"))]]]

example : SheetItems exQuoteCss exStyles [.line (str! "@import x.css"), .block (str! "@media screen (min-width: 4)")
    [.block (str! "p.a em") [.decl (str! "color") (str! "red"), .decl (str! "font") (str! "\"A; B\"")]]] := by
  have tr : ∀ t : Str, unspaced t = t → Trimmed t t := fun t h => by
    rw [unspaced_trim] at h
    have := trimmed_trim t
    rwa [h] at this
  have word : ∀ t : Str, (t.all fun c => !cssMarks.contains c) = true → Sealed t := fun t h => by
    refine sealed_word fun c hc hm => ?_
    rw [List.all_eq_true] at h
    simpa [hm] using h c hc
  have val : ∀ t : Str, (t.all fun c => !spaceChar c) = true → ∀ c ∈ t, ¬ Space c := fun t h c hc hs => by
    rw [List.all_eq_true] at h
    have := h c hc
    rw [spaceChar_eq, (space_iff c).2 hs] at this
    cases this
  have prop : ∀ k : Str, (k.all fun c => !spaceChar c && c != ':') = true → ∀ c ∈ k, ¬ Space c ∧ c ≠ ':' := fun k h c hc => by
    rw [List.all_eq_true] at h
    have := h c hc
    simp only [Bool.and_eq_true, Bool.not_eq_true', bne_iff_ne] at this
    refine ⟨fun hs => ?_, this.2⟩
    rw [spaceChar_eq, (space_iff c).2 hs] at this
    cases this.1
  have plain : ∀ a : Node, ((a.value.all fun c => !spaceChar c) = true) → ValueText exQuoteCss (.symbol a) a.value := fun a h =>
    .word _ a (Or.inl rfl) (val _ h)
  refine .cons _ _ _ _ _ _ _ (by simp) (.line _ ⟨str! "@import", default, []⟩ _ _ _ _ (Or.inl rfl) (by decide)
    (.cons (.value _ (str! "x.css") (by intros; simp [exSym]) (plain ⟨str! "x.css", default, []⟩ (by decide)) (word _ (by decide))) .nil)
    (.more _ _ _ _ (.one _)) (tr _ (by decide))) (.cons _ _ _ _ _ _ _ (by simp)
    (.block _ ⟨str! "@media", default, []⟩ [exSym (str! "screen"), exAttr (str! "min-width") (exNum (str! "4"))] _ _ _ _ _ (Or.inl rfl) (by decide)
      (by intro n hn; simp only [List.mem_cons, List.not_mem_nil, or_false] at hn; rcases hn with rfl | rfl <;> simp [exSym, exAttr])
      (.cons (.value _ (str! "screen") (by intros; simp [exSym]) (plain ⟨str! "screen", default, []⟩ (by decide)) (word _ (by decide)))
        (.cons (.attr (str! "min-width") (exNum (str! "4")) default [' '] (str! "4")
          (.word _ ⟨str! "4", default, []⟩ (Or.inr (Or.inl rfl)) (val _ (by decide))) (word _ (by decide)) (word _ (by decide))) .nil))
      (.more _ _ _ _ (.more _ _ _ _ (.one _))) (tr _ (by decide)) (by simp)
      (.cons _ _ _ _ _ _ _ (by simp) (.plain _ ⟨str! "p.a", default, []⟩ [exSym (str! "em")] _ _ _ _ _ (Or.inl rfl) (word _ (by decide))
        (by decide) (by decide) (.cons (.mk _ ⟨str! "em", default, []⟩ (Or.inl rfl) (word _ (by decide))) .nil) (by simp)
        (.more _ _ _ _ (.one _)) (tr _ (by decide))
        (.cons (.mk (str! "color") _ _ _ (str! "red") _ (plain ⟨str! "red", default, []⟩ (by decide)) (word _ (by decide)) (tr _ (by decide))
            (word _ (by decide)) (by simp) (prop _ (by decide)) (by decide))
          (.cons (.mk (str! "font") _ _ _ (exQuoteCss (str! "A; B")) _
              (.quoted _ ⟨str! "A; B", default, []⟩ (Or.inr (Or.inr rfl)) ⟨' ', by decide, by unfold Space; decide⟩) (exQuoteCss_sealed _) (tr _ (by decide))
              (word _ (by decide)) (by simp) (prop _ (by decide)) (by decide)) .nil))) .nil)) .nil)

/-- C94 is false of words with a semicolon: without white space they are not quoted, so
`(p :color "red;width:4")` is read as two properties. -/
theorem C94_words_false : cssDocument exQuoteCss [exList [exSym ['p'], exAttr (str! "color") (exStr (str! "red;width:4"))]] =
      .ok (str! "p {\n  color: red;width:4;\n}") ∧
    readCss (str! "p {\n  color: red;width:4;\n}") =
      some [.block ['p'] [.decl (str! "color") (str! "red"), .decl (str! "width") (str! "4")]] := by
  refine ⟨?_, rfl⟩
  obtain ⟨out, h1, h2⟩ := Res.okP_elim (r := cssDocument exQuoteCss [exList [exSym ['p'], exAttr (str! "color") (exStr (str! "red;width:4"))]])
    (p := fun out => decide (out = str! "p {\n  color: red;width:4;\n}")) (by decide +kernel)
  rw [h1]
  simp only [decide_eq_true_eq] at h2
  rw [h2]

end Seam
