import Verif.Lemmas.Written
import Verif.Lemmas.Unplaced
import Verif.Props.Markup
import Verif.Props.Css

/-!
# The exact text of the output formats (C75–C80)

The generators against the grammars of `Spec.Sheet` and `Spec.Written`.
-/

namespace Seam
open Spec

/-! ## C75 -/

/-- C75: CSS is generated exactly for the trees that have a text as a style sheet,
and it is that text. -/
theorem C75_sheet (quote : Str → Str) (tree : List PNode) (t : Str) :
    cssGenerate quote tree = .ok t ↔ SheetText quote tree t := cssGenerate_iff quote tree t

/-- C75: a document without rules is a line break, any other is its text. -/
theorem C75_document (quote : Str → Str) (tree : List PNode) (t : Str) :
    cssDocument quote tree = .ok t ↔ (tree = [] ∧ t = str! "\n") ∨ (tree ≠ [] ∧ SheetText quote tree t) := by
  unfold cssDocument
  cases tree with
  | nil => simp [eq_comm]
  | cons n ns => simpa using cssGenerate_iff quote (n :: ns) t

/-- C75: the text of a value is what the grammar of values says. -/
theorem C75_value (quote : Str → Str) (n : PNode) (t : Str) : cssValue quote n = .ok t ↔ ValueText quote n t :=
  ⟨cssValue_text quote n t, text_cssValue quote⟩

/-- `(p :width (calc (+ 1em 2px)) :font "A B")` in a nested rule, after an import. -/
def exSheet : List PNode :=
  [exList [exSym (str! "@import"), exSym (str! "x.css")],
   exList [exSym (str! "@media"), exSym (str! "screen"), exAttr (str! "min-width") (exNum (str! "4")),
    exList [exSym (str! "p"),
      exAttr (str! "width") (exList [exSym (str! "calc"), exList [exSym (str! "+"), exNum (str! "1em"), exNum (str! "2px")]]),
      exAttr (str! "font") (exStr (str! "A B"))]]]

example : SheetText (fun s => '"' :: s ++ ['"']) exSheet
    (str! "@import x.css ;\n@media screen (min-width: 4) {\np {\n  width: calc((1em + 2px));\n  font: \"A B\";\n}}") :=
  (C75_sheet _ _ _).1 (by decide +kernel)

/-! ## C76 -/

/-- C76: XML is generated exactly for the trees that have a text in XML, and it is
that text. -/
theorem C76_xml (tree : List PNode) (t : Str) : xmlGenerate tree = .ok t ↔ XmlTexts tree t := xmlGenerate_iff tree t

example : XmlTexts [exList [exSym (str! "?xml"), exAttr (str! "version") (exStr (str! "1.0"))],
      exList [exSym ['a'], exAttr ['x'] (exNum ['1']), exStr (str! "<b"), exList [exSym ['c']]]]
    (str! "<?xml version=\"1.0\" ?><a x=\"1\">&lt;b<c></c></a>") :=
  (C76_xml _ _).1 (by decide +kernel)

/-! ## C77 -/

/-- C77: HTML is generated exactly for the trees that have a text in HTML, and it is
that text. -/
theorem C77_html (quote : Str → Str) (tree : List PNode) (t : Str) :
    htmlGenerate quote tree = .ok t ↔ HtmlTexts quote tree t := htmlGenerate_iff quote tree t

example : HtmlTexts id [exList [exSym (str! "!doctype"), exSym (str! "html")],
      exList [exSym (str! "DIV"), exAttr ['x'] (exNum ['1']), exList [exSym (str! "br")],
        exList [exSym (str! "title"), exList [exSym ['a']]], exList [exSym (str! "style"), exStr (str! "b{}")],
        exList [exSym (str! "script"), exList [exSym ['f'], exStr (str! "x")]],
        exList [exSym (str! "svg"), exList [exSym (str! "br")]]]]
    (str! "<!doctype html><DIV x=\"1\"><br><title>(a)</title><style>b{}</style><script>(fx)</script><svg><br></br></svg></div>") :=
  (C77_html _ _ _).1 (by decide +kernel)

/-! ## C78 -/

/-- C78: plain text is written as the grammar says, for every tree. -/
theorem C78_text (tree : List PNode) (t : Str) : textNodes tree = t ↔ PlainTexts tree t :=
  ⟨fun h => h ▸ textNodes_text tree, text_textNodes⟩

/-- C78: so are S-expressions. -/
theorem C78_sexp (quote : Str → Str) (tree : List PNode) (t : Str) : sexpNodes quote tree = t ↔ CodeTexts quote tree t :=
  ⟨fun h => h ▸ sexpNodes_text quote tree, text_sexpNodes quote⟩

example : CodeTexts id [exList [exSym ['a'], .raw ⟨['r'], default, [' ']⟩]] (str! "(a (%raw r))") :=
  (C78_sexp _ _ _).1 (by decide +kernel)

/-! ## C79 -/

theorem sheetText_append {quote : Str → Str} {b : List PNode} {t : Str} : ∀ {a : List PNode},
    SheetText quote (a ++ b) t ↔ ∃ u v, SheetText quote a u ∧ SheetText quote b v ∧ t = u ++ v := by
  intro a
  induction a generalizing t with
  | nil =>
    constructor
    · intro h; exact ⟨[], t, .nil, h, rfl⟩
    · rintro ⟨u, v, hu, hv, rfl⟩; cases hu; exact hv
  | cons n ns ih =>
    constructor
    · intro h
      cases h with
      | cons ks s e w rest x y hx hy =>
        obtain ⟨u, v, hu, hv, rfl⟩ := ih.1 hy
        exact ⟨w ++ x ++ u, v, .cons _ _ _ _ _ _ _ hx hu, hv, by simp⟩
    · rintro ⟨u, v, hu, hv, rfl⟩
      cases hu with
      | cons ks s e w rest x y hx hy =>
        have := SheetText.cons ks s e w (ns ++ b) x (y ++ v) hx (ih.2 ⟨y, v, hy, hv, rfl⟩)
        simpa using this

theorem xmlTexts_append {b : List PNode} {t : Str} : ∀ {a : List PNode},
    XmlTexts (a ++ b) t ↔ ∃ u v, XmlTexts a u ∧ XmlTexts b v ∧ t = u ++ v := by
  intro a
  induction a generalizing t with
  | nil =>
    constructor
    · intro h; exact ⟨[], t, .nil, h, rfl⟩
    · rintro ⟨u, v, hu, hv, rfl⟩; cases hu; exact hv
  | cons n ns ih =>
    constructor
    · intro h
      cases h with
      | cons _ _ x y hx hy =>
        obtain ⟨u, v, hu, hv, rfl⟩ := ih.1 hy
        exact ⟨x ++ u, v, .cons _ _ _ _ hx hu, hv, by simp⟩
    · rintro ⟨u, v, hu, hv, rfl⟩
      cases hu with
      | cons _ _ x y hx hy =>
        have := XmlTexts.cons n (ns ++ b) x (y ++ v) hx (ih.2 ⟨y, v, hy, hv, rfl⟩)
        simpa using this

theorem htmlTexts_append {quote : Str → Str} {b : List PNode} {t : Str} : ∀ {a : List PNode},
    HtmlTexts quote (a ++ b) t ↔ ∃ u v, HtmlTexts quote a u ∧ HtmlTexts quote b v ∧ t = u ++ v := by
  intro a
  induction a generalizing t with
  | nil =>
    constructor
    · intro h; exact ⟨[], t, .nil, h, rfl⟩
    · rintro ⟨u, v, hu, hv, rfl⟩; cases hu; exact hv
  | cons n ns ih =>
    constructor
    · intro h
      cases h with
      | cons _ _ x y hx hy =>
        obtain ⟨u, v, hu, hv, rfl⟩ := ih.1 hy
        exact ⟨x ++ u, v, .cons _ _ _ _ hx hu, hv, by simp⟩
    · rintro ⟨u, v, hu, hv, rfl⟩
      cases hu with
      | cons _ _ x y hx hy =>
        have := HtmlTexts.cons n (ns ++ b) x (y ++ v) hx (ih.2 ⟨y, v, hy, hv, rfl⟩)
        simpa using this

/-- C79: the CSS of two pieces one after the other is the CSS of the first and then
that of the second. -/
theorem C79_css (quote : Str → Str) (a b : List PNode) (t : Str) : cssGenerate quote (a ++ b) = .ok t ↔
    ∃ u v, cssGenerate quote a = .ok u ∧ cssGenerate quote b = .ok v ∧ t = u ++ v := by
  simp only [C75_sheet, sheetText_append]

/-- C79 for XML. -/
theorem C79_xml (a b : List PNode) (t : Str) : xmlGenerate (a ++ b) = .ok t ↔
    ∃ u v, xmlGenerate a = .ok u ∧ xmlGenerate b = .ok v ∧ t = u ++ v := by
  simp only [C76_xml, xmlTexts_append]

/-- C79 for HTML. -/
theorem C79_html (quote : Str → Str) (a b : List PNode) (t : Str) : htmlGenerate quote (a ++ b) = .ok t ↔
    ∃ u v, htmlGenerate quote a = .ok u ∧ htmlGenerate quote b = .ok v ∧ t = u ++ v := by
  simp only [C77_html, htmlTexts_append]

/-- C79 for plain text. -/
theorem C79_text : ∀ (a b : List PNode), textNodes (a ++ b) = textNodes a ++ textNodes b
  | [], b => rfl
  | n :: a, b => by rw [List.cons_append, textNodes, textNodes, C79_text a b, List.append_assoc]

/-- C79 for S-expressions. -/
theorem C79_sexp (quote : Str → Str) : ∀ (a b : List PNode), sexpNodes quote (a ++ b) = sexpNodes quote a ++ sexpNodes quote b
  | [], b => rfl
  | n :: a, b => by rw [List.cons_append, sexpNodes, sexpNodes, C79_sexp quote a b, List.append_assoc]

example : htmlGenerate id ([exSym ['a']] ++ [exList [exSym ['p']]]) = .ok (str! "a<p></p>") :=
  (C79_html _ _ _ _).2 ⟨str! "a", str! "<p></p>", by decide +kernel, by decide +kernel, rfl⟩

/-! ## C80 -/

/-- C80: two trees that differ only in the positions of their nodes (file, line,
column, source text) have the same CSS... -/
theorem C80_css (quote : Str → Str) (a b : List PNode) (h : unplaceds a = unplaceds b) (t : Str) :
    (cssGenerate quote a = .ok t ↔ cssGenerate quote b = .ok t) ∧
    (cssDocument quote a = .ok t ↔ cssDocument quote b = .ok t) := by
  rw [← unplaced_css quote a t, ← unplaced_css quote b t, ← unplaced_cssDocument quote a t, ← unplaced_cssDocument quote b t, h]
  exact ⟨Iff.rfl, Iff.rfl⟩

/-- C80: ...the same XML... -/
theorem C80_xml (a b : List PNode) (h : unplaceds a = unplaceds b) (t : Str) :
    (xmlGenerate a = .ok t ↔ xmlGenerate b = .ok t) ∧ (xmlDocument a = .ok t ↔ xmlDocument b = .ok t) := by
  have ha := unplaced_xmlKids .rest a t
  have hb := unplaced_xmlKids .rest b t
  rw [h] at ha
  refine ⟨ha.symm.trans hb, ?_⟩
  rw [← unplaced_xmlDocument a t, ← unplaced_xmlDocument b t, h]

/-- C80: ...the same plain text and S-expressions... -/
theorem C80_text (quote : Str → Str) (a b : List PNode) (h : unplaceds a = unplaceds b) :
    textNodes a = textNodes b ∧ sexpNodes quote a = sexpNodes quote b := by
  rw [← unplaceds_text a, ← unplaceds_text b, ← unplaceds_sexp quote a, ← unplaceds_sexp quote b, h]
  exact ⟨rfl, rfl⟩

/-- C80: ...and the same HTML if there is no `pre` element in one of them (and so in the other). -/
theorem C80_html_partial (quote : Str → Str) (a b : List PNode) (h : unplaceds a = unplaceds b)
    (hp : ∀ h rest s e w, InLists (.list (.symbol h :: rest) s e w) a → h.value.map lowerChar ≠ str! "pre") (t : Str) :
    (htmlGenerate quote a = .ok t ↔ htmlGenerate quote b = .ok t) ∧
    (htmlDocument quote a = .ok t ↔ htmlDocument quote b = .ok t) := by
  have hq := unplaceds_heads (P := fun v => v.map lowerChar ≠ str! "pre") h hp
  have ha := unplaced_htmlKids quote .rest a hp t
  have hb := unplaced_htmlKids quote .rest b hq t
  rw [h] at ha
  refine ⟨ha.symm.trans hb, ?_⟩
  rw [← unplaced_htmlDocument quote a hp t, ← unplaced_htmlDocument quote b hq t, h]

/-- A `pre` element with the given source text. -/
def exPreAt (code : Str) : List PNode :=
  [.list [exSym (str! "pre"), .symbol ⟨['x'], { (default : Site) with code := code, off := 5 }, []⟩] default
    { (default : Token) with site := { (default : Site) with code := code, off := 6 } } []]

/-- C80 is false with `pre` elements: the text of those is taken from the source. -/
theorem C80_html_false : ∃ a b t u, unplaceds a = unplaceds b ∧
    htmlGenerate id a = .ok t ∧ htmlGenerate id b = .ok u ∧ t ≠ u := by
  exact ⟨exPreAt (str! "(pre x)"), exPreAt (str! "(pre y)"), str! "<pre>x</pre>", str! "<pre>y</pre>", rfl,
    by decide +kernel, by decide +kernel, by decide⟩

/-- The same element on another line of another file. -/
example : unplaceds [exList [exSym ['p'], .string ⟨['x'], { (default : Site) with line := 7 }, [' ']⟩]] =
    unplaceds [exList [exSym ['p'], .string ⟨['x'], { (default : Site) with line := 9, path := str! "f" }, [' ']⟩]] ∧
    (∀ h rest s e w, InLists (.list (.symbol h :: rest) s e w)
      [exList [exSym ['p'], .string ⟨['x'], { (default : Site) with line := 7 }, [' ']⟩]] → h.value.map lowerChar ≠ str! "pre") ∧
    htmlGenerate id [exList [exSym ['p'], .string ⟨['x'], { (default : Site) with line := 7 }, [' ']⟩]] = .ok (str! "<p>x</p>") := by
  refine ⟨rfl, ?_, by decide +kernel⟩
  intro h rest s e w hi
  cases hi with
  | here _ hm => simp [exList, exSym] at hm; rw [hm.1.1]; decide
  | deeper _ ks s e w hm hi =>
    simp [exList] at hm
    rw [hm.1] at hi
    cases hi with
    | here _ hm => simp [exSym] at hm
    | deeper _ ks s e w hm hi => simp [exSym] at hm

end Seam
