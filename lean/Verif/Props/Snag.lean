import Verif.Lemmas.Snag
import Verif.Lemmas.Check
import Verif.Props.Markup

/-!
# Why and where generation fails (C87, and C25 and C31 exactly)
-/

namespace Seam
open Spec

/-- C87 for XML: generation reports an error exactly if the tree has a fault, in document
order, with the message for this fault and the place of the offending node. -/
theorem C87_xml (tree : List PNode) (e : Err) : xmlDocument tree = .err e ↔
    e.stage = .gen ∧ XmlFaults tree (.error e.msg e.site) := by
  rw [gens_error (gens_xmlDocument tree), xmlDocument_snags]

/-- C87 for style sheets. -/
theorem C87_css (quote : Str → Str) (tree : List PNode) (e : Err) : cssDocument quote tree = .err e ↔
    e.stage = .gen ∧ SheetFault quote "Node not expected here." tree (.error e.msg e.site) := by
  rw [gens_error (gens_cssDocument quote tree), cssDocument_snags]

/-- C87 for HTML. -/
theorem C87_html (quote : Str → Str) (tree : List PNode) (e : Err) : htmlDocument quote tree = .err e ↔
    e.stage = .gen ∧ HtmlFaults quote tree (.error e.msg e.site) := by
  rw [gens_error (gens_htmlDocument quote tree), htmlDocument_snags]

/-- C87: a tree has at most one fault, and none if it has a text. -/
theorem C87_one (quote : Str → Str) (tree : List PNode) (f : Snag) :
    (XmlFaults tree f → (∀ g, XmlFaults tree g → g = f) ∧ ∀ t, ¬ XmlTexts tree t) ∧
    (SheetFault quote "Node not expected here." tree f →
      (∀ g, SheetFault quote "Node not expected here." tree g → g = f) ∧ ∀ t, ¬ SheetText quote tree t) ∧
    (HtmlFaults quote tree f → (∀ g, HtmlFaults quote tree g → g = f) ∧ ∀ t, ¬ HtmlTexts quote tree t) := by
  refine ⟨fun h => ⟨fun g hg => ?_, fun t ht => ?_⟩, fun h => ⟨fun g hg => ?_, fun t ht => ?_⟩, fun h => ⟨fun g hg => ?_, fun t ht => ?_⟩⟩
  · exact gens_one ((xmlGenerate_snags _ _).2 hg) ((xmlGenerate_snags _ _).2 h)
  · have := (xmlGenerate_snags _ _).2 h
    rw [(xmlGenerate_iff _ _).2 ht] at this
    simp at this
  · exact gens_one ((cssGenerate_snags_iff _ _ _).2 hg) ((cssGenerate_snags_iff _ _ _).2 h)
  · have := (cssGenerate_snags_iff _ _ _).2 h
    rw [(cssGenerate_iff _ _ _).2 ht] at this
    simp at this
  · exact gens_one ((htmlGenerate_snags _ _ _).2 hg) ((htmlGenerate_snags _ _ _).2 h)
  · have := (htmlGenerate_snags _ _ _).2 h
    rw [(htmlGenerate_iff _ _ _).2 ht] at this
    simp at this

/-- C87: a tree without text has a fault. -/
theorem C87_some (quote : Str → Str) (tree : List PNode) :
    ((∃ t, XmlTexts tree t) ∨ ∃ f, XmlFaults tree f) ∧
    ((∃ t, SheetText quote tree t) ∨ ∃ f, SheetFault quote "Node not expected here." tree f) ∧
    ((∃ t, HtmlTexts quote tree t) ∨ ∃ f, HtmlFaults quote tree f) := by
  refine ⟨?_, ?_, ?_⟩
  · rcases gens_xmlKids .rest tree with ⟨t, h⟩ | ⟨f, h⟩
    · exact .inl ⟨t, (xmlGenerate_iff _ _).1 h⟩
    · exact .inr ⟨f, (xmlGenerate_snags _ _).1 h⟩
  · rcases gens_cssGenerate quote tree with ⟨t, h⟩ | ⟨f, h⟩
    · exact .inl ⟨t, (cssGenerate_iff _ _ _).1 h⟩
    · exact .inr ⟨f, (cssGenerate_snags_iff _ _ _).1 h⟩
  · rcases gens_htmlKids quote .rest tree with ⟨t, h⟩ | ⟨f, h⟩
    · exact .inl ⟨t, (htmlGenerate_iff _ _ _).1 h⟩
    · exact .inr ⟨f, (htmlGenerate_snags _ _ _).1 h⟩

/-- C25, exactly, for XML: generation panics if and only if the first fault of the tree is a
list whose head is an empty symbol. -/
theorem C25_xml_exact (tree : List PNode) : xmlDocument tree = .panic ↔ XmlFaults tree .crash := by
  rw [gens_crash, xmlDocument_snags]

/-- C25, exactly, for HTML: generation panics if and only if the first fault of the tree is
an empty head, a `pre` element whose text is not in one place, or a list that is no rule (in
the sense of C31) in a `style` element. -/
theorem C25_html_exact (quote : Str → Str) (tree : List PNode) : htmlDocument quote tree = .panic ↔ HtmlFaults quote tree .crash := by
  rw [gens_crash, htmlDocument_snags]

/-- C31, exactly: style sheet generation panics if and only if the first fault is a list in
the place of a rule that is empty or starts with a list or attribute. -/
theorem C31_exact (quote : Str → Str) (tree : List PNode) : cssDocument quote tree = .panic ↔
    SheetFault quote "Node not expected here." tree .crash := by
  rw [gens_crash, cssDocument_snags]

/-! ## Examples -/

/-- `(p (img x))`, with a place for the offending `x`. -/
def exVoid : List PNode :=
  [exList [exSym (str! "p"), exList [exSym (str! "img"), .symbol ⟨['x'], { (default : Site) with off := 8 }, [' ']⟩]]]

example : htmlDocument id exVoid =
    .err { stage := .gen, msg := "A void element cannot have children.", site := { (default : Site) with off := 8 } } := by
  refine (C87_html id exVoid _).2 ⟨rfl, ?_⟩
  refine .here _ _ _ (.content ⟨['p'], default, []⟩ [] _ default default [] [] _ (by simp) (by simp) (by decide) .nil ?_ ?_)
  · intro n hn
    simp at hn
    subst hn
    simp [NoAttr, exList]
  · refine .html _ _ _ _ (by decide) (.here _ _ _ ?_)
    exact .void ⟨str! "img", default, []⟩ [] [] _ default default [] [] (by decide) .nil (by simp [NoAttr])

/-- In XML the same document is fine. -/
example : ∀ e, xmlDocument exVoid ≠ .err e := by
  intro e h
  have : (xmlDocument exVoid).okP (fun _ => true) = true := by decide +kernel
  rw [h] at this
  cases this

/-- A raw node in an element, after a node without a fault. -/
example : XmlFaults [exSym ['a'], exList [exSym ['p'], .raw ⟨['<'], { (default : Site) with off := 3 }, []⟩]]
    (.error "Unexpected node when generating." { (default : Site) with off := 3 }) := by
  obtain ⟨t, ht⟩ := (xmlText_iff (exSym ['a']) []).2 ⟨_, rfl⟩
  refine .later _ _ _ t ht (.here _ _ _ (.content ⟨['p'], default, []⟩ [] _ default default [] [] _ (by simp) (by simp) (by simp) .nil ?_
    (.here _ _ _ (.raw _))))
  intro n hn
  simp at hn
  subst hn
  simp [NoAttr]

/-- `(a) ()` in a style sheet: the first rule has selectors only. -/
example : SheetFault id "Node not expected here." [exList [exSym ['a']], exList []]
    (.error "CSS property-value pairs must be in the form of attributes." default) :=
  .here _ _ _ _ _ _ _ (.bare _ ⟨['a'], default, []⟩ [] _ (by simp [IsAtom, exSym]) (by decide) (by decide)
    (by simp [IsAtom, exSym]) rfl)

/-- `(a :b c) ()`: the second rule crashes. -/
example : cssDocument id [exList [exSym ['a'], exAttr ['b'] (exSym ['c'])], exList []] = .panic :=
  (C31_exact id _).2 (.later _ _ _ _ _ _ _ _
    (.plain _ ⟨['a'], default, []⟩ [] _ [] _ (by simp [IsAtom, exSym]) (by decide) (by decide) .nil (by simp)
      (.cons (.mk _ _ _ _ _ (.word _ ⟨['c'], default, []⟩ (by simp [exSym]) (by simp [Space, whiteSpace]))) .nil))
    (.here _ _ _ _ _ _ _ .empty))

end Seam
