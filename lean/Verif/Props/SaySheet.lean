import Verif.Lemmas.SaySheet
import Verif.Props.Styles
import Verif.Spec.Cli

/-! C106: there is a program for every style sheet. -/

namespace Seam
open Spec

/-- C106, CSS: for every list of rules (any selectors before at least one declaration, `@`-rules on one line, and `@`-rules around
further rules) there is a source text for which a style sheet is printed that a reader takes for exactly these rules. -/
theorem C106_css (is : List CssItem) (h : SayableRules is) :
    ∃ src : Str, ∀ (ext : Ext) (order : Order) (dbg : Str → Str) (doc : Bool) (path : Str), UnescapesQuotes ext.unescape →
      ∃ out, Prints ext order dbg (str! "css") doc (path, some src) out ∧ readCss out = some is := by
  obtain ⟨ns, n1, _, n3⟩ := rules_say h
  refine ⟨sexpNodes literally ns, fun ext order dbg doc path hu => ?_⟩
  obtain ⟨ms, h1, h2⟩ := C14_sexp_reads_back ext.unescape literally _ (n1 _ hu) path 1
  obtain ⟨rs, h3, h4⟩ := n3 ms h2
  obtain ⟨out, h5, h6⟩ := C94_sheet dbg rs is (h4 dbg)
  cases rs with
  | nil =>
    have hi : is = [] := by have := h4 dbg; cases this; rfl
    subst hi
    cases doc with
    | true => exact ⟨out, ⟨_, [], rfl, .inl ⟨ms, _, h1, h3 ext _⟩, congrArg some h5⟩, h6⟩
    | false => exact ⟨[], ⟨_, [], rfl, .inl ⟨ms, _, h1, h3 ext _⟩, rfl⟩, rfl⟩
  | cons r rs =>
    refine ⟨out, ⟨_, _, rfl, .inl ⟨ms, _, h1, h3 ext _⟩, ?_⟩, h6⟩
    have h7 : cssGenerate dbg (r :: rs) = .ok out := h5
    cases doc with
    | true => exact congrArg some h5
    | false => exact congrArg some h7

/-- A style sheet with white space, commas, brackets and quotes in selectors and values, and a rule within a rule. -/
def exSaySheet : List CssItem :=
  [.line (str! "@import url(\"a;b.css\") screen"),
   .block (str! "h1 > em, a[href=\"x\"]") [.decl (str! "margin") (str! "0 4px"), .decl (str! "--x") (str! "({a;b})")],
   .block (str! "@media screen and (min-width: 4px)") [.block (str! "p:hover") [.decl (str! "font") (str! "12px \"A; B\", serif")]]]

example : SayableRules exSaySheet := by
  have tr : ∀ t : Str, (∀ c ∈ t.head?.toList, c.toNat ∉ whiteSpace) → (∀ c ∈ t.getLast?.toList, c.toNat ∉ whiteSpace) → Trimmed t t :=
    fun t h1 h2 => ⟨[], [], by simp, by simp, by simp, fun c hc => h1 c (by simpa using hc), fun c hc => h2 c (by simpa using hc)⟩
  have neat : ∀ t : Str, scansCss .plain [] t = some (.plain, []) → (∀ c ∈ t.head?.toList, c.toNat ∉ whiteSpace) →
      (∀ c ∈ t.getLast?.toList, c.toNat ∉ whiteSpace) → Neat t := fun t h h1 h2 => ⟨⟨_, rfl, h⟩, tr t h1 h2⟩
  have decl : ∀ k v : Str, Neat v → scansCss .plain [] k = some (.plain, []) → k ≠ [] →
      (∀ c ∈ k, c.toNat ∉ whiteSpace ∧ c ≠ ':' ∧ identChar c = true) → k.head? ≠ some '@' → SayableDecl k v :=
    fun k v h1 h2 h3 h4 h5 => ⟨h1, ⟨_, rfl, h2⟩, h3, h4, h5⟩
  refine .cons _ _ (.line (str! "@import") _ (by decide) (.inr ⟨str! "url(\"a;b.css\") screen", by decide, neat _ rfl (by decide) (by decide), rfl⟩))
    (.cons _ _ (.rule _ [(_, _), (_, _)] (neat _ rfl (by decide) (by decide)) (by decide) (by decide) (by simp) ?_)
    (.cons _ _ (.block (str! "@media") _ _ (by decide) (.inr ⟨str! "screen and (min-width: 4px)", by decide, neat _ rfl (by decide) (by decide), rfl⟩)
      (by simp) (.cons _ _ (.rule _ [(_, _)] (neat _ rfl (by decide) (by decide)) (by decide) (by decide) (by simp) ?_) .nil)) .nil))
  · intro d hd
    simp only [List.mem_cons, List.not_mem_nil, or_false] at hd
    rcases hd with rfl | rfl <;> exact decl _ _ (neat _ rfl (by decide) (by decide)) rfl (by decide) (by decide) (by decide)
  · intro d hd
    simp only [List.mem_cons, List.not_mem_nil, or_false] at hd
    subst hd
    exact decl _ _ (neat _ rfl (by decide) (by decide)) rfl (by decide) (by decide) (by decide)

end Seam
