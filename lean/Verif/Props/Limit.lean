import Verif.Props.Report
import Verif.Props.Tree
import Verif.Props.Expand
import Verif.Lemmas.Blow

/-!
# Long lines in errors (C113)

`reportIn limit` prints errors with a Rust version in which format widths are limited; `limit` is 65535.
-/

namespace Seam
open Spec

/-- C113: an error can be printed exactly if the text to the left of the piece it is about and that piece are at most
`limit` columns wide, and so is the line number with its frame.  The text is then the same as without a limit. -/
theorem C113_exactly (ext : Ext) (order : Order) (ho : Fair order) (fuel : Nat) (path code : Str) (e : Err)
    (h : (expand ext order fuel path code).1 = .err e) (width : Str → Nat) (hw : AsciiColumns width) (limit : Nat) (what msg : Str) :
    ∃ p c above left text rest, Source ext path code p c ∧ Marks e.site p c above left text rest ∧
      (width left ≤ limit ∧ width text ≤ limit ∧ (natStr e.site.line).length + 4 ≤ limit →
        reportIn limit width what msg e.site = some (errorText width what msg p e.site.line left text (upToNewline (text ++ rest)))) ∧
      (limit < width left ∨ limit < width text ∨ limit < (natStr e.site.line).length + 4 →
        reportIn limit width what msg e.site = none) := by
  obtain ⟨p, c, above, left, text, rest, h1, h2, h3⟩ := C63_expansion_errors ext order ho fuel path code e h width hw what msg
  obtain ⟨k1, k2, k3⟩ := h2.slices
  refine ⟨p, c, above, left, text, rest, h1, h2, ?_, ?_⟩
  · rintro ⟨l1, l2, l3⟩
    simp only [reportIn, Site.lineColumn, Site.width, k1, k2, Option.map_some, Option.bind_eq_bind, Option.bind_some,
      Nat.add_sub_cancel, prefix_width hw, if_neg (Nat.not_lt.2 l1), if_neg (Nat.not_lt.2 l2), if_neg (Nat.not_lt.2 l3)]
    exact h3
  · intro hl
    simp only [reportIn, Site.lineColumn, Site.width, k1, k2, Option.map_some, Option.bind_eq_bind, Option.bind_some,
      Nat.add_sub_cancel, prefix_width hw]
    rcases hl with hl | hl | hl <;> simp [hl]

/-- C113: if the source and all files are at most `limit` columns wide in total, every error can be printed. -/
theorem C113_short_files (ext : Ext) (order : Order) (ho : Fair order) (fuel : Nat) (path code : Str) (e : Err)
    (h : (expand ext order fuel path code).1 = .err e) (width : Str → Nat) (hw : AsciiColumns width) (limit : Nat) (what msg : Str)
    (hs : ∀ p c, Source ext path code p c → ∀ x, x <:+: c → width x ≤ limit) (hl : (natStr e.site.line).length + 4 ≤ limit) :
    ∃ p c above left text rest, Source ext path code p c ∧ Marks e.site p c above left text rest ∧
      reportIn limit width what msg e.site = some (errorText width what msg p e.site.line left text (upToNewline (text ++ rest))) := by
  obtain ⟨p, c, above, left, text, rest, h1, h2, h3, _⟩ := C113_exactly ext order ho fuel path code e h width hw limit what msg
  refine ⟨p, c, above, left, text, rest, h1, h2, h3 ⟨hs p c h1 left ?_, hs p c h1 text ?_, hl⟩⟩
  · exact ⟨above, text ++ rest, by rw [h2.code_eq]; simp⟩
  · exact ⟨above ++ left, rest, by rw [h2.code_eq]⟩

/-- A source with an undefined variable behind so many blanks. -/
def farRight (n : Nat) : Str := List.replicate n ' ' ++ str! "%x"

theorem farRight_chars {n : Nat} {c : Char} (h : c ∈ farRight n) : c = ' ' ∨ c = '%' ∨ c = 'x' := by
  simp only [farRight, List.mem_append, List.mem_replicate] at h
  rcases h with h | h
  · exact .inl h.2
  · exact .inr (by simpa using h)

theorem farRight_blen : ∀ {s : Str}, (∀ c ∈ s, c = ' ' ∨ c = '%' ∨ c = 'x') → blen s = s.length
  | [], _ => rfl
  | c :: s, h => by
    have h1 := farRight_blen (s := s) fun d hd => h d (List.mem_cons_of_mem _ hd)
    have h2 : c.utf8Size = 1 := by rcases h c List.mem_cons_self with rfl | rfl | rfl <;> decide
    simp only [blen_cons, h1, h2, List.length_cons]
    omega

/-- C113: for every limit there is a source whose error cannot be printed: one with a mistake to the right of
as many columns.  Without a limit it can be printed. -/
theorem C113_long_line (limit : Nat) : ∃ code : Str, code.length = limit + 3 ∧ ∀ (ext : Ext) (order : Order) (path : Str), ∃ e,
    ExpandsTo ext order path code (.err e) ∧ ∀ width, AsciiColumns width → ∀ what msg,
      reportIn limit width what msg e.site = none ∧ report width what msg e.site ≠ none := by
  refine ⟨farRight (limit + 1), by simp [farRight], fun ext order path => ?_⟩
  obtain ⟨tree, h1, h2⟩ := C14_sexp_reads_back ext.unescape id [.symbol ⟨str! "%x", default, List.replicate (limit + 1) ' '⟩]
    (.one _ (.symbol _ (by intro c hc; simp [List.mem_replicate] at hc; subst hc; decide) (word_of _ rfl rfl))) path 1
  have hcode : sexpNodes id [.symbol ⟨str! "%x", default, List.replicate (limit + 1) ' '⟩] = farRight (limit + 1) := by
    simp [sexpNodes, sexpNode, farRight]
  rw [hcode] at h1
  obtain ⟨n, rfl, hv, hlw⟩ : ∃ n : Node, tree = [.symbol n] ∧ n.value = str! "%x" ∧ n.lw = List.replicate (limit + 1) ' ' := by
    match tree, h2 with
    | [.symbol a], h2 => exact ⟨a, rfl, h2.1.1.symm, h2.1.2.symm⟩
  obtain ⟨e, he, hsite⟩ := C35_undefined ext n ['x'] { scope := Scope.empty, fresh := 2, log := [], hashes := 0, order := order } hv rfl
  refine ⟨e, .inl ⟨_, _, h1, he⟩, fun width hw what msg => ?_⟩
  have hwi : Within (.symbol n) [.symbol n] := .here _ List.mem_cons_self
  obtain ⟨above, left, right, below, c1, c2, c3, c4, c5, c6, c7, c8, c9⟩ := C02_columns_from_line_start _ _ _ h1 _ hwi
  obtain ⟨before, triv, text, after, d1, d2, d3, d4⟩ := C04_leading_whitespace _ _ _ h1 _ hwi
  obtain ⟨b', t', a', s1, s2, s3, s4⟩ := C01_site_selects_own_text _ _ _ h1 _ hwi
  have hch : ∀ c ∈ farRight (limit + 1), c = ' ' ∨ c = '%' ∨ c = 'x' := fun c hc => farRight_chars hc
  have ha : above = [] := by
    rcases c2 with c2 | ⟨a, rfl⟩
    · exact c2
    · have : '\n' ∈ farRight (limit + 1) := by
        rw [show farRight (limit + 1) = _ from c1]; simp
      rcases hch _ this with h | h | h <;> exact absurd h (by decide)
  subst ha
  have hl : ∀ c ∈ left, c = ' ' ∨ c = '%' ∨ c = 'x' := fun c hc => hch c (by
    rw [show farRight (limit + 1) = _ from c1]; simp [hc])
  have hb : ∀ c ∈ before ++ triv, c = ' ' ∨ c = '%' ∨ c = 'x' := fun c hc => hch c (by
    rw [show farRight (limit + 1) = _ from d1]; simp only [List.mem_append] at hc ⊢; exact .inl (.inl hc))
  have h3 : limit < left.length := by
    have e1 := farRight_blen hl
    have e2 := farRight_blen hb
    have e3 : (PNode.symbol n).lw.length ≤ triv.length := (C04_lead_is_blank d3).2.length_le
    have e4 : (PNode.symbol n).lw = List.replicate (limit + 1) ' ' := hlw
    rw [e4, List.length_replicate] at e3
    rw [c6, List.nil_append, e1, e2, List.length_append] at d2
    omega
  have h4 : width left = left.length := hw left fun c hc => by
    rcases hl c hc with rfl | rfl | rfl <;> decide
  have hs' : e.site = (PNode.symbol n).site := hsite
  rw [hs']
  constructor
  · simp only [reportIn, Site.lineColumn, Site.width, c8, s3, Option.map_some, Option.bind_eq_bind, Option.bind_some,
      Nat.add_sub_cancel, h4, if_pos h3]
    split <;> rfl
  · simp [report, Site.lineColumn, Site.width, Site.display, c8, s3, c9]

/-- The theorems on the source `exBroken` of Props/Report, with the limits 65535 and 3. -/
example (e : Err) (h : (expand exBrokenExt exSt.order 20 (str! "m.sex") exBroken).1 = .err e) :=
  C113_exactly exBrokenExt exSt.order exSt_fair 20 _ _ e h exWidth exWidth_ascii 65535 [] []
example : ∃ e, (expand exBrokenExt exSt.order 20 (str! "m.sex") exBroken).1 = .err e ∧
    (reportIn 65535 exWidth [] [] e.site).isSome = true ∧ (reportIn 5 exWidth [] [] e.site).isSome = true ∧
    reportIn 4 exWidth [] [] e.site = none := by
  obtain ⟨e, h1, h2⟩ := Res.errP_elim (r := (expand exBrokenExt exSt.order 20 (str! "m.sex") exBroken).1)
    (p := fun e => (reportIn 65535 exWidth [] [] e.site).isSome && (reportIn 5 exWidth [] [] e.site).isSome &&
      (reportIn 4 exWidth [] [] e.site).isNone) (by decide +kernel)
  simp only [Bool.and_eq_true, Option.isNone_iff_eq_none] at h2
  exact ⟨e, h1, h2.1.1, h2.1.2, h2.2⟩

/-- All the sources are shorter than 65536 columns, so the error can be printed. -/
example : ∃ e, (expand exBrokenExt exSt.order 20 (str! "m.sex") exBroken).1 = .err e ∧
    ∀ what msg, ∃ p c above left text rest, Source exBrokenExt (str! "m.sex") exBroken p c ∧ Marks e.site p c above left text rest ∧
      reportIn 65535 exWidth what msg e.site =
        some (errorText exWidth what msg p e.site.line left text (upToNewline (text ++ rest))) := by
  obtain ⟨e, h1, h2⟩ := Res.errP_elim (r := (expand exBrokenExt exSt.order 20 (str! "m.sex") exBroken).1)
    (p := fun e => decide ((natStr e.site.line).length + 4 ≤ 65535)) (by decide +kernel)
  refine ⟨e, h1, fun what msg => C113_short_files exBrokenExt exSt.order exSt_fair 20 _ _ e h1 exWidth exWidth_ascii 65535
    what msg (fun p c h x hx => ?_) (of_decide_eq_true h2)⟩
  refine Nat.le_trans hx.length_le ?_
  rcases h with ⟨_, rfl⟩ | h
  · decide
  · simp only [exBrokenExt] at h
    split at h
    · cases h; decide
    · cases h

end Seam
