import Verif.Lemmas.SayDocument
import Verif.Props.Sayable

/-! C106: there is a program for every whole document, as printed when the output is not asked for without its wrapper. -/

namespace Seam
open Spec

theorem special_names : (fun s : Str => decide (s.map lowerChar ∈ otherContent)) = htmlSpecialName := by
  funext s
  unfold htmlSpecialName
  rw [Bool.eq_iff_iff, decide_eq_true_iff, special_other]
  rfl

/-- C106, whole HTML documents with an `html` element: there is a source for which the doctype, a line break and this document
are printed. -/
theorem C106_html_document (xs : List Dom) (h : Sayables htmlDialect (fun s => decide (s.map lowerChar ∈ otherContent)) xs)
    (hh : ∃ m as inner, .elem m as inner ∈ xs ∧ m.map lowerChar = str! "html") :
    ∃ src : Str, ∀ (ext : Ext) (order : Order) (dbg : Str → Str) (path : Str), UnescapesQuotes ext.unescape →
      ∃ out, Prints ext order dbg (str! "html") true (path, some src) out ∧
        readMarkup htmlDialect out = some (.decl (str! "!DOCTYPE html") :: .char '\n' :: xs) := by
  rw [special_names] at h
  refine ⟨sexpNodes literally (sayNodes [] xs), fun ext order dbg path hu => ?_⟩
  obtain ⟨ns, h1, h2⟩ := says_source hu h path 1
  obtain ⟨out, h3⟩ := saysAll_html dbg h [] ns h2
  have h3 := (htmlGenerate_iff dbg ns out).2 h3
  have hd : ¬ ∃ n ∈ ns, Headed (str! "!doctype") n := by
    rw [saysAll_headed h h2]
    rintro ⟨m, _, _, hm, e⟩
    exact nameOk_mark (sayables_name h hm) (.inl rfl) e
  have h4 := C23_html dbg ns out h3 hd ((saysAll_headed h h2).2 hh)
  refine ⟨_, ⟨_, ns, rfl, .inl ⟨ns, _, h1, macrosFree_evals ext ns (saysAll_free h h2) _⟩, congrArg some h4⟩, ?_⟩
  obtain ⟨is, ds, i1, i2, i3⟩ := htmlRest_reads (dbg := dbg) (f := decoded 0) (saysAll_ordinary nil_blanks h h2) (.inl rfl) h3
  have hx : Scans (str! "<!DOCTYPE html>\n") [.tag (str! "!DOCTYPE html"), .char '\n'] := fun r => rfl
  have hb : Builds htmlDialect [.tag (str! "!DOCTYPE html"), .char '\n'] [.decl (str! "!DOCTYPE html"), .char '\n'] :=
    builds_append (builds_decl (by decide) rfl) (builds_char (by decide))
  rw [reads_all (scans_append hx i1) (builds_append hb i2),
    saysAll_dom (fun c hc => by have := nameChar_ne hc; simp [htmlDialect, this.2.2.2.2.2.2.1]) h h2 i3]
  rfl

/-- C106, HTML without `html`, `head` and `body`: there is a source for which this document is printed in the body of a page. -/
theorem C106_html_wrapped (xs : List Dom) (h : Sayables htmlDialect (fun s => decide (s.map lowerChar ∈ otherContent)) xs)
    (hne : xs ≠ [])
    (hh : ∀ m as inner, .elem m as inner ∈ xs → m.map lowerChar ≠ str! "html")
    (hb : ∀ m as inner, (.elem m as inner ∈ xs ∨ ∃ m' as' inner', .elem m' as' inner' ∈ xs ∧ .elem m as inner ∈ inner') →
      m.map lowerChar ≠ str! "head" ∧ m.map lowerChar ≠ str! "body") :
    ∃ src : Str, ∀ (ext : Ext) (order : Order) (dbg : Str → Str) (path : Str), UnescapesQuotes ext.unescape →
      ∃ out, Prints ext order dbg (str! "html") true (path, some src) out ∧
        readMarkup htmlDialect out = some [.decl (str! "!DOCTYPE html"), .char '\n',
          .elem (str! "html") [] [.char '\n', .elem (str! "head") [] [], .char '\n',
            .elem (str! "body") [] (.char '\n' :: (xs ++ [.char '\n'])), .char '\n']] := by
  rw [special_names] at h
  refine ⟨sexpNodes literally (sayNodes [] xs), fun ext order dbg path hu => ?_⟩
  obtain ⟨ns, h1, h2⟩ := says_source hu h path 1
  obtain ⟨out, h3⟩ := saysAll_html dbg h [] ns h2
  have h3 := (htmlGenerate_iff dbg ns out).2 h3
  have hd : ¬ ∃ n ∈ ns, Headed (str! "!doctype") n := by
    rw [saysAll_headed h h2]
    rintro ⟨m, _, _, hm, e⟩
    exact nameOk_mark (sayables_name h hm) (.inl rfl) e
  have hh' : ¬ ∃ n ∈ ns, Headed (str! "html") n := by
    rw [saysAll_headed h h2]
    rintro ⟨m, _, _, hm, e⟩
    exact hh _ _ _ hm e
  have hns : ns ≠ [] := by
    intro e
    subst e
    cases h2
    exact hne rfl
  obtain ⟨hd1, body, body', h4, _, g1, _, g2⟩ := C23_wrapped dbg ns out h3 hns hd hh'
  have g1 := g1 (fun hn => by
    obtain ⟨m, as, inner, e, hm⟩ := saysAll_two h h2 hn
    exact (hb m as inner hm).1 e)
  obtain ⟨g2, g3⟩ := g2 (fun hn => by
    obtain ⟨m, as, inner, e, hm⟩ := saysAll_two h h2 hn
    exact (hb m as inner hm).2 e)
  subst g1
  subst g2
  subst g3
  refine ⟨_, ⟨_, ns, rfl, .inl ⟨ns, _, h1, macrosFree_evals ext ns (saysAll_free h h2) _⟩, congrArg some h4⟩, ?_⟩
  obtain ⟨is, ds, i1, i2, i3⟩ := htmlRest_reads (dbg := dbg) (f := decoded 0) (saysAll_ordinary nil_blanks h h2) (.inl rfl) h3
  have e := saysAll_dom (fun c hc => by have := nameChar_ne hc; simp [htmlDialect, this.2.2.2.2.2.2.1]) h h2 i3
  subst e
  have hx : Scans (str! "<!DOCTYPE html>\n<html>\n" ++ str! "<head></head>\n" ++ str! "<body>\n")
      [.tag (str! "!DOCTYPE html"), .char '\n', .tag (str! "html"), .char '\n', .tag (str! "head"), .tag (str! "/head"), .char '\n',
        .tag (str! "body"), .char '\n'] := fun r => rfl
  have hy : Scans (str! "\n" ++ (str! "</body>\n" ++ str! "</html>")) [.char '\n', .tag (str! "/body"), .char '\n', .tag (str! "/html")] := fun r => rfl
  have hs := scans_append (scans_append hx i1) hy
  simp only [← List.append_assoc] at hs
  have nl : Builds htmlDialect [.char '\n'] [.char '\n'] := builds_char (by decide)
  have hbody := builds_elem (d := htmlDialect) (c := 'b') (body := str! "ody") (name := str! "body") (raw := []) (by decide) rfl rfl rfl
    (builds_append (builds_append nl i2) nl)
  have hhead := builds_elem (d := htmlDialect) (c := 'h') (body := str! "ead") (name := str! "head") (raw := []) (by decide) rfl rfl rfl
    builds_nil
  have hhtml := builds_elem (d := htmlDialect) (c := 'h') (body := str! "tml") (name := str! "html") (raw := []) (by decide) rfl rfl rfl
    (builds_append (builds_append (builds_append (builds_append nl hhead) nl) hbody) nl)
  have hall := builds_append (builds_append (builds_decl (d := htmlDialect) (c := '!') (body := str! "DOCTYPE html") (by decide) rfl) nl) hhtml
  have hfin : Builds htmlDialect ([.tag (str! "!DOCTYPE html"), .char '\n', .tag (str! "html"), .char '\n', .tag (str! "head"),
      .tag (str! "/head"), .char '\n', .tag (str! "body"), .char '\n'] ++ is ++
      [.char '\n', .tag (str! "/body"), .char '\n', .tag (str! "/html")])
      [.decl (str! "!DOCTYPE html"), .char '\n', .elem (str! "html") [] [.char '\n', .elem (str! "head") [] [], .char '\n',
        .elem (str! "body") [] (.char '\n' :: (ds ++ [.char '\n'])), .char '\n']] := by
    have e1 : htmlDialect.close (str! "body") = str! "body" := rfl
    have e2 : htmlDialect.close (str! "head") = str! "head" := rfl
    have e3 : htmlDialect.close (str! "html") = str! "html" := rfl
    rw [e1, e2, e3] at hall
    simpa using hall
  exact reads_all hs hfin

/-- C106, whole XML documents: there is a source for which the declaration, a line break and this document are printed. -/
theorem C106_xml_document (xs : List Dom) (h : Sayables xmlDialect (fun _ => false) xs) :
    ∃ src : Str, ∀ (ext : Ext) (order : Order) (dbg : Str → Str) (path : Str), UnescapesQuotes ext.unescape →
      ∃ out, Prints ext order dbg (str! "xml") true (path, some src) out ∧
        readMarkup xmlDialect out = some (.decl (str! "?xml version=\"1.0\" encoding=\"UTF-8\" ?") :: .char '\n' :: xs) := by
  refine ⟨sexpNodes literally (sayNodes [] xs), fun ext order dbg path hu => ?_⟩
  obtain ⟨ns, h1, h2⟩ := says_source hu h path 1
  obtain ⟨out, h3⟩ := saysAll_xml h [] ns h2
  have h3 := (xmlGenerate_iff ns out).2 h3
  have h4 : xmlDocument ns = .ok (xmlDefault ++ out) := by
    unfold xmlDocument
    split
    · rename_i hn
      cases ns with
      | nil => cases h3; rfl
      | cons _ _ => simp at hn
    · have hf : xmlHasDecl ns = false := by
        unfold xmlHasDecl
        split
        · rename_i hd _ _ _ _ _ _ _
          rw [Bool.eq_false_iff]
          intro e
          obtain ⟨m, as, inner, hm, e'⟩ := (saysAll_headed (name := str! "?xml") h h2).1
            ⟨_, List.mem_cons_self .., _, hd, _, _, _, _, rfl, .inl rfl, by
              have e : hd.value.map lowerChar = str! "?xml" := by simpa [lower] using e
              rw [e]; decide⟩
          exact nameOk_mark (sayables_name h hm) (.inr rfl) e'
        · rfl
      rw [h3, hf]
      rfl
  refine ⟨_, ⟨_, ns, rfl, .inl ⟨ns, _, h1, macrosFree_evals ext ns (saysAll_free h h2) _⟩, congrArg some h4⟩, ?_⟩
  obtain ⟨is, ds, i1, i2, i3⟩ := xmlRest_reads (f := decoded 0) (saysAll_ordinary nil_blanks h h2) (.inl rfl) h3
  have hx : Scans xmlDefault [.tag (str! "?xml version=\"1.0\" encoding=\"UTF-8\" ?"), .char '\n'] := fun r => rfl
  have hb : Builds xmlDialect [.tag (str! "?xml version=\"1.0\" encoding=\"UTF-8\" ?"), .char '\n']
      [.decl (str! "?xml version=\"1.0\" encoding=\"UTF-8\" ?"), .char '\n'] :=
    builds_append (builds_decl (by decide) rfl) (builds_char (by decide))
  rw [reads_all (scans_append hx i1) (builds_append hb i2), saysAll_dom (fun c hc => by
    have := nameChar_ne hc; simp [xmlDialect, this.2.2.2.2.2.2.1, this.2.2.2.2.2.2.2]) h h2 i3]
  rfl

/-- The hypotheses: `html` with a text, and a paragraph alone. -/
example : Sayables htmlDialect (fun s => decide (s.map lowerChar ∈ otherContent)) [.elem (str! "Html") [] [.char '&']] ∧
    ∃ m as inner, Dom.elem m as inner ∈ [Dom.elem (str! "Html") [] [.char '&']] ∧ m.map lowerChar = str! "html" :=
  ⟨.cons _ _ (.elem _ _ _ (nameOk_dec (by decide)) ⟨rfl, by decide⟩ (by decide) (by decide) (by decide) (by simp)
    (.cons _ _ (.char _) .nil)) .nil, _, _, _, List.mem_singleton.2 rfl, by decide⟩
example : (∀ m as inner, Dom.elem m as inner ∈ [Dom.elem (str! "p") [] [.char 'a']] → m.map lowerChar ≠ str! "html") ∧
    ∀ m as inner, (Dom.elem m as inner ∈ [Dom.elem (str! "p") [] [.char 'a']] ∨
        ∃ m' as' inner', Dom.elem m' as' inner' ∈ [Dom.elem (str! "p") [] [.char 'a']] ∧ Dom.elem m as inner ∈ inner') →
      m.map lowerChar ≠ str! "head" ∧ m.map lowerChar ≠ str! "body" := by
  constructor
  · intro m as inner h
    simp only [List.mem_singleton, Dom.elem.injEq] at h
    rw [h.1]
    decide
  · rintro m as inner (h | ⟨_, _, _, h, h'⟩)
    · simp only [List.mem_singleton, Dom.elem.injEq] at h
      rw [h.1]
      decide
    · simp only [List.mem_singleton, Dom.elem.injEq] at h
      rw [h.2.2] at h'
      simp at h'

end Seam
