import Verif.Lemmas.Dom
import Verif.Props.Markup

/-!
# Reading the output back (C91)

The reader is `readMarkup` (Spec/Dom).
-/

namespace Seam
open Spec

/-- C91, XML: a reader of the output finds the document: the elements with their names and attributes,
nested as the lists are, and between them exactly the texts. -/
theorem C91_xml (tree : List PNode) (out : Str) (ho : Ordinaries xmlDialect (fun _ => false) tree) (he : NoEntitiess tree)
    (h : xmlGenerate tree = .ok out) : ∃ ds, DomsOf xmlDialect id tree ds ∧ readMarkup xmlDialect out = some ds := by
  obtain ⟨is, ds, h1, h2, h3⟩ := xmlRest_reads ho (.inr ⟨rfl, he⟩) h
  exact ⟨ds, h3, reads_all h1 h2⟩

/-- C91, HTML: the same, for trees without `pre`, `title`, `textarea`, `style`, `script`, `math`
and `svg`, whose contents are not written as HTML. -/
theorem C91_html (dbg : Str → Str) (tree : List PNode) (out : Str)
    (ho : Ordinaries htmlDialect (fun s => decide (s.map lowerChar ∈ otherContent)) tree) (he : NoEntitiess tree)
    (h : htmlGenerate dbg tree = .ok out) : ∃ ds, DomsOf htmlDialect id tree ds ∧ readMarkup htmlDialect out = some ds := by
  have hs : (fun s : Str => decide (s.map lowerChar ∈ otherContent)) = htmlSpecialName := by
    funext s
    unfold htmlSpecialName
    rw [Bool.eq_iff_iff, decide_eq_true_iff, special_other]
    rfl
  rw [hs] at ho
  obtain ⟨is, ds, h1, h2, h3⟩ := htmlRest_reads (dbg := dbg) ho (.inr ⟨rfl, he⟩) h
  exact ⟨ds, h3, reads_all h1 h2⟩

/-- C91: the same when attribute values contain entities. Values are written as they are (C22), so a reader finds what
the entities in them stand for. -/
theorem C91_values (dbg : Str → Str) (tree : List PNode) (out : Str) :
    (Ordinaries xmlDialect (fun _ => false) tree → xmlGenerate tree = .ok out →
      ∃ ds, DomsOf xmlDialect (decoded 0) tree ds ∧ readMarkup xmlDialect out = some ds) ∧
    (Ordinaries htmlDialect (fun s => decide (s.map lowerChar ∈ otherContent)) tree → htmlGenerate dbg tree = .ok out →
      ∃ ds, DomsOf htmlDialect (decoded 0) tree ds ∧ readMarkup htmlDialect out = some ds) := by
  constructor
  · intro ho h
    obtain ⟨is, ds, h1, h2, h3⟩ := xmlRest_reads (f := decoded 0) ho (.inl rfl) h
    exact ⟨ds, h3, reads_all h1 h2⟩
  · intro ho h
    have hs : (fun s : Str => decide (s.map lowerChar ∈ otherContent)) = htmlSpecialName := by
      funext s
      unfold htmlSpecialName
      rw [Bool.eq_iff_iff, decide_eq_true_iff, special_other]
      rfl
    rw [hs] at ho
    obtain ⟨is, ds, h1, h2, h3⟩ := htmlRest_reads (dbg := dbg) (f := decoded 0) ho (.inl rfl) h
    exact ⟨ds, h3, reads_all h1 h2⟩

/-- `(p :title "a &lt; b")`. -/
example : htmlGenerate id [exList [exSym ['p'], exAttr (str! "title") (exStr (str! "a &lt; b"))]] =
      .ok (str! "<p title=\"a &lt; b\"></p>") ∧
    readMarkup htmlDialect (str! "<p title=\"a &lt; b\"></p>") = some [.elem ['p'] [(str! "title", str! "a < b")] []] := by
  constructor
  · decide +kernel
  · rfl

/-- C91: so two trees with the same output stand for the same document. -/
theorem C91_same (dbg : Str → Str) (tree tree' : List PNode) (out : Str)
    (ho : Ordinaries htmlDialect (fun s => decide (s.map lowerChar ∈ otherContent)) tree) (he : NoEntitiess tree)
    (ho' : Ordinaries htmlDialect (fun s => decide (s.map lowerChar ∈ otherContent)) tree') (he' : NoEntitiess tree')
    (h : htmlGenerate dbg tree = .ok out) (h' : htmlGenerate dbg tree' = .ok out) :
    ∃ ds, DomsOf htmlDialect id tree ds ∧ DomsOf htmlDialect id tree' ds := by
  obtain ⟨ds, h1, h2⟩ := C91_html dbg tree out ho he h
  obtain ⟨es, h3, h4⟩ := C91_html dbg tree' out ho' he' h'
  rw [h2] at h4
  cases h4
  exact ⟨ds, h1, h3⟩

/-- C91: the same for XML. -/
theorem C91_same_xml (tree tree' : List PNode) (out : Str)
    (ho : Ordinaries xmlDialect (fun _ => false) tree) (he : NoEntitiess tree)
    (ho' : Ordinaries xmlDialect (fun _ => false) tree') (he' : NoEntitiess tree')
    (h : xmlGenerate tree = .ok out) (h' : xmlGenerate tree' = .ok out) :
    ∃ ds, DomsOf xmlDialect id tree ds ∧ DomsOf xmlDialect id tree' ds := by
  obtain ⟨ds, h1, h2⟩ := C91_xml tree out ho he h
  obtain ⟨es, h3, h4⟩ := C91_xml tree' out ho' he' h'
  rw [h2] at h4
  cases h4
  exact ⟨ds, h1, h3⟩

/-- C91, XML documents: in front of a tree without declaration, the reader finds the default
declaration and a line break. -/
theorem C91_xml_document (tree : List PNode) (out : Str) (ho : Ordinaries xmlDialect (fun _ => false) tree) (he : NoEntitiess tree)
    (hd : ∀ h ns s e w rest, tree ≠ .list (.symbol h :: ns) s e w :: rest ∨ h.value.map lowerChar ≠ str! "?xml")
    (h : xmlDocument tree = .ok out) : ∃ ds, DomsOf xmlDialect id tree ds ∧
      readMarkup xmlDialect out = some (.decl (str! "?xml version=\"1.0\" encoding=\"UTF-8\" ?") :: .char '\n' :: ds) := by
  have hx : ∀ r, scan .text (xmlDefault ++ r) =
      [.tag (str! "?xml version=\"1.0\" encoding=\"UTF-8\" ?"), .char '\n'] ++ scan .text r := fun r => rfl
  have hb : Builds xmlDialect [.tag (str! "?xml version=\"1.0\" encoding=\"UTF-8\" ?"), .char '\n']
      [.decl (str! "?xml version=\"1.0\" encoding=\"UTF-8\" ?"), .char '\n'] :=
    builds_append (builds_decl (by decide) rfl) (builds_char (by decide))
  have hgen : ∃ t, xmlGenerate tree = .ok t ∧ out = xmlDefault ++ t := by
    unfold xmlDocument at h
    split at h
    · rename_i hn
      cases tree with
      | nil => cases h; exact ⟨[], rfl, by simp⟩
      | cons _ _ => simp at hn
    · rw [Res.bind_eq_ok] at h
      obtain ⟨t, h1, h2⟩ := h
      have hf : xmlHasDecl tree = false := by
        unfold xmlHasDecl
        split
        · rcases hd _ _ _ _ _ _ with h | h
          · exact absurd rfl h
          · simpa [lower] using h
        · rfl
      rw [hf] at h2
      cases h2
      exact ⟨t, h1, rfl⟩
  obtain ⟨t, h1, rfl⟩ := hgen
  obtain ⟨is, ds, h2, h3, h4⟩ := xmlRest_reads ho (.inr ⟨rfl, he⟩) h1
  exact ⟨ds, h4, reads_all (scans_append hx h2) (builds_append hb h3)⟩

/-- The hypotheses for `(p :class "a" "<b>" (br))`, and what is read. -/
example : readMarkup htmlDialect (str! "<p class=\"a\">&lt;b&gt; <br></p>") =
    some [.elem ['p'] [(str! "class", ['a'])] (Dom.text (str! "<b> ") ++ [.elem (str! "br") [] []])] := by rfl
example : htmlGenerate id pageTree = .ok (str! "<p class=\"a\">&lt;b&gt; <br></p>") := by decide +kernel
example : NoEntitiess pageTree := by
  refine .cons _ _ (.list _ _ _ _ (.cons _ _ (.symbol _) (.cons _ _ (.attr _ _ _ _ ?_) (.cons _ _ (.string _)
    (.cons _ _ (.list _ _ _ _ (.cons _ _ (.symbol _) .nil)) .nil))))) .nil
  intro a ha
  rcases ha with h | h | h | h <;> cases h
  decide
example : Ordinaries htmlDialect (fun s => decide (s.map lowerChar ∈ otherContent)) pageTree := by
  refine .cons _ _ (.elem _ _ _ _ _ (blanks_dec rfl) (blanks_dec rfl) (nameOk_dec (by decide)) (by decide) ?_) .nil
  refine .cons _ _ (.attr _ _ _ _ (blanks_dec (by decide)) (nameOk_dec (by decide)) ?_) ?_
  · intro a ha
    rcases ha with h | h | h | h <;> cases h
    decide
  refine .cons _ _ (.string _ (blanks_dec (by decide))) (.cons _ _ ?_ .nil)
  exact .elem _ _ _ _ _ (blanks_dec (by decide)) (blanks_dec rfl) (nameOk_dec (by decide)) (by decide) .nil
/-- A reader that finds a closing tag too many, or one that is missing, finds no document. -/
example : readMarkup xmlDialect (str! "<a></a></b>") = none ∧ readMarkup xmlDialect (str! "<a><b></a>") = none := ⟨rfl, rfl⟩

/-- C91, what is false for the elements left out: the text of `title` is written as it is, and a reader
who replaces entities there, as browsers do, finds `<` instead of the four characters `&lt;`. -/
theorem C91_title_false : ∃ tree out, htmlGenerate id tree = .ok out ∧ tree = [exList [exSym (str! "title"), exStr (str! "&lt;")]] ∧
    readMarkup htmlDialect out = some [.elem (str! "title") [] (Dom.text ['<'])] :=
  ⟨_, str! "<title>&lt;</title>", by decide +kernel, rfl, rfl⟩

end Seam
