import Verif.Lemmas.Both
import Verif.Props.Document

/-! # HTML and XML output agree (C101)

The two markup writers were written separately.  For trees without raw text whose elements
are ordinary — named in lower case, neither a declaration, nor a void element, nor one of
the five elements whose content HTML does not read as markup — they produce the same
characters, and complain about the same place if they complain.  The one difference left
is the blank before an attribute: HTML keeps the one in the source, XML writes a space. -/

namespace Seam
open Spec

/-- C101: HTML and XML are the same, character by character, if every attribute follows a
single space (or nothing). -/
theorem C101_same (dbg : Str → Str) (ns : List PNode) (h : Shareds (fun w => w = [] ∨ w = [' ']) ns) :
    SameMarkup (· = ·) (htmlGenerate dbg ns) (xmlGenerate ns) :=
  kids_both joins_same (by rintro w (rfl | rfl) <;> rfl) dbg .rest ns h

/-- C101: with any blanks before attributes, they are the same up to blanks. -/
theorem C101_blanks (dbg : Str → Str) (ns : List PNode) (h : Shareds (fun w => ∀ c ∈ w, blank c = true) ns) :
    SameMarkup (fun x y => squeezed x = squeezed y) (htmlGenerate dbg ns) (xmlGenerate ns) :=
  kids_both joins_squeezed (fun w hw => by
    cases w with
    | nil => rfl
    | cons c w =>
      have : squeezed (c :: w) = [] := by
        simp only [squeezed, List.filter_eq_nil_iff, Bool.not_eq_true', Bool.not_eq_false]
        exact fun d hd => by simpa using hw d hd
      simp only [List.isEmpty_cons, Bool.false_eq_true, if_false, this]
      rfl) dbg .rest ns h

/-- C101: so a page (a tree with a top-level `html`) that is written in either form is
written in the other, with only the first line changed. -/
theorem C101_pages (dbg : Str → Str) (ns : List PNode) (h : Shareds (fun w => w = [] ∨ w = [' ']) ns)
    (hh : ∃ n ∈ ns, Headed (str! "html") n) (d : Str) :
    htmlDocument dbg ns = .ok (str! "<!DOCTYPE html>\n" ++ d) ↔
      xmlDocument ns = .ok (str! "<?xml version=\"1.0\" encoding=\"UTF-8\" ?>\n" ++ d) := by
  have hs := C101_same dbg ns h
  cases ns with
  | nil => obtain ⟨n, hm, _⟩ := hh; cases hm
  | cons m ms =>
    have hx := C27_added m ms (fun a rest s e w ha hv => shareds_unversioned h (by rw [ha]; exact List.mem_cons_self ..) hv)
    rw [hx]
    generalize hg : htmlGenerate dbg (m :: ms) = r at hs
    generalize hg' : xmlGenerate (m :: ms) = r' at hs ⊢
    cases hs with
    | ok x y hxy =>
      subst hxy
      rw [C23_html dbg _ x hg (fun ⟨n, hm, hn⟩ => shareds_undeclared h hg' n hm hn) hh]
      simp only [Res.ok.injEq, List.append_cancel_left_eq, exists_eq_left']
      exact eq_comm
    | err e e' he => rw [C23_error dbg _ e hg]; simp
    | panic =>
      have : htmlDocument dbg (m :: ms) = .panic := by unfold htmlDocument; simp [hg]
      rw [this]; simp

/-- A page with an attribute, nested elements, characters to escape and an `svg` element
with a capital name and an element that is void in HTML. -/
def exAlike : List PNode :=
  [exList [exSym (str! "html"), exAttr (str! "lang") (exStr (str! "en")),
    exList [exSym (str! "body"), exList [exSym (str! "p"), exStr (str! "a<b")],
      exList [exSym (str! "svg"), exList [exSym (str! "br")], exList [exSym (str! "G")]]]]]

example : Shareds (fun w => w = [] ∨ w = [' ']) exAlike := by
  refine .cons _ _ (.element _ _ _ _ _ ⟨by decide, fun _ => ⟨nofun, nofun⟩, by decide, by decide⟩ ?_) .nil
  refine .cons _ _ (.attr _ _ _ _ (.inr rfl)) (.cons _ _ ?_ .nil)
  refine .element _ _ _ _ _ ⟨by decide, fun _ => ⟨nofun, nofun⟩, by decide, by decide⟩ ?_
  refine .cons _ _ (.element _ _ _ _ _ ⟨by decide, fun _ => ⟨nofun, nofun⟩, by decide, by decide⟩ (.cons _ _ (.string _) .nil))
    (.cons _ _ ?_ .nil)
  refine .xml _ _ _ _ _ (by decide) fun k v s w h => ?_
  simp [exList] at h

example : ∃ n ∈ exAlike, Headed (str! "html") n :=
  ⟨_, List.mem_cons_self .., _, _, _, _, _, _, rfl, .inl rfl, rfl⟩

example : htmlDocument id exAlike =
    .ok (str! "<!DOCTYPE html>\n<html lang=\"en\"><body><p>a&lt;b</p><svg><br></br><G></G></svg></body></html>") := by decide +kernel
example : xmlDocument exAlike =
    .ok (str! "<?xml version=\"1.0\" encoding=\"UTF-8\" ?>\n<html lang=\"en\"><body><p>a&lt;b</p><svg><br></br><G></G></svg></body></html>") := by
  decide +kernel

/-- C101: the exceptions are exceptions: a void element, a name with capitals, a
processing instruction, an element with its own kind of content and raw text all differ;
and two spaces before an attribute are kept in HTML only. -/
theorem C101_void_false : ∃ n, htmlGenerate id [n] = .ok (str! "<br>") ∧ xmlGenerate [n] = .ok (str! "<br></br>") :=
  ⟨exList [exSym (str! "br")], by decide +kernel, by decide +kernel⟩

theorem C101_capitals_false : ∃ n, htmlGenerate id [n] = .ok (str! "<P>a</p>") ∧ xmlGenerate [n] = .ok (str! "<P>a</P>") :=
  ⟨exList [exSym (str! "P"), exSym (str! "a")], by decide +kernel, by decide +kernel⟩

theorem C101_instruction_false : ∃ n, htmlGenerate id [n] = .ok (str! "<?a></?a>") ∧ xmlGenerate [n] = .ok (str! "<?a ?>") :=
  ⟨exList [exSym (str! "?a")], by decide +kernel, by decide +kernel⟩

theorem C101_text_false : ∃ n, htmlGenerate id [n] = .ok (str! "<title><</title>") ∧ xmlGenerate [n] = .ok (str! "<title>&lt;</title>") :=
  ⟨exList [exSym (str! "title"), exStr (str! "<")], by decide +kernel, by decide +kernel⟩

theorem C101_raw_false : ∃ n, htmlGenerate id [n] = .ok (str! "<") ∧ ∃ e, xmlGenerate [n] = .err e :=
  ⟨.raw ⟨str! "<", default, []⟩, by decide +kernel, _, rfl⟩

theorem C101_attribute_false : ∃ n, htmlGenerate id [n] = .ok (str! "<p  a=\"b\"></p>") ∧ xmlGenerate [n] = .ok (str! "<p a=\"b\"></p>") :=
  ⟨exList [exSym (str! "p"), exAttr (str! "a") (exSym (str! "b")) (str! "  ")],
    by decide +kernel, by decide +kernel⟩

end Seam
