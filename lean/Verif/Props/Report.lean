import Verif.Lemmas.Sites
import Verif.Lemmas.EvalCheck

/-!
# C63, C64: what errors print, and where the sites point
-/

namespace Seam
open Spec

/-- A width for the examples: every character takes one column. -/
def exWidth (s : Str) : Nat := s.length

theorem exWidth_ascii : AsciiColumns exWidth := fun _ _ => rfl

/-- A source whose expansion fails, in a macro of an included file. -/
def exBroken : Str := str! "(%include \"inc\")\n  (p (%f))"

/-- The file it includes. -/
def exBrokenExt : Ext := { exExt with
  readFile := fun p => if p = str! "./inc" then some (str! "(%define (f)\n a (%none))") else none }

/-! ## C63 -/

/-- Whatever the source, the macros and the files: if reading or expanding reports an error,
the error can be printed, and the text shows the line with the piece of a source file that
the error is about, and marks just this piece. -/
theorem C63_expansion_errors (ext : Ext) (order : Order) (ho : Fair order) (fuel : Nat) (path code : Str) (e : Err)
    (h : (expand ext order fuel path code).1 = .err e) (width : Str → Nat) (hw : AsciiColumns width) (what msg : Str) :
    ∃ p c above left text rest, Source ext path code p c ∧ Marks e.site p c above left text rest ∧
      report width what msg e.site = some (errorText width what msg p e.site.line left text (upToNewline (text ++ rest))) := by
  have := (expand_fromFiles ext ho fuel path code).2
  rw [h] at this
  obtain ⟨p, c, above, left, text, rest, hs, hm⟩ := this
  exact ⟨p, c, above, left, text, rest, hs, hm, report_text hm hw what msg⟩

example : ∃ e, (expand exBrokenExt exSt.order 20 (str! "m.sex") exBroken).1 = .err e ∧
    report exWidth (str! "Error Expanding Macro") (str! "no") e.site =
      some (str! "  2 |  a (%none))\n    | ~~~^\n[**] Error Expanding Macro (./inc:2:4): no") := by
  obtain ⟨e, h1, h2⟩ := Res.errP_elim (r := (expand exBrokenExt exSt.order 20 (str! "m.sex") exBroken).1)
    (p := fun e => report exWidth (str! "Error Expanding Macro") (str! "no") e.site ==
      some (str! "  2 |  a (%none))\n    | ~~~^\n[**] Error Expanding Macro (./inc:2:4): no")) (by decide +kernel)
  exact ⟨e, h1, by simpa using h2⟩

/-- The same for the errors of the generators on the expanded tree. -/
theorem C63_generation_errors (ext : Ext) (order : Order) (ho : Fair order) (fuel : Nat) (path code : Str) (ns : List PNode)
    (h : (expand ext order fuel path code).1 = .ok ns) (dbg : Str → Str) (target : Str) (doc : Bool) (e : Err)
    (hg : generate dbg target doc ns = some (.err e)) (width : Str → Nat) (hw : AsciiColumns width) (what msg : Str) :
    ∃ p c above left text rest, Source ext path code p c ∧ Marks e.site p c above left text rest ∧
      report width what msg e.site = some (errorText width what msg p e.site.line left text (upToNewline (text ++ rest))) := by
  have := (expand_fromFiles ext ho fuel path code).2
  rw [h] at this
  obtain ⟨p, c, above, left, text, rest, hs, hm⟩ := generate_errIn dbg this hg e rfl
  exact ⟨p, c, above, left, text, rest, hs, hm, report_text hm hw what msg⟩

example : ∃ ns e, (expand exExt exSt.order 20 (str! "m.sex") (str! "\n (a () b)")).1 = .ok ns ∧
    generate id (str! "xml") false ns = some (.err e) ∧ report exWidth (str! "Error Generating XML") (str! "no") e.site =
      some (str! "  2 |  (a () b)\n    | ~~~~^\n[**] Error Generating XML (m.sex:2:5): no") := by
  obtain ⟨ns, h1, h2⟩ := Res.okP_elim (r := (expand exExt exSt.order 20 (str! "m.sex") (str! "\n (a () b)")).1)
    (p := fun ns => match generate id (str! "xml") false ns with
      | some (.err e) => report exWidth (str! "Error Generating XML") (str! "no") e.site ==
        some (str! "  2 |  (a () b)\n    | ~~~~^\n[**] Error Generating XML (m.sex:2:5): no")
      | _ => false) (by decide +kernel)
  split at h2
  · rename_i e he
    exact ⟨ns, e, h1, he, by simpa using h2⟩
  · simp at h2

/-- What `%log` prints can always be printed, and names a place in a source file. -/
theorem C63_log_lines (ext : Ext) (order : Order) (ho : Fair order) (fuel : Nat) (path code : Str) (l : LogLine)
    (h : l ∈ (expand ext order fuel path code).2.log) (width : Str → Nat) :
    ∃ p c above left text rest, Source ext path code p c ∧ Marks l.site p c above left text rest ∧
      logLine width l.words l.site = some (str! "[#] log (" ++ p ++ str! ":" ++ natStr l.site.line ++ str! ":" ++
        natStr (width left + 1) ++ str! "): " ++ joinStr [' '] l.words) := by
  obtain ⟨p, c, above, left, text, rest, hs, hm⟩ := (expand_fromFiles ext ho fuel path code).1.log l h
  exact ⟨p, c, above, left, text, rest, hs, hm, logLine_text hm width l.words⟩

example : (expand exExt exSt.order 20 (str! "m.sex") (str! "(%define x a)\n (%log %x b)")).2.log.map
    (fun l => logLine exWidth l.words l.site) = [some (str! "[#] log (m.sex:2:2): a b")] := by decide +kernel

/-! ## C64 -/

/-- Every site in the expanded tree (of nodes, at any depth, and of closing parentheses) marks
a piece of a line of the main source or of a file that can be read, with the path of
that file: nothing points into a file at the wrong offsets or to no text at all. -/
theorem C64_tree (ext : Ext) (order : Order) (ho : Fair order) (fuel : Nat) (path code : Str) (ns : List PNode)
    (h : (expand ext order fuel path code).1 = .ok ns) (s : Site) (hs : s ∈ sitess ns) :
    ∃ p c above left text rest, Source ext path code p c ∧ Marks s p c above left text rest := by
  have := (expand_fromFiles ext ho fuel path code).2
  rw [h] at this
  exact (goods_iff.1 this).1 s hs

example : ∃ ns, (expand exBrokenExt exSt.order 20 (str! "m.sex") (str! "(%include \"inc\") (p)")).1 = .ok ns ∧ ns.length = 1 := by
  obtain ⟨ns, h1, h2⟩ := Res.okP_elim (r := (expand exBrokenExt exSt.order 20 (str! "m.sex") (str! "(%include \"inc\") (p)")).1)
    (p := fun ns => ns.length == 1) (by decide +kernel)
  exact ⟨ns, h1, by simpa using h2⟩

/-- So the slices of a site never panic, and the view of it is the text it marks. -/
theorem C64_slices (ext : Ext) (order : Order) (ho : Fair order) (fuel : Nat) (path code : Str) (ns : List PNode)
    (h : (expand ext order fuel path code).1 = .ok ns) (s : Site) (hs : s ∈ sitess ns) :
    ∃ left text more, s.view = some text ∧ s.preceding = some left ∧ s.lineSlice = some (left ++ upToNewline (text ++ more)) := by
  obtain ⟨p, c, above, left, text, rest, _, hm⟩ := C64_tree ext order ho fuel path code ns h s hs
  exact ⟨left, text, rest, hm.slices⟩

end Seam
