import Verif.Lemmas.Joined
import Verif.Props.Reader

/-! # Joining texts (C89)

A text is a sequence of expressions and comments, so two texts put one after the other, with
a line break between them, are read as what the one says followed by what the other says. -/

namespace Seam
open Spec

/-- C89: if a text can be read, the text continued on a new line with another one is read as the
nodes of the first, at the same places, followed by the nodes of the second: the same trees, so
many bytes and lines further, with the same blanks, except that the first of them may have
the line break and the blanks around it before it. -/
theorem C89_reads (u : Unescape) (a b c : Buf) (hc : c.code = a.code ++ '\n' :: b.code) (ns ms : List PNode)
    (ha : parse u a = .ok ns) (hb : parse u b = .ok ms) :
    ∃ ns' w ms' lines, parse u c = .ok (ns' ++ ms') ∧ Laids (ShiftedTo c 0 0) (· = ·) ns ns' ∧
      Laids (ShiftedTo c lines (blen a.code + 1)) (· = ·) (firstSpaced w ms) ms' ∧ newlines a.code < lines ∧
      ∀ m ∈ ms.head?, AfterBreak m.lw w := by
  obtain ⟨ns', k, h1, h2, h3⟩ := parse_joined u hc ha
  rw [hb] at h3
  obtain ⟨w, ms', h4, h5, h6⟩ := h3
  exact ⟨ns', w, ms', k, h4, h1, h5, h2, h6⟩

/-- C89: an error in the second text is reported as for that text alone, at the place where the
second text now stands. -/
theorem C89_error (u : Unescape) (a b c : Buf) (hc : c.code = a.code ++ '\n' :: b.code) (ns : List PNode) (x : Err)
    (ha : parse u a = .ok ns) (hb : parse u b = .err x) :
    ∃ y lines, parse u c = .err y ∧ MovedErr (ShiftedTo c lines (blen a.code + 1)) x y ∧ newlines a.code < lines := by
  obtain ⟨ns', k, _, h2, h3⟩ := parse_joined u hc ha
  rw [hb] at h3
  obtain ⟨y, h4, h5⟩ := h3
  exact ⟨y, k, h4, h5, h2⟩

/-- C89: after a text that can be read, the joined text can be read exactly if the second can. -/
theorem C89_exactly (u : Unescape) (a b c : Buf) (hc : c.code = a.code ++ '\n' :: b.code) (ns : List PNode)
    (ha : parse u a = .ok ns) : (∃ all, parse u c = .ok all) ↔ ∃ ms, parse u b = .ok ms := by
  obtain ⟨ns', k, _, _, h3⟩ := parse_joined u hc ha
  revert h3
  cases parse u b with
  | ok ms => rintro ⟨w, ms', h, _⟩; exact ⟨fun _ => ⟨ms, rfl⟩, fun _ => ⟨_, h⟩⟩
  | err x => rintro ⟨y, h, _⟩; simp [h]
  | panic => exact False.elim
  | diverge => intro h; have h : parse u c = .diverge := h; simp [h]

/-- Two texts, and the two joined. -/
def exFirst : Buf := { path := str! "a.sex", id := 1, code := str! "(p x) ; one" }
def exSecond : Buf := { path := str! "b.sex", id := 2, code := str! " y\n(b \"z\")" }
def exBoth : Buf := { path := str! "c.sex", id := 3, code := str! "(p x) ; one\n y\n(b \"z\")" }
def exSecondBad : Buf := { path := str! "b.sex", id := 2, code := str! "y )" }
def exBothBad : Buf := { path := str! "c.sex", id := 3, code := str! "(p x) ; one\ny )" }

example : exBoth.code = exFirst.code ++ '\n' :: exSecond.code ∧ (∃ ns, parse some exFirst = .ok ns ∧ ns.length = 1) ∧
    ∃ ms, parse some exSecond = .ok ms ∧ ms.length = 2 := by
  refine ⟨by decide, ?_, ?_⟩
  · obtain ⟨ns, h1, h2⟩ := Res.okP_elim (r := parse some exFirst) (p := fun ns => decide (ns.length = 1)) (by decide +kernel)
    exact ⟨ns, h1, by simpa using h2⟩
  · obtain ⟨ns, h1, h2⟩ := Res.okP_elim (r := parse some exSecond) (p := fun ns => decide (ns.length = 2)) (by decide +kernel)
    exact ⟨ns, h1, by simpa using h2⟩

example : exBothBad.code = exFirst.code ++ '\n' :: exSecondBad.code ∧
    ∃ x, parse some exSecondBad = .err x ∧ x.site.line = 1 ∧ x.site.off = 2 := by
  refine ⟨by decide, ?_⟩
  obtain ⟨x, h1, h2⟩ := Res.errP_elim (r := parse some exSecondBad) (p := fun x => decide (x.site.line = 1 ∧ x.site.off = 2))
    (by decide +kernel)
  exact ⟨x, h1, by simpa using h2⟩

/-- C89: the line break is needed: `a` and `b` next to each other are one symbol, not two. -/
theorem C89_directly_false : ¬ ∀ (u : Unescape) (a b c : Buf) (ns ms : List PNode), c.code = a.code ++ b.code →
    parse u a = .ok ns → parse u b = .ok ms → ∃ all, parse u c = .ok all ∧ all.length = ns.length + ms.length := by
  intro h
  let b (s : Str) : Buf := { path := [], id := 1, code := s }
  obtain ⟨ns, h1, h2⟩ := Res.okP_elim (r := parse some (b (str! "a"))) (p := fun ns => decide (ns.length = 1)) (by decide +kernel)
  obtain ⟨ms, h3, h4⟩ := Res.okP_elim (r := parse some (b (str! "b"))) (p := fun ns => decide (ns.length = 1)) (by decide +kernel)
  obtain ⟨os, h5, h6⟩ := Res.okP_elim (r := parse some (b (str! "ab"))) (p := fun ns => decide (ns.length = 1)) (by decide +kernel)
  obtain ⟨all, h7, h8⟩ := h some (b (str! "a")) (b (str! "b")) (b (str! "ab")) ns ms rfl h1 h3
  rw [h5] at h7
  simp only [Res.ok.injEq] at h7
  subst h7
  simp only [decide_eq_true_eq] at h2 h4 h6
  omega

/-- C89: and the first text has to be readable: `(a` and `b)` are not, but joined they are. -/
theorem C89_apart_false : ¬ ∀ (u : Unescape) (a b c : Buf) (all : List PNode), c.code = a.code ++ '\n' :: b.code →
    parse u c = .ok all → ∃ ns, parse u a = .ok ns := by
  intro h
  let b (s : Str) : Buf := { path := [], id := 1, code := s }
  obtain ⟨ns, h1, _⟩ := Res.okP_elim (r := parse some (b (str! "(a\nb)"))) (p := fun _ => true) (by decide +kernel)
  obtain ⟨x, h2, _⟩ := Res.errP_elim (r := parse some (b (str! "(a"))) (p := fun _ => true) (by decide +kernel)
  obtain ⟨ms, h3⟩ := h some (b (str! "(a")) (b (str! "b)")) (b (str! "(a\nb)")) ns rfl h1
  rw [h2] at h3
  cases h3

end Seam
