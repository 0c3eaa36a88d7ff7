import Verif.Lemmas.Steps
import Verif.Lemmas.Check

/-! # C107: reading takes time proportional to the length of the source -/

namespace Seam
open Spec

/-- The counted reader is the reader: it has the same outcome for every source. -/
theorem C107_same (u : Unescape) (b : Buf) : (parseCounted u b).1 = parse u b := root_counted u _ _

/-- Unless it hangs (C06 says when), the reader needs at most twenty steps for each byte of the source and twenty more, be the
source accepted or not, and however deep it is nested. -/
theorem C107_linear (u : Unescape) (b : Buf) (h : parse u b ≠ .diverge) :
    (parseCounted u b).2 ≤ 20 * blen b.code + 20 := by
  rw [← C107_same] at h
  have := ends_root u (parseFuel b.code.length) (Lex.new b)
  unfold parseCounted at h ⊢
  generalize parseRootCounted u (parseFuel b.code.length) (Lex.new b) = x at this h ⊢
  obtain ⟨r, n⟩ := x
  cases r with
  | ok ns => exact this.1
  | err e => exact this
  | panic => exact this
  | diverge => exact absurd rfl h

example : parse some { path := str! "a", id := 1, code := str! "(p :a b \"c\")" } ≠ .diverge := by
  intro h
  have : (match parse some { path := str! "a", id := 1, code := str! "(p :a b \"c\")" } with | .diverge => false | _ => true) = true := by
    decide +kernel
  rw [h] at this
  cases this

/-- The count is no empty one: a source that is accepted has been read to its end. -/
theorem C107_at_least (u : Unescape) (b : Buf) (ns : List PNode) (h : parse u b = .ok ns) :
    blen b.code ≤ (parseCounted u b).2 := by
  rw [← C107_same] at h
  have := ends_root u (parseFuel b.code.length) (Lex.new b)
  unfold parseCounted at h ⊢
  generalize parseRootCounted u (parseFuel b.code.length) (Lex.new b) = x at this h ⊢
  obtain ⟨r, n⟩ := x
  cases h
  exact this.2

/-- For this source of twelve bytes. -/
example : (parseCounted some { path := str! "a", id := 1, code := str! "(p :a b \"c\")" }).2 = 97 := by decide +kernel

end Seam
