import Verif.Lemmas.Blow

/-!
# Short programs can have long results (C110)

`Spec/Blow.lean` writes down the programs: macros none of which calls itself, directly or through others.
-/

namespace Seam
open Spec

/-- C110: what the program for `n` prints as HTML: elements in elements, as deep as two to the power `n`. -/
theorem C110_html (ext : Ext) (order : Order) (dbg : Str → Str) (path : Str) (n : Nat) :
    Prints ext order dbg (str! "html") false (path, some (blowProgram n)) (bush (2 ^ n)) := by
  obtain ⟨x, h1, h2, h3⟩ := blow_expands ext order path n
  refine ⟨_, _, rfl, h1, ?_⟩
  simp [render, htmlGenerate, htmlKids, h2.html dbg, h3]

/-- C110: the same as XML. -/
theorem C110_xml (ext : Ext) (order : Order) (dbg : Str → Str) (path : Str) (n : Nat) :
    Prints ext order dbg (str! "xml") false (path, some (blowProgram n)) (bush (2 ^ n)) := by
  obtain ⟨x, h1, h2, h3⟩ := blow_expands ext order path n
  refine ⟨_, _, rfl, h1, ?_⟩
  simp [render, xmlGenerate, xmlKids, h2.xml, h3]

/-- C110: the same as text and as expressions. -/
theorem C110_expressions (ext : Ext) (order : Order) (dbg : Str → Str) (doc : Bool) (path : Str) (n : Nat) :
    Prints ext order dbg (str! "text") doc (path, some (blowProgram n)) (bushExpr (2 ^ n)) ∧
      Prints ext order dbg (str! "sexp") doc (path, some (blowProgram n)) (bushExpr (2 ^ n)) := by
  obtain ⟨x, h1, h2, h3⟩ := blow_expands ext order path n
  obtain ⟨h4, h5⟩ := h2.expr dbg
  rw [h3] at h4 h5
  refine ⟨⟨_, _, rfl, h1, ?_⟩, ⟨_, _, rfl, h1, ?_⟩⟩
  · simp [render, textNodes, h5]
  · simp [render, sexpNodes, h4]

/-- C110: the program for `n` has no more than `40 (n + 1)²` characters, and what it prints has at least two to the power of two to the
power `n`. -/
theorem C110_sizes (n : Nat) :
    (blowProgram n).length ≤ 40 * (n + 1) * (n + 1) ∧ 2 ^ 2 ^ n ≤ (bush (2 ^ n)).length ∧ 2 ^ 2 ^ n ≤ (bushExpr (2 ^ n)).length := by
  refine ⟨?_, bush_length _⟩
  have := doublers_length n
  have e : n + 1 ≤ (n + 1) * (n + 1) := Nat.le_mul_of_pos_left _ (by omega)
  simp only [blowProgram, List.length_append, stateName, List.length_cons, List.length_replicate, List.length_nil, Nat.mul_assoc] at this ⊢
  omega

/-- C110: for every `n` there is a document of no more than `40 (n + 1)²` characters that is printed, whatever the surroundings, with at
least two to the power of two to the power `n` characters. -/
theorem C110_short (n : Nat) : ∃ code : Str, code.length ≤ 40 * (n + 1) * (n + 1) ∧
    ∀ ext order dbg path, ∃ text, Prints ext order dbg (str! "html") false (path, some code) text ∧ 2 ^ 2 ^ n ≤ text.length :=
  ⟨blowProgram n, (C110_sizes n).1, fun ext order dbg path => ⟨_, C110_html ext order dbg path n, (C110_sizes n).2.1⟩⟩

/-- C110: the programs have no recursion: they are of the kind that C74 shows to come to an end. -/
theorem C110_no_recursion (n : Nat) : ∃ rank, ∀ ext path tree,
    parse ext.unescape { path := path, id := 1, code := blowProgram n } = .ok tree → Tames ext rank (n + 2) tree :=
  ⟨doubleRank, fun ext path tree h => blow_tame ext path n tree h⟩

/-- The program for one. -/
example : blowProgram 1 = str! "(%define (q x)(b %x %x))(%define (qq x)(%q (%q %x)))(%qq a)" ∧
    bush (2 ^ 1) = str! "<b><b>a a</b> <b>a a</b></b>" := ⟨by decide, by decide⟩

/-- The program for six, of 249 characters, prints more than any memory holds. -/
example : (blowProgram 6).length = 249 ∧ 18446744073709551616 ≤ (bush (2 ^ 6)).length :=
  ⟨by decide +kernel, (C110_sizes 6).2.1⟩

end Seam
