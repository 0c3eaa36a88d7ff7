import Verif.Lemmas.Machine

/-!
# The macro language can compute everything (C108)

Machines with two counters can compute whatever can be computed.  `Spec/Machine.lean` says what they do and writes down the text of
a document for each of them.
-/

namespace Seam
open Spec

/-- C108: the document for a machine is printed if and only if the machine halts, and then what is printed is the
number in its first counter. -/
theorem C108_computes (ext : Ext) (order : Order) (dbg : Str → Str) (doc : Bool) (path : Str) (p : List Instr) (a b : Nat) (text : Str) :
    Prints ext order dbg (str! "sexp") doc (path, some (machineProgram p a b)) text ↔
      ∃ r, Gives p r ⟨0, a, b⟩ ∧ text = numeral r := by
  obtain ⟨tree, c, s, hp, hs, he⟩ := machine_starts ext order path p a b
  constructor
  · rintro ⟨code, out, hcode, hx, hr⟩
    cases hcode
    rcases hx with ⟨tree', t, h1, h2⟩ | ⟨e, h1, h2⟩ | ⟨h1, h2⟩
    · rw [hp] at h1
      cases h1
      have h3 := results_evals.2 ⟨t, (he _ _).1 h2⟩
      obtain ⟨-, g, hg⟩ := id h3
      rcases stops_gives g hs (by rw [hg]; simp) with ⟨r, h4⟩ | h4
      · obtain ⟨o, h5, h6, h7⟩ := gives_stops h4 hs
        have := h3.unique h5
        cases this
        refine ⟨r, h4, ?_⟩
        simp only [render, Option.some.injEq, Res.ok.injEq] at hr
        rw [← hr, sexpNodes, h6.text, h7]
        simp [sexpNodes]
      · obtain ⟨e, h5⟩ := strays_stops h4 hs
        cases h3.unique h5
    · cases h2
    · cases h2
  · rintro ⟨r, h1, rfl⟩
    obtain ⟨o, h5, h6, h7⟩ := gives_stops h1 hs
    obtain ⟨t, ht⟩ := results_evals.1 h5
    refine ⟨_, [o], rfl, .inl ⟨tree, t, hp, (he _ _).2 ht⟩, ?_⟩
    simp only [render, sexpNodes, h6.text, h7]
    simp

/-- C108: the document for a machine is reported as an error if and only if the machine comes to a place where there is no
instruction. -/
theorem C108_strays (ext : Ext) (order : Order) (path : Str) (p : List Instr) (a b : Nat) :
    (∃ e, ExpandsTo ext order path (machineProgram p a b) (.err e)) ↔ Strays p ⟨0, a, b⟩ := by
  obtain ⟨tree, c, s, hp, hs, he⟩ := machine_starts ext order path p a b
  constructor
  · rintro ⟨e, ⟨tree', t, h1, h2⟩ | ⟨e', h1, h2⟩ | ⟨h1, h2⟩⟩
    · rw [hp] at h1
      cases h1
      have h3 := results_evals.2 ⟨t, (he _ _).1 h2⟩
      obtain ⟨-, g, hg⟩ := id h3
      rcases stops_gives g hs (by rw [hg]; simp) with ⟨r, h4⟩ | h4
      · obtain ⟨o, h5, -⟩ := gives_stops h4 hs
        cases h3.unique h5
      · exact h4
    · rw [hp] at h1
      cases h1
    · cases h2
  · intro h
    obtain ⟨e, h5⟩ := strays_stops h hs
    obtain ⟨t, ht⟩ := results_evals.1 h5
    exact ⟨e, .inl ⟨tree, t, hp, (he _ _).2 ht⟩⟩

/-- C108: the processing of the document for a machine never ends if and only if the machine never stops. -/
theorem C108_forever (ext : Ext) (order : Order) (path : Str) (p : List Instr) (a b : Nat) :
    (∀ r, ¬ ExpandsTo ext order path (machineProgram p a b) r) ↔ (∀ r, ¬ Gives p r ⟨0, a, b⟩) ∧ ¬ Strays p ⟨0, a, b⟩ := by
  obtain ⟨tree, c, s, hp, hs, he⟩ := machine_starts ext order path p a b
  constructor
  · refine fun h => ⟨fun r hr => ?_, fun hst => ?_⟩
    · obtain ⟨o, h5, -⟩ := gives_stops hr hs
      obtain ⟨t, ht⟩ := results_evals.1 h5
      exact h _ (.inl ⟨tree, t, hp, (he _ _).2 ht⟩)
    · obtain ⟨e, h5⟩ := (C108_strays ext order path p a b).2 hst
      exact h _ h5
  · rintro ⟨h1, h2⟩ r (⟨tree', t, h3, h4⟩ | ⟨e', h3, -⟩ | ⟨h3, -⟩)
    · rw [hp] at h3
      cases h3
      obtain ⟨hr, g, hg⟩ := results_evals.2 ⟨t, (he _ _).1 h4⟩
      rcases stops_gives g hs (by rw [hg]; exact hr) with ⟨r, h⟩ | h
      · exact h1 r h
      · exact h2 h
    · rw [hp] at h3
      cases h3
    · rw [hp] at h3
      cases h3

/-- Adds the second counter to the first. -/
def adder : List Instr := [.dec .b 1 2, .inc .a 0, .halt]

/-- Two and one are three. -/
example : Gives adder 3 ⟨0, 2, 1⟩ :=
  .step _ _ _ rfl rfl (.step _ _ _ rfl rfl (.step _ _ _ rfl rfl (.halt _ rfl rfl)))
/-- The document. -/
example : machineProgram adder 2 1 = str! "(%define (q a b)(%match %b (() (%qqq %a %b)) ((p) (%qq %a %p))))" ++
    str! "(%define (qq a b)(%q (%list %a) %b))(%define (qqq a b)%a)(%q ((())) (()))" := by decide +kernel
/-- It goes outside. -/
example : Strays [.inc .a 7] ⟨0, 0, 0⟩ := .step _ _ _ rfl rfl (.out _ rfl)

/-- A machine that never stops. -/
example : (∀ r, ¬ Gives [.inc .a 0] r ⟨0, 0, 0⟩) ∧ ¬ Strays [.inc .a 0] ⟨0, 0, 0⟩ := by
  have h1 : ∀ r d, Gives [.inc .a 0] r d → d.pc ≠ 0 := by
    intro r d h
    induction h with
    | halt c h _ =>
      intro e
      rw [e] at h
      cases h
    | step c d i hi hn _ ih =>
      intro e
      rw [e] at hi
      cases hi
      cases hn
      exact ih rfl
  have h2 : ∀ d, Strays [.inc .a 0] d → d.pc ≠ 0 := by
    intro d h
    induction h with
    | out c h =>
      intro e
      rw [e] at h
      cases h
    | step c d i hi hn _ ih =>
      intro e
      rw [e] at hi
      cases hi
      cases hn
      exact ih rfl
  exact ⟨fun r h => h1 r _ h rfl, fun h => h2 _ h rfl⟩

end Seam
