import Verif.Lemmas.Undecidable

/-!
# Every computable function, and what cannot be computed (C109)

`Nat.Partrec`, `Nat.Partrec.Code` and `ComputablePred` are those of Mathlib: the partial recursive functions, the programs for them,
and the predicates that a program can decide.
-/

namespace Seam
open Spec
open Turing.ToPartrec (Code)

/-- C109: for every partial recursive function there is a document which computes it.  The argument is written into the document,
and what is printed is the value; the processing ends where the function is defined. -/
theorem C109_computes (f : ℕ →. ℕ) (hf : Nat.Partrec f) : ∃ before after : Str, ∀ (ext : Ext) (order : Order) (path : Str) (n : Nat),
    (∀ (dbg : Str → Str) (doc : Bool) (text : Str),
      Prints ext order dbg (str! "sexp") doc (path, some (before ++ numeral n ++ after)) text ↔ ∃ m, m ∈ f n ∧ text = numeral m) ∧
    ((∃ r, ExpandsTo ext order path (before ++ numeral n ++ after) r) ↔ (f n).Dom) := by
  obtain ⟨c, hc⟩ := Code.exists_code (Nat.Partrec'.part_iff₁.2 (Partrec.nat_iff.2 hf))
  refine ⟨codeBefore c, codeAfter 'y', fun ext order path n => ?_⟩
  have he : c.eval [n] = (f n).map fun m => [m] := hc ⟨[n], rfl⟩
  obtain ⟨tree, hp, h1, h2⟩ := code_runs ext order path c n
  have hd : (c.eval [n]).Dom → ∃ m, m ∈ f n := fun h => by
    rw [he] at h
    exact Part.dom_iff_mem.1 h
  have hv : ∀ {m}, m ∈ f n → [m] ∈ c.eval [n] := fun h => by
    rw [he]
    exact (Part.mem_map_iff _).2 ⟨_, h, rfl⟩
  refine ⟨fun dbg doc text => ⟨?_, ?_⟩, ?_, fun h => ?_⟩
  · rintro ⟨code, out, hcode, hx, hr⟩
    cases hcode
    rcases hx with ⟨tree', t, h3, h4⟩ | ⟨e, h3, h4⟩ | ⟨h3, h4⟩
    · rw [hp] at h3
      cases h3
      obtain ⟨m, hm⟩ := hd (h1 _ _ h4)
      obtain ⟨o, t', h5, h6, h7⟩ := h2 m (hv hm)
      cases (h4.unique h7).1
      refine ⟨m, hm, ?_⟩
      simp only [render, Option.some.injEq, Res.ok.injEq] at hr
      rw [← hr, sexpNodes, h5.text, h6]
      simp [sexpNodes]
    · cases h4
    · cases h4
  · rintro ⟨m, hm, rfl⟩
    obtain ⟨o, t', h5, h6, h7⟩ := h2 m (hv hm)
    refine ⟨_, [o], rfl, .inl ⟨tree, t', hp, h7⟩, ?_⟩
    simp only [render, sexpNodes, h5.text, h6]
    simp
  · rintro ⟨r, ⟨tree', t, h3, h4⟩ | ⟨e, h3, -⟩ | ⟨h3, -⟩⟩
    · rw [hp] at h3
      cases h3
      obtain ⟨m, hm⟩ := hd (h1 _ _ h4)
      exact Part.dom_iff_mem.2 ⟨m, hm⟩
    · rw [hp] at h3
      cases h3
    · rw [hp] at h3
      cases h3
  · obtain ⟨m, hm⟩ := Part.dom_iff_mem.1 h
    obtain ⟨o, t', -, -, h7⟩ := h2 m (hv hm)
    exact ⟨_, .inl ⟨tree, t', hp, h7⟩⟩

/-- The same for errors: the function is defined where the other document is reported as an error. -/
theorem C109_errs (f : ℕ →. ℕ) (hf : Nat.Partrec f) : ∃ before after : Str, ∀ (ext : Ext) (order : Order) (path : Str) (n : Nat),
    (∃ e, ExpandsTo ext order path (before ++ numeral n ++ after) (.err e)) ↔ (f n).Dom := by
  obtain ⟨c, hc⟩ := Code.exists_code (Nat.Partrec'.part_iff₁.2 (Partrec.nat_iff.2 hf))
  refine ⟨codeBefore c, codeAfter 'z', fun ext order path n => ?_⟩
  have he : c.eval [n] = (f n).map fun m => [m] := hc ⟨[n], rfl⟩
  have hd : (c.eval [n]).Dom ↔ (f n).Dom := by
    rw [he]
    exact Iff.rfl
  obtain ⟨tree, hp, h1, h2⟩ := code_fails ext order path c n
  constructor
  · rintro ⟨r, ⟨tree', t, h3, h4⟩ | ⟨e, h3, -⟩ | ⟨h3, -⟩⟩
    · rw [hp] at h3
      cases h3
      exact hd.1 (h1 _ _ h4)
    · rw [hp] at h3
      cases h3
    · rw [hp] at h3
      cases h3
  · intro h
    obtain ⟨e, t, h7⟩ := h2 (hd.2 h)
    exact ⟨e, .inl ⟨tree, t, hp, h7⟩⟩

/-- C109: no program can tell of every document, given as the numbers of its characters, whether its processing ends. -/
theorem C109_halting (ext : Ext) (order : Order) (path : Str) :
    ¬ ComputablePred fun codes : List ℕ => ∃ r, ExpandsTo ext order path (codes.map Char.ofNat) r := by
  obtain ⟨before, after, h⟩ := C109_computes haltsAtZero haltsAtZero_partrec
  exact undecidable_of (p := fun code => ∃ r, ExpandsTo ext order path code r) before after fun n => (h ext order path n).2

/-- C109: no program can tell of every document whether it is reported as an error. -/
theorem C109_errors (ext : Ext) (order : Order) (path : Str) :
    ¬ ComputablePred fun codes : List ℕ => ∃ e, ExpandsTo ext order path (codes.map Char.ofNat) (.err e) := by
  obtain ⟨before, after, h⟩ := C109_errs haltsAtZero haltsAtZero_partrec
  exact undecidable_of (p := fun code => ∃ e, ExpandsTo ext order path code (.err e)) before after fun n => h ext order path n

/-- C109: no program can tell of every document whether it is printed as `()`. -/
theorem C109_output (ext : Ext) (order : Order) (dbg : Str → Str) (doc : Bool) (path : Str) :
    ¬ ComputablePred fun codes : List ℕ => Prints ext order dbg (str! "sexp") doc (path, some (codes.map Char.ofNat)) (str! "()") := by
  obtain ⟨before, after, h⟩ := C109_computes haltsAtZero haltsAtZero_partrec
  refine undecidable_of (p := fun code => Prints ext order dbg (str! "sexp") doc (path, some code) (str! "()")) before after fun n => ?_
  rw [(h ext order path n).1 dbg doc]
  constructor
  · rintro ⟨m, hm, -⟩
    exact Part.dom_iff_mem.2 ⟨m, hm⟩
  · intro hd
    obtain ⟨m, hm⟩ := Part.dom_iff_mem.1 hd
    obtain ⟨k, -, rfl⟩ := (Part.mem_map_iff _).1 hm
    exact ⟨0, hm, rfl⟩

/-- The function that adds one. -/
example : Nat.Partrec fun n => Part.some (n + 1) := Nat.Partrec.succ

/-- The function that is nowhere defined. -/
example : Nat.Partrec fun _ => Part.none := Nat.Partrec.none

/-- The document for the code `succ` and the number 1, which prints `((()))`. -/
example : codeBefore .succ ++ numeral 1 ++ codeAfter 'y' =
    str! "(%define (q v)(%match %v (() (%list (()))) ((x &y) (%list (%list %x)))))(%match (%q ((()))) ((&y)%y))" := by decide +kernel

/-- And that for a code with a loop. -/
example : codeBefore (.fix (.comp .tail .zero')) ++ numeral 0 ++ codeAfter 'y' =
    str! "(%define (qll v)(%match %v (() ()) ((x &y) (%list %y))))(%define (qlr v)(%match %v ((&y) (%list () %y))))" ++
    str! "(%define (ql v)(%qll (%qlr %v)))(%define (q v)(%match (%ql %v) (() ()) ((() &y) (%list %y)) (((p) &y) (%q (%list %y)))))" ++
    str! "(%match (%q (())) ((&y)%y))" := by decide +kernel

end Seam
