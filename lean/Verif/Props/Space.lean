import Verif.Lemmas.Space
import Verif.Lemmas.EvalCheck
import Verif.Props.Apply

/-!
# The whitespace in front of a macro call (C92)
-/

namespace Seam
open Spec

/-- C92: what the macros of `keepSpace` give begins with the whitespace that is in front of the
call; and that is all the whitespace does: with other whitespace `w` they give the same, with `w`
in front. -/
theorem C92_kept (ext : Ext) (name : Str) (hn : name ∈ keepSpace) (c : PNode) (args ms : List PNode) (s t : St)
    (hc : IsCall name args c) (h : Evals ext [c] s (.ok ms) t) :
    (∀ m ∈ ms.head?, gap m = gap c) ∧ ∀ w, Evals ext [withGap w c] s (.ok (respaced w ms)) t := by
  have hc' := hc
  cases hc with
  | mk hd tl si e w0 h1 h2 =>
    have h := (evals_call hc').1 h
    exact ⟨(invokes_keep [] hn h).1 ms rfl, fun w => (evals_call (isCall_gap hc' w)).2 (invokes_keep w hn h).2⟩

/-- C92: the other macros, but for `%apply`, `%map` and `%filter`, built in or not, lose it: whatever the
whitespace in front of the call, the outcome is the same. -/
theorem C92_lost (ext : Ext) (name : Str) (hn : name ∉ keepSpace) (hp : name ∉ passSpace) (c : PNode) (args : List PNode)
    (w : Str) (s t : St) (r : Res (List PNode)) (hc : IsCall name args c) :
    Evals ext [withGap w c] s r t ↔ Evals ext [c] s r t := by
  have hc' := hc
  cases hc with
  | mk hd tl si e w0 h1 h2 =>
    rw [evals_call hc', evals_call (isCall_gap hc' w)]
    exact invokes_lose w0 hn hp

/-- C92: `%apply` does what the macro it calls does. -/
theorem C92_apply (ext : Ext) (c : PNode) (args vs back ms : List PNode) (f : Node) (s u t : St)
    (hc : IsCall (str! "apply") args c) (ha : Evals ext args s (.ok vs) u) (hp : positional vs = .symbol f :: back)
    (h : Evals ext [c] s (.ok ms) t) :
    (f.value ∈ keepSpace → (∀ m ∈ ms.head?, gap m = gap c) ∧ ∀ w, Evals ext [withGap w c] s (.ok (respaced w ms)) t) ∧
    (f.value ∉ keepSpace → f.value ∉ passSpace → ∀ w, Evals ext [withGap w c] s (.ok ms) t) := by
  have hc' := hc
  cases hc with
  | mk hd tl si e w0 h1 h2 =>
    have h := (evals_apply hc' ha hp).1 h
    exact ⟨fun hn => ⟨(invokes_keep [] hn h).1 ms rfl, fun w =>
        (evals_apply (isCall_gap hc' w) ha hp).2 (invokes_keep w hn h).2⟩,
      fun hn hq w => (evals_apply (isCall_gap hc' w) ha hp).2 ((invokes_lose w hn hq).1 h)⟩

/-- C92: `%map` puts the whitespace in front of the call in front of the result for each of the
elements, if the macro it calls keeps it; and otherwise loses it. -/
theorem C92_map (ext : Ext) (c : PNode) (args vs back ms : List PNode) (f : Node) (s u t : St)
    (hc : IsCall (str! "map") args c) (ha : Evals ext args s (.ok vs) u) (hp : positional vs = .symbol f :: back)
    (h : Evals ext [c] s (.ok ms) t) :
    (f.value ∈ keepSpace → ∃ results : List (List PNode), ms = results.flatten ∧
      results.length = (dropPositional 1 vs).length ∧ (∀ x ∈ results, ∀ m ∈ x.head?, gap m = gap c) ∧
      ∀ w, Evals ext [withGap w c] s (.ok (results.map (respaced w)).flatten) t) ∧
    (f.value ∉ keepSpace → f.value ∉ passSpace → ∀ w, Evals ext [withGap w c] s (.ok ms) t) := by
  have hc' := hc
  cases hc with
  | mk hd tl si e w0 h1 h2 =>
    obtain ⟨r', g1, g2⟩ := (evals_map hc' ha hp).1 h
    cases r' with
    | ok rs =>
      cases g2
      exact ⟨fun hn => ⟨rs, rfl, calls_length g1 rs rfl, (calls_keep [] hn g1).1 rs rfl, fun w =>
          (evals_map (isCall_gap hc' w) ha hp).2 ⟨_, (calls_keep w hn g1).2, rfl⟩⟩,
        fun hn hq w => (evals_map (isCall_gap hc' w) ha hp).2 ⟨_, calls_lose w hn hq g1, rfl⟩⟩
    | _ => cases g2

/-- C92: and whatever the macro, other whitespace in front of the call changes nothing but the whitespace
in front of the nodes it gives, and that only there: not in what is inside of them, not in the
definitions, not in the log. -/
theorem C92_only (ext : Ext) (name : Str) (c : PNode) (args ms : List PNode) (w : Str) (s t : St)
    (hc : IsCall name args c) (h : Evals ext [c] s (.ok ms) t) :
    ∃ ms', Evals ext [withGap w c] s (.ok ms') t ∧ Pairs SameButGap ms ms' := by
  have hc' := hc
  cases hc with
  | mk hd tl si e w0 h1 h2 =>
    obtain ⟨r', g1, g2⟩ := invokes_gap w ((evals_call hc').1 h)
    cases r' with
    | ok ms' => exact ⟨ms', (evals_call (isCall_gap hc' w)).2 g2, g1⟩
    | _ => exact g1.elim

/-- C92: nor does it change whether there is an error, which error, and where it is. -/
theorem C92_errors (ext : Ext) (name : Str) (c : PNode) (args : List PNode) (w : Str) (s t : St) (er : Err)
    (hc : IsCall name args c) : Evals ext [withGap w c] s (.err er) t ↔ Evals ext [c] s (.err er) t := by
  have hc' := hc
  cases hc with
  | mk hd tl si e w0 h1 h2 =>
    rw [evals_call hc', evals_call (isCall_gap hc' w)]
    constructor
    · intro h
      obtain ⟨r', g1, g2⟩ := invokes_gap w0 h
      cases r' with
      | err er' => cases g1; exact g2
      | _ => exact g1.elim
    · intro h
      obtain ⟨r', g1, g2⟩ := invokes_gap w h
      cases r' with
      | err er' => cases g1; exact g2
      | _ => exact g1.elim

/-- The call `  (%f args...)`, with two blanks in front. -/
def exSpaced (f : Str) (args : List PNode) : PNode := withGap [' ', ' '] (exList (exSym ('%' :: f) :: args))

/-- `  (%string "a")` gives a string with the two blanks in front of it. -/
example : str! "string" ∈ keepSpace ∧ ∃ t, Evals exExt [exSpaced (str! "string") [exStr ['a']]] exSt
    (.ok [withGap [' ', ' '] (exStr ['a'])]) t :=
  ⟨by decide +kernel, evals_ok_at 5 (by decide +kernel)⟩

/-- `  (%do "a")` gives the string without. -/
example : (str! "do" ∉ keepSpace ∧ str! "do" ∉ passSpace) ∧
    ∃ t, Evals exExt [exSpaced (str! "do") [exStr ['a']]] exSt (.ok [exStr ['a']]) t :=
  ⟨by decide +kernel, evals_ok_at 5 (by decide +kernel)⟩

/-- `  (%map string a b)`: both have the blanks. -/
example : ∃ t, Evals exExt [exSpaced (str! "map") [exSym (str! "string"), exSym ['a'], exSym ['b']]] exSt
    (.ok [withGap [' ', ' '] (exStr ['a']), withGap [' ', ' '] (exStr ['b'])]) t :=
  evals_ok_at 8 (by decide +kernel)

/-- Every macro is of one of the kinds: all but `keepSpace` and `passSpace` lose it. -/
example : str! "define" ∉ keepSpace ++ passSpace ∧ str! "my-macro" ∉ keepSpace ++ passSpace := by decide +kernel

end Seam
