import Verif.Lemmas.ByteLexer

/-!
# C62: the lexer never splits a character

The lexer of `Verif.Model.ByteLexer` works on bytes, as the Rust code does.
-/

namespace Seam
open Spec

/-- A text with characters of two, three and four bytes in a comment, a string, an identifier
and a keyword, and with a comment at the end. -/
def exWide : Str := str! "; é\n(p :ключ \"日本\" 𝄞x\\é) ; ←"

/-- The lexer has enough fuel if it may take a step per byte and four more. -/
def wideFuel : Nat := blen exWide + 4

/-! ## C62 -/

/-- The byte lexer reads the token sequence of the text: the slices it makes are the bytes of
the texts of the tokens, the numbers of the sites are the same, and it ends in the same way.
(Every text is a token sequence: `C09_tokens_unique`.)  No slice panics, and
`from_utf8_unchecked` is never given anything but UTF-8. -/
theorem C62_tokens (b : Buf) (toks : List Token) (e : Ending) (h : TokensOf b toks e) (fuel : Nat)
    (hf : blen b.code + 4 ≤ fuel) :
    ∃ bts be, BReads fuel (BLex.new b.code) bts be ∧ Pairs SameBytes bts toks ∧ SameEnd be e :=
  reads_bytes hf (at_new h) (sameState_new b)

example : ∃ toks e bts be, TokensOf { path := [], id := 1, code := exWide } toks e ∧
    BReads wideFuel (BLex.new exWide) bts be ∧ Pairs SameBytes bts toks ∧ SameEnd be e := by
  obtain ⟨toks, e, h⟩ := tokens_total { path := [], id := 1, code := exWide } [] 1 exWide
  obtain ⟨bts, be, hb⟩ := C62_tokens _ toks e h wideFuel (Nat.le_refl _)
  exact ⟨toks, e, bts, be, h, hb⟩

/-- In no state that the lexer can reach is there undefined behaviour, and the only panic is
the one of reading a token although the end is reached. -/
theorem C62_safe (code : Str) (fuel : Nat) (hf : blen code + 4 ≤ fuel) (b : BLex) (h : BReach fuel code b) :
    (∃ end?, b.eof fuel = .ok end?) ∧ b.consume fuel ≠ .undefined ∧
    (b.eof fuel = .ok false → b.consume fuel ≠ .panic) := by
  obtain ⟨buf, l, toks, e, h1, h2, h3⟩ := reach_at hf h
  have hc := h2.code
  have he := eof_bytes fuel (by rw [hc, h1]; omega) h3
  have hk := consume_bytes fuel (by rw [hc, h1]; exact hf) h3
  refine ⟨⟨_, he⟩, ?_, ?_⟩
  · intro hb; rw [hb] at hk; exact hk.elim
  · intro hn hb
    rw [he] at hn
    simp only [BRes.ok.injEq] at hn
    rw [hb] at hk
    cases toks with
    | nil =>
      cases e with
      | eof => rw [h2.eof] at hn; simp at hn
      | unclosed q s => rw [h2.unclosed.2] at hk; exact hk.elim
      | cut => rw [h2.cut.2] at hk; exact hk.elim
    | cons t ts =>
      obtain ⟨_, _, h4, _⟩ := h2.token
      rw [h4] at hk
      exact hk.elim

example : ∃ b, BReach wideFuel exWide b ∧ b ≠ BLex.new exWide := by
  rcases h : (BLex.new exWide).consume wideFuel with ⟨t, b⟩ | _ | _ | _ | _
  · refine ⟨b, .next _ _ _ .start h, ?_⟩
    rintro rfl
    have : ((BLex.new exWide).consume wideFuel |> fun | .ok (_, b) => b.off == 0 | _ => false) = false := by decide +kernel
    rw [h] at this
    simp [BLex.new] at this
  all_goals
    have : ((BLex.new exWide).consume wideFuel |> fun | .ok _ => true | _ => false) = true := by decide +kernel
    rw [h] at this
    simp at this

/-- The text and the blanks in front of every token that is read are UTF-8. -/
theorem C62_text (code : Str) (fuel : Nat) (hf : blen code + 4 ≤ fuel) (b b' : BLex) (t : BToken)
    (h : BReach fuel code b) (ht : b.consume fuel = .ok (t, b')) :
    ∃ value lw : Str, t.value = bytesOf value ∧ t.lw = bytesOf lw := by
  obtain ⟨buf, l, toks, e, h1, h2, h3⟩ := reach_at hf h
  have hc := h2.code
  have hk := consume_bytes fuel (by rw [hc, h1]; exact hf) h3
  rw [ht] at hk
  rcases hl : l.consume with ⟨t', l'⟩ | _ | _ | _ <;> rw [hl] at hk <;> try exact hk.elim
  exact ⟨t'.value, t'.lw, hk.1.2.1, hk.1.2.2.1⟩

example : ((BLex.new exWide).consume wideFuel |> fun | .ok (t, _) => t.kind == .lparen && t.value == bytesOf ['('] && t.lw == [10] | _ => false) = true := by
  decide +kernel

/-- The test for UTF-8 that decides about undefined behaviour in the model is exact: a byte
sequence passes just if it is the encoding of a text, and the text is what it decodes to. -/
theorem C62_utf8_exact (bs : List UInt8) (s : Str) : utf8? bs = some s ↔ bs = bytesOf s := by
  constructor
  · exact utf8Loop_sound _ _ _
  · rintro rfl
    exact utf8_bytes s

example : utf8? [0xE2, 0x86, 0x90] = some (str! "←") ∧ utf8? [0x86, 0x90] = none ∧ utf8? [0xC0, 0x80] = none ∧
    utf8? [0xED, 0xA0, 0x80] = none := by decide +kernel

end Seam
