import Verif.Lemmas.Tree
import Verif.Spec.Pairs

/-! Upper and lower case. -/

namespace Seam
open Spec

theorem letter_table : ∀ i, i < 26 → ((capitals[i]?).map Char.toNat = some (65 + i) ∧ (smalls[i]?).map Char.toNat = some (97 + i)) := by
  decide +kernel

theorem letter_at (i : Nat) (c : Char) : (capitals[i]? = some c ↔ i < 26 ∧ c.toNat = 65 + i) ∧ (smalls[i]? = some c ↔ i < 26 ∧ c.toNat = 97 + i) := by
  have hl : capitals.length = 26 ∧ smalls.length = 26 := ⟨rfl, rfl⟩
  by_cases hi : i < 26
  · obtain ⟨h1, h2⟩ := letter_table i hi
    rw [Option.map_eq_some_iff] at h1 h2
    obtain ⟨x, hx, hx'⟩ := h1
    obtain ⟨y, hy, hy'⟩ := h2
    rw [hx, hy]
    simp only [Option.some.injEq, hi, true_and]
    refine ⟨⟨fun h => h ▸ hx', fun h => ?_⟩, ⟨fun h => h ▸ hy', fun h => ?_⟩⟩
    · exact Char.toNat_inj.1 (hx'.trans h.symm)
    · exact Char.toNat_inj.1 (hy'.trans h.symm)
  · rw [List.getElem?_eq_none (by omega), List.getElem?_eq_none (by omega)]
    simp [hi]

theorem lowerChar_toNat (c : Char) : (lowerChar c).toNat = if 65 ≤ c.toNat ∧ c.toNat ≤ 90 then c.toNat + 32 else c.toNat := by
  unfold lowerChar
  have he : ('A' ≤ c ∧ c ≤ 'Z') ↔ (65 ≤ c.toNat ∧ c.toNat ≤ 90) := Iff.rfl
  by_cases h : 65 ≤ c.toNat ∧ c.toNat ≤ 90
  · rw [if_pos (he.2 h), if_pos h]
    have : (c.toNat + 32).isValidChar := Or.inl (by omega)
    unfold Char.ofNat
    rw [dif_pos this]
    rfl
  · rw [if_neg (fun h' => h (he.1 h')), if_neg h]

theorem mem_capitals (c : Char) : c ∈ capitals ↔ 65 ≤ c.toNat ∧ c.toNat ≤ 90 := by
  rw [List.mem_iff_getElem?]
  constructor
  · rintro ⟨i, hi⟩
    have := (letter_at i c).1.1 hi
    omega
  · intro h
    exact ⟨c.toNat - 65, (letter_at _ c).1.2 (by omega)⟩

theorem lowerChar_letters (c : Char) : (∃ i : Nat, capitals[i]? = some c ∧ smalls[i]? = some (lowerChar c)) ∨ c ∉ capitals ∧ lowerChar c = c := by
  have h := lowerChar_toNat c
  by_cases hc : 65 ≤ c.toNat ∧ c.toNat ≤ 90
  · rw [if_pos hc] at h
    exact .inl ⟨c.toNat - 65, (letter_at _ _).1.2 (by omega), (letter_at _ _).2.2 (by omega)⟩
  · rw [if_neg hc] at h
    exact .inr ⟨fun hm => hc ((mem_capitals c).1 hm), Char.toNat_inj.1 h⟩

theorem sameLetter_iff (a b : Char) : lowerChar a = lowerChar b ↔ SameLetter a b := by
  have ha := lowerChar_toNat a
  have hb := lowerChar_toNat b
  rw [← Char.toNat_inj, ha, hb]
  unfold SameLetter
  constructor
  · intro h
    by_cases hab : a = b
    · exact .inl hab
    · have hne : a.toNat ≠ b.toNat := fun h' => hab (Char.toNat_inj.1 h')
      right
      split at h <;> split at h
      · omega
      · exact ⟨a.toNat - 65, .inl ⟨(letter_at _ _).1.2 (by omega), (letter_at _ _).2.2 (by omega)⟩⟩
      · exact ⟨b.toNat - 65, .inr ⟨(letter_at _ _).2.2 (by omega), (letter_at _ _).1.2 (by omega)⟩⟩
      · omega
  · rintro (rfl | ⟨i, ⟨h1, h2⟩ | ⟨h1, h2⟩⟩)
    · rfl
    · have h1 := (letter_at _ _).1.1 h1
      have h2 := (letter_at _ _).2.1 h2
      rw [if_pos (by omega), if_neg (by omega)]; omega
    · have h1 := (letter_at _ _).2.1 h1
      have h2 := (letter_at _ _).1.1 h2
      rw [if_neg (by omega), if_pos (by omega)]; omega

theorem textEq_letters : ∀ a b : Str, TextEq true a b ↔ Pairs SameLetter a b
  | [], [] => ⟨fun _ => .nil, fun _ => rfl⟩
  | [], _ :: _ => ⟨fun h => by simp [TextEq] at h, fun h => nomatch h⟩
  | _ :: _, [] => ⟨fun h => by simp [TextEq] at h, fun h => nomatch h⟩
  | a :: as, b :: bs => by
    have ih := textEq_letters as bs
    simp only [TextEq, if_true] at ih
    simp only [TextEq, if_true, List.map_cons, List.cons.injEq, ih, sameLetter_iff]
    exact ⟨fun h => .cons h.1 h.2, fun h => by cases h with | cons h1 h2 => exact ⟨h1, h2⟩⟩

theorem lowercase_same (low : Str → Str) (h1 : ∀ s : Str, (∀ c ∈ s, c.toNat < 128) → low s = s.map lowerChar)
    (h2 : ∀ s : Str, (∃ c ∈ s, 128 ≤ c.toNat) → ∃ c ∈ low s, 128 ≤ c.toNat ∨ c = 'k')
    (w : Str) (hw : ∀ c ∈ w, c.toNat < 128 ∧ c ≠ 'k' ∧ c ≠ 'K') (s : Str) : low s = low w ↔ TextEq true s w := by
  rw [h1 w fun c hc => (hw c hc).1]
  simp only [TextEq, if_true]
  have hlow : ∀ c ∈ w.map lowerChar, c.toNat < 128 ∧ c ≠ 'k' := by
    intro c hc
    obtain ⟨d, hd, rfl⟩ := List.mem_map.1 hc
    obtain ⟨hd1, hd2, hd3⟩ := hw d hd
    have hn := lowerChar_toNat d
    refine ⟨by split at hn <;> omega, fun hk => ?_⟩
    rw [hk] at hn
    have e1 : ('k' : Char).toNat = 107 := rfl
    split at hn
    · exact hd3 (Char.toNat_inj.1 (by rw [show ('K' : Char).toNat = 75 from rfl]; omega))
    · exact hd2 (Char.toNat_inj.1 (by omega))
  by_cases hs : ∃ c ∈ s, 128 ≤ c.toNat
  · constructor
    · intro h
      obtain ⟨c, hc, hc'⟩ := h2 s hs
      rw [h] at hc
      have := hlow c hc
      rcases hc' with hc' | hc'
      · omega
      · exact absurd hc' this.2
    · intro h
      obtain ⟨c, hc, hc'⟩ := hs
      have hm : lowerChar c ∈ w.map lowerChar := h ▸ List.mem_map_of_mem hc
      have hn := lowerChar_toNat c
      rw [if_neg (by omega)] at hn
      have := (hlow _ hm).1
      omega
  · rw [h1 s fun c hc => by
      apply Classical.byContradiction
      intro h
      exact hs ⟨c, hc, by omega⟩]

end Seam
