import Verif.Lemmas.Markup

/-! # Reading attributes back: what is read is determined by the text written -/

namespace Seam
open Spec

theorem decoded_length : ∀ (n : Nat) (s : Str), (decoded n s).length ≤ s.length
  | _, [] => by simp [decoded]
  | n + 1, _ :: cs => by
    have := decoded_length n cs
    simp only [decoded, List.length_cons]; omega
  | 0, c :: cs => by
    unfold decoded
    split
    · rename_i e _
      have := decoded_length (e.2.length - 1) cs
      simp only [List.length_cons]; omega
    · have := decoded_length 0 cs
      simp only [List.length_cons]; omega

theorem entities_length : ∀ e ∈ entities, 4 ≤ e.2.length := by decide

theorem decoded_skip : ∀ (n : Nat) (s : Str), (decoded n s).length ≤ s.length - n
  | 0, s => by simpa using decoded_length 0 s
  | n + 1, [] => by simp [decoded]
  | n + 1, _ :: cs => by
    have := decoded_skip n cs
    simp only [decoded, List.length_cons]; omega

/-- A text stands for itself exactly if no entity occurs in it. -/
theorem decoded_same : ∀ (s : Str), decoded 0 s = s ↔ ∀ e ∈ entities, ¬ e.2 <:+: s
  | [] => by
    constructor
    · intro _ e he hi
      have h1 := entities_length e he
      have h2 := hi.length_le
      simp only [List.length_nil] at h2; omega
    · intro _; rfl
  | c :: cs => by
    have ih := decoded_same cs
    unfold decoded
    split
    · rename_i e hf
      have he := List.mem_of_find?_eq_some hf
      have hp := List.find?_some hf
      have hp : e.2 <+: c :: cs := by simpa using hp
      constructor
      · intro h
        exfalso
        have h1 := congrArg List.length h
        have h2 := decoded_skip (e.2.length - 1) cs
        have h3 := entities_length e he
        have h4 := hp.length_le
        simp only [List.length_cons] at h1 h4; omega
      · intro h; exact absurd hp.isInfix (h e he)
    · rename_i hf
      have hf := List.find?_eq_none.1 hf
      rw [List.cons.injEq]
      constructor
      · rintro ⟨-, h⟩ e he hi
        rcases (List.infix_cons_iff).1 hi with hi | hi
        · exact hf e he (by simpa using hi)
        · exact ih.1 h e he hi
      · intro h
        exact ⟨rfl, ih.2 fun e he hi => h e he (hi.trans (List.suffix_cons c cs).isInfix)⟩

/-! ## Reading a part of the text -/

theorem read_blanks {x : Str × Str} {raw : List (Str × Str)} {y z : Str} : ∀ {ws p : Str}, Blanks ws →
    readAttrs .gap p = some (x :: raw) → p ++ z = ws ++ y → ∃ p', p = ws ++ p' ∧ readAttrs .gap p' = some (x :: raw) ∧ p' ++ z = y
  | [], p, _, hr, he => ⟨p, rfl, hr, he⟩
  | c :: ws, [], _, hr, _ => by simp [readAttrs] at hr
  | c :: ws, d :: p, hb, hr, he => by
    simp only [List.cons_append, List.cons.injEq] at he
    obtain ⟨rfl, he⟩ := he
    rw [readAttrs, if_pos (hb d (by simp))] at hr
    obtain ⟨p', h1, h2, h3⟩ := read_blanks (fun c hc => hb c (by simp [hc])) hr he
    exact ⟨p', by rw [h1]; rfl, h2, h3⟩

theorem read_key {raw : List (Str × Str)} {y z : Str} : ∀ {k p : Str} (k0 : Str), '=' ∉ k →
    readAttrs (.key k0) p = some raw → p ++ z = k ++ '=' :: y →
    ∃ p', p = k ++ '=' :: p' ∧ readAttrs (.eq (k0 ++ k)) p' = some raw ∧ p' ++ z = y
  | k, [], _, _, hr, _ => by simp [readAttrs] at hr
  | [], d :: p, k0, _, hr, he => by
    simp only [List.cons_append, List.nil_append, List.cons.injEq] at he
    obtain ⟨rfl, he⟩ := he
    rw [readAttrs, if_pos rfl] at hr
    exact ⟨p, rfl, by simpa using hr, he⟩
  | c :: k, d :: p, k0, hk, hr, he => by
    simp only [List.cons_append, List.cons.injEq] at he
    obtain ⟨rfl, he⟩ := he
    rw [readAttrs, if_neg (by rintro rfl; simp at hk)] at hr
    obtain ⟨p', h1, h2, h3⟩ := read_key (k0 ++ [d]) (by intro h; exact hk (by simp [h])) hr he
    exact ⟨p', by rw [h1]; rfl, by simpa using h2, h3⟩

theorem read_val {k : Str} {raw : List (Str × Str)} {y z : Str} : ∀ {v p : Str} (v0 : Str), '"' ∉ v →
    readAttrs (.val k v0) p = some raw → p ++ z = v ++ '"' :: y →
    ∃ p' raw', p = v ++ '"' :: p' ∧ raw = (k, v0 ++ v) :: raw' ∧ readAttrs .gap p' = some raw' ∧ p' ++ z = y
  | v, [], _, _, hr, _ => by simp [readAttrs] at hr
  | [], d :: p, v0, _, hr, he => by
    simp only [List.cons_append, List.nil_append, List.cons.injEq] at he
    obtain ⟨rfl, he⟩ := he
    rw [readAttrs, if_pos rfl, Option.map_eq_some_iff] at hr
    obtain ⟨raw', h1, rfl⟩ := hr
    exact ⟨p, raw', rfl, by simp, h1, he⟩
  | c :: v, d :: p, v0, hv, hr, he => by
    simp only [List.cons_append, List.cons.injEq] at he
    obtain ⟨rfl, he⟩ := he
    rw [readAttrs, if_neg (by rintro rfl; simp at hv)] at hr
    obtain ⟨p', raw', h1, h2, h3, h4⟩ := read_val (v0 ++ [d]) (by intro h; exact hv (by simp [h])) hr he
    exact ⟨p', raw', by rw [h1]; rfl, by simpa using h2, h3, h4⟩

theorem split_quote : ∀ (v : Str), '"' ∈ v → ∃ a b, v = a ++ '"' :: b ∧ '"' ∉ a
  | [], h => by simp at h
  | c :: v, h => by
    by_cases hc : c = '"'
    · exact ⟨[], v, by simp [hc], by simp⟩
    · have : '"' ∈ v := by
        rcases List.mem_cons.1 h with h | h
        · exact absurd h.symm hc
        · exact h
      obtain ⟨a, b, h1, h2⟩ := split_quote v this
      exact ⟨c :: a, b, by rw [h1]; rfl, by
        intro h; rcases List.mem_cons.1 h with h | h
        · exact hc h.symm
        · exact h2 h⟩

/-- If a part of the written text is read as the attributes written, then there is no
quote and no entity in any value. -/
theorem written_read {z z' : Str} : ∀ {as : List (Str × Str)} {ws : List Str} {p : Str} {raw : List (Str × Str)}, ws.length = as.length →
    (∀ w ∈ ws, Blanks w) → (∀ q ∈ as, NameOk q.1) → readAttrs .gap p = some raw →
    p ++ z = ((List.zip ws as).flatMap fun q => attrText q.1 q.2.1 q.2.2) ++ z' →
    raw.map (fun q => (q.1, decoded 0 q.2)) = as → ∀ q ∈ as, '"' ∉ q.2 ∧ ∀ e ∈ entities, ¬ e.2 <:+: q.2
  | [], _, _, _, _, _, _, _, _, _ => by simp
  | (k, v) :: as, [], _, _, hl, _, _, _, _, _ => by simp at hl
  | (k, v) :: as, w :: ws, p, [], _, _, _, _, _, hm => by simp at hm
  | (k, v) :: as, w :: ws, p, x :: raw, hl, hb, hn, hr, he, hm => by
    simp only [List.map_cons, List.cons.injEq] at hm
    obtain ⟨hx, hm⟩ := hm
    have hgap : Blanks (if w = [] then [' '] else w) := by
      split
      · intro c hc; simp at hc; subst hc; decide
      · exact hb w (by simp)
    simp only [List.zip_cons_cons, List.flatMap_cons, attrText, List.append_assoc] at he
    obtain ⟨p1, h1, hr1, he1⟩ := read_blanks hgap hr he
    obtain ⟨hk1, hk2⟩ := hn (k, v) (by simp)
    have hkeq : '=' ∉ k := by
      intro h; have := hk2 _ h; revert this; decide
    obtain ⟨c0, k', rfl⟩ : ∃ c0 k', k = c0 :: k' := by
      cases k with
      | nil => exact absurd rfl hk1
      | cons c0 k' => exact ⟨c0, k', rfl⟩
    have hc0 : blank c0 = false := by
      have := hk2 c0 (by simp)
      simp only [nameChar, Bool.and_eq_true] at this
      simpa using this.1
    cases p1 with
    | nil => simp [readAttrs] at hr1
    | cons d p1 =>
      simp only [List.cons_append, List.cons.injEq, List.nil_append] at he1
      obtain ⟨rfl, he1⟩ := he1
      rw [readAttrs, if_neg (by simp [hc0])] at hr1
      obtain ⟨p2, h2, hr2, he2⟩ := read_key [d] (by intro h; exact hkeq (by simp [h])) hr1 he1
      cases p2 with
      | nil => simp [readAttrs] at hr2
      | cons d' p2 =>
        simp only [List.cons_append, List.cons.injEq] at he2
        obtain ⟨rfl, he2⟩ := he2
        rw [readAttrs, if_pos rfl] at hr2
        by_cases hq : '"' ∈ v
        · exfalso
          obtain ⟨a, b, rfl, ha⟩ := split_quote v hq
          obtain ⟨p3, raw', h3, h4, _, _⟩ := read_val (y := b ++ '"' :: (((List.zip ws as).flatMap fun q => attrText q.1 q.2.1 q.2.2) ++ z')) [] ha hr2
            (by rw [he2]; simp [attrText])
          simp only [List.nil_append, List.cons.injEq] at h4
          rw [h4.1] at hx
          have h5 := congrArg (fun q => q.2.length) hx
          have h6 := decoded_length 0 a
          simp at h5; omega
        · obtain ⟨p3, raw', h3, h4, hr3, he3⟩ := read_val (y := ((List.zip ws as).flatMap fun q => attrText q.1 q.2.1 q.2.2) ++ z') [] hq hr2
            (by rw [he2]; simp [attrText])
          simp only [List.nil_append, List.cons.injEq] at h4
          obtain ⟨rfl, rfl⟩ := h4
          have hd : decoded 0 v = v := by simpa using congrArg Prod.snd hx
          intro q hqm
          rcases List.mem_cons.1 hqm with rfl | hqm
          · exact ⟨hq, (decoded_same v).1 hd⟩
          · exact written_read (by simpa using hl) (fun w hw => hb w (by simp [hw])) (fun q hq => hn q (by simp [hq])) hr3 he3 hm q hqm

theorem dropWhile_of_take {name body : Str} (h : body.takeWhile (!blank ·) = name) :
    body = name ++ body.dropWhile (!blank ·) := by
  rw [← h]; exact (List.takeWhile_append_dropWhile).symm

end Seam
