import Verif.Spec.Reader

/-! Helper lemmas: the lexer computes the tokens of `Verif.Spec.Reader`. -/

namespace Seam
open Spec

/-! ### Text measures -/

@[simp] theorem blen_nil : blen [] = 0 := rfl
@[simp] theorem blen_cons (c : Char) (s : Str) : blen (c :: s) = c.utf8Size + blen s := rfl
@[simp] theorem blen_append (a b : Str) : blen (a ++ b) = blen a + blen b := by
  induction a with
  | nil => simp
  | cons c a ih => simp [ih]; omega

@[simp] theorem newlines_nil : newlines [] = 0 := rfl
@[simp] theorem newlines_append (a b : Str) : newlines (a ++ b) = newlines a + newlines b := by
  simp [newlines]
theorem newlines_cons (c : Char) (s : Str) :
    newlines (c :: s) = (if c = '\n' then 1 else 0) + newlines s := by
  simp [newlines, List.count_cons]; omega
theorem newlines_eq_zero {s : Str} : newlines s = 0 ↔ '\n' ∉ s := by
  simp [newlines, List.count_eq_zero]

@[simp] theorem lastLine_nil : lastLine [] = [] := rfl
theorem lastLine_snoc (s : Str) (c : Char) :
    lastLine (s ++ [c]) = if c = '\n' then [] else lastLine s ++ [c] := by
  by_cases h : c = '\n' <;> simp [lastLine, h]

theorem lastLine_append_of_notin (s t : Str) (h : '\n' ∉ t) : lastLine (s ++ t) = lastLine s ++ t := by
  induction t generalizing s with
  | nil => simp
  | cons c t ih =>
    have : s ++ c :: t = (s ++ [c]) ++ t := by simp
    simp only [List.mem_cons, not_or] at h
    rw [this, ih _ h.2, lastLine_snoc, if_neg (Ne.symm h.1)]
    simp

theorem lastLine_notin (s : Str) : '\n' ∉ lastLine s := by
  unfold lastLine
  intro h
  rw [List.mem_reverse] at h
  have := List.all_takeWhile (l := s.reverse) (p := (· != '\n'))
  rw [List.all_eq_true] at this
  simpa using this _ h

theorem lastLine_suffix (s : Str) : ∃ a, s = a ++ lastLine s ∧ (a = [] ∨ ∃ a', a = a' ++ ['\n']) := by
  refine ⟨(s.reverse.dropWhile (· != '\n')).reverse, ?_, ?_⟩
  · unfold lastLine
    rw [← List.reverse_append, List.takeWhile_append_dropWhile, List.reverse_reverse]
  · generalize hd : s.reverse.dropWhile (· != '\n') = d
    cases d with
    | nil => simp
    | cons c d =>
      right
      have := List.head?_dropWhile_not (· != '\n') s.reverse
      rw [hd] at this
      simp at this
      exact ⟨d.reverse, by simp [this]⟩

/-! ### Lexer states -/

/-- The state of a lexer that has read `before`. -/
def stateAt (b : Buf) (before : Str) (line : Nat) (rest : Str) : Lex :=
  { buf := b, rest := rest, off := blen before, bol := blen (lastLine before), line := line }

theorem new_eq (b : Buf) : Lex.new b = stateAt b [] 1 b.code := rfl

theorem stateAt_advance (b : Buf) (before : Str) (line : Nat) (c : Char) (cs r : Str) (h : c ≠ '\n') :
    (stateAt b before line (c :: cs)).advance c.utf8Size r = stateAt b (before ++ [c]) line r := by
  simp [stateAt, Lex.advance, lastLine_snoc, h]

theorem stateAt_newline (b : Buf) (before : Str) (line : Nat) (cs r : Str) :
    ((stateAt b before line ('\n' :: cs)).advance ('\n' : Char).utf8Size r).nextLine
      = stateAt b (before ++ ['\n']) (line + 1) r := by
  simp [stateAt, Lex.advance, Lex.nextLine, lastLine_snoc]

theorem isWs_eq (c : Char) : isWs c = blank c := by
  unfold isWs blank
  cases c == '\n' <;> cases c == '\r' <;> cases c == '\t' <;> cases c == ' ' <;> rfl

theorem blank_newline : blank '\n' = true := by decide
theorem blank_semi : blank ';' = false := by decide

/-! ### Whitespace and comments -/

theorem wsLoop_rest (l : Lex) (r : Str) (eon : Bool) (acc s : Str) :
    wsLoop { l with rest := r } eon acc s = wsLoop l eon acc s := by
  cases s with
  | nil => rfl
  | cons c cs => cases cs <;> rfl

theorem wsLoop_cons (l : Lex) (eon : Bool) (acc : Str) (c d : Char) (ds : Str) :
    wsLoop l eon acc (c :: d :: ds) =
      if !isWs c && !(eon || c == ';') then (acc, { l with rest := c :: d :: ds })
      else if c == '\n' then
        if eon || c == ';' then wsLoop (l.advance c.utf8Size (d :: ds)).nextLine false [c] (d :: ds)
        else wsLoop (l.advance c.utf8Size (d :: ds)).nextLine (eon || c == ';') (acc ++ [c]) (d :: ds)
      else wsLoop (l.advance c.utf8Size (d :: ds)) (eon || c == ';') (acc ++ [c]) (d :: ds) := rfl

theorem wsLoop_blank (b : Buf) (before : Str) (line : Nat) (acc : Str) (c : Char) (s : Str)
    (hc : blank c = true) (hs : s ≠ []) :
    wsLoop (stateAt b before line (c :: s)) false acc (c :: s) =
      wsLoop (stateAt b (before ++ [c]) (line + newlines [c]) s) false (acc ++ [c]) s := by
  have h59 : (c == ';') = false := by
    cases h : c == ';' with
    | false => rfl
    | true => rw [beq_iff_eq] at h; subst h; exact absurd hc (by decide)
  obtain ⟨d, ds, rfl⟩ := List.exists_cons_of_ne_nil hs
  rw [wsLoop_cons, isWs_eq, hc, h59]
  simp only [Bool.not_true, Bool.false_and, Bool.false_eq_true, if_false, Bool.or_false]
  by_cases hn : c = '\n'
  · subst hn
    rw [stateAt_newline]
    simp [newlines_cons]
  · rw [stateAt_advance _ _ _ _ _ _ hn]
    simp [newlines_cons, hn]

theorem wsLoop_blanks (b : Buf) (before : Str) (line : Nat) (acc w s : Str)
    (hw : Blanks w) (hs : s ≠ []) :
    wsLoop (stateAt b before line (w ++ s)) false acc (w ++ s) =
      wsLoop (stateAt b (before ++ w) (line + newlines w) s) false (acc ++ w) s := by
  induction w generalizing before line acc with
  | nil => simp
  | cons c w ih =>
    have hne : w ++ s ≠ [] := by simp [hs]
    simp only [List.cons_append]
    rw [wsLoop_blank _ _ _ _ _ _ (hw c (by simp)) hne,
      ih _ _ _ (fun d hd => hw d (by simp [hd]))]
    simp [newlines_cons c w, newlines_cons c [], Nat.add_assoc]

theorem wsLoop_comment (b : Buf) (before : Str) (line : Nat) (acc text s : Str)
    (ht : '\n' ∉ text) (hs : s ≠ []) :
    wsLoop (stateAt b before line (text ++ '\n' :: s)) true acc (text ++ '\n' :: s) =
      wsLoop (stateAt b (before ++ text) line ('\n' :: s)) false [] ('\n' :: s) := by
  induction text generalizing before acc with
  | nil =>
    obtain ⟨d, ds, rfl⟩ := List.exists_cons_of_ne_nil hs
    simp only [List.nil_append, List.append_nil]
    rw [wsLoop_cons, wsLoop_cons]
    simp only [isWs_eq, blank_newline]
    simp
  | cons c text ih =>
    simp only [List.mem_cons, not_or] at ht
    have hc : c ≠ '\n' := fun h => ht.1 h.symm
    have hc' : (c == '\n') = false := by simp [hc]
    have hne : ∃ d ds, text ++ '\n' :: s = d :: ds := by
      cases text <;> simp
    simp only [List.cons_append]
    rw [wsLoop]
    obtain ⟨d, ds, hd⟩ := hne
    have := ih (before ++ [c]) (acc ++ [c]) ht.2
    rw [hd] at this ⊢
    simp only [Bool.true_or, Bool.not_true, Bool.and_false, Bool.false_eq_true, if_false, hc',
      stateAt_advance _ _ _ _ _ _ hc]
    rw [this]
    simp

theorem wsLoop_semi (b : Buf) (before : Str) (line : Nat) (acc s : Str) (hs : s ≠ []) :
    wsLoop (stateAt b before line (';' :: s)) false acc (';' :: s) =
      wsLoop (stateAt b (before ++ [';']) line s) true (acc ++ [';']) s := by
  obtain ⟨d, ds, rfl⟩ := List.exists_cons_of_ne_nil hs
  rw [wsLoop]
  simp [stateAt_advance _ _ _ ';' _ _ (by decide)]

/-- Characters at which reading of blanks stops. -/
def tokenChar (c : Char) : Bool := !blank c && c != ';'

theorem wsLoop_stop (l : Lex) (acc : Str) (c : Char) (cs : Str) (hc : tokenChar c = true)
    (hl : l.rest = c :: cs) : wsLoop l false acc (c :: cs) = (acc, l) := by
  simp only [tokenChar, Bool.and_eq_true, Bool.not_eq_true', bne_iff_ne, ne_eq] at hc
  rw [wsLoop]
  have : (c == ';') = false := by simp [hc.2]
  simp [isWs_eq, hc.1, this, ← hl]

/-- Is there a comment. -/
def hasComment (s : Str) : Bool := s.contains ';'

theorem wsLoop_trivia (b : Buf) {triv lead : Str} (ht : Trivia triv lead) :
    ∀ (before : Str) (line : Nat) (acc : Str) (c : Char) (cs : Str), tokenChar c = true →
    wsLoop (stateAt b before line (triv ++ c :: cs)) false acc (triv ++ c :: cs) =
      (if hasComment triv then lead else acc ++ lead,
       stateAt b (before ++ triv) (line + newlines triv) (c :: cs)) := by
  induction ht with
  | blanks w hw =>
    intro before line acc c cs hc
    rw [wsLoop_blanks _ _ _ _ _ _ hw (by simp), wsLoop_stop _ _ _ _ hc rfl]
    have : hasComment w = false := by
      unfold hasComment
      rw [List.contains_eq_mem]
      simp only [decide_eq_false_iff_not]
      intro h
      have := hw _ h
      exact absurd this (by decide)
    simp [this]
  | comment w text r lead hw htext _ ih =>
    intro before line acc c cs hc
    have e1 : w ++ ';' :: text ++ '\n' :: r ++ c :: cs = w ++ (';' :: (text ++ '\n' :: (r ++ c :: cs))) := by simp
    rw [e1, wsLoop_blanks _ _ _ _ _ _ hw (by simp), wsLoop_semi _ _ _ _ _ (by simp),
      wsLoop_comment _ _ _ _ _ _ htext (by simp)]
    have := ih (before ++ w ++ [';'] ++ text) (line + newlines w) [] c cs hc
    simp only [List.cons_append, List.nil_append, ite_self] at this
    rw [this]
    have hcm : hasComment (w ++ ';' :: text ++ '\n' :: r) = true := by
      simp [hasComment]
    rw [hcm]
    simp [newlines_cons, newlines_eq_zero.2 htext, Nat.add_assoc]

theorem consumeWs_trivia (b : Buf) {triv lead : Str} (ht : Trivia triv lead)
    (before : Str) (line : Nat) (c : Char) (cs : Str) (hc : tokenChar c = true) :
    (stateAt b before line (triv ++ c :: cs)).consumeWs =
      (lead, stateAt b (before ++ triv) (line + newlines triv) (c :: cs)) := by
  have := wsLoop_trivia b ht before line [] c cs hc
  simp only [List.nil_append, ite_self] at this
  exact this

/-- What is left after blanks and comments. -/
def wsRest : Bool → Str → Str
  | _, [] => []
  | eon, c :: cs =>
    if !blank c && !(eon || c == ';') then c :: cs
    else wsRest (if c == '\n' then false else eon || c == ';') cs

theorem wsLoop_snd_rest (l : Lex) (eon : Bool) (acc s : Str) :
    (wsLoop l eon acc s).2.rest = wsRest eon s := by
  induction s generalizing l eon acc with
  | nil => rfl
  | cons c cs ih =>
    rw [wsLoop, wsRest]
    simp only [isWs_eq]
    split
    · rfl
    · cases cs with
      | nil => simp [wsRest, Lex.advance]
      | cons d ds =>
        simp only []
        split
        · rename_i hn
          rw [beq_iff_eq] at hn
          subst hn
          split
          · rw [ih]
          · rename_i h
            rw [ih]
            simp only [Bool.not_eq_true] at h
            rw [h]
        · rw [ih]

theorem wsRest_blanks (w s : Str) (hw : Blanks w) : wsRest false (w ++ s) = wsRest false s := by
  induction w with
  | nil => rfl
  | cons c w ih =>
    have hc := hw c (by simp)
    have hc' : (c == ';') = false := by
      cases h : c == ';' with
      | false => rfl
      | true => rw [beq_iff_eq] at h; subst h; exact absurd hc (by decide)
    simp only [List.cons_append, wsRest, hc, hc']
    simp [ih (fun d hd => hw d (by simp [hd]))]

theorem wsRest_comment (text s : Str) (ht : '\n' ∉ text) : wsRest true (text ++ '\n' :: s) = wsRest false s := by
  induction text with
  | nil => simp [wsRest]
  | cons c text ih =>
    simp only [List.mem_cons, not_or] at ht
    have hc : (c == '\n') = false := by simp [Ne.symm ht.1]
    simp [wsRest, hc, ih ht.2]

theorem wsRest_comment_end (text : Str) (ht : '\n' ∉ text) : wsRest true text = [] := by
  induction text with
  | nil => rfl
  | cons c text ih =>
    simp only [List.mem_cons, not_or] at ht
    have hc : (c == '\n') = false := by simp [Ne.symm ht.1]
    simp [wsRest, hc, ih ht.2]

theorem wsRest_trivia {triv lead : Str} (ht : Trivia triv lead) (s : Str) :
    wsRest false (triv ++ s) = wsRest false s := by
  induction ht with
  | blanks w hw => exact wsRest_blanks w s hw
  | comment w text r lead hw htext _ ih =>
    have e1 : w ++ ';' :: text ++ '\n' :: r ++ s = w ++ (';' :: (text ++ '\n' :: (r ++ s))) := by simp
    rw [e1, wsRest_blanks _ _ hw]
    rw [wsRest]
    have : (!blank ';' && !(false || (';' : Char) == ';')) = false := by decide
    rw [this]
    simp only [Bool.false_eq_true, if_false]
    have h2 : (if (';' : Char) == '\n' then false else false || (';' : Char) == ';') = true := by decide
    rw [h2, wsRest_comment _ _ htext]
    simp only [List.cons_append, wsRest, blank_newline] at ih
    simpa using ih

theorem eof_eq (l : Lex) : l.eof = (wsRest false l.rest).isEmpty := by
  unfold Lex.eof Lex.peekChar Lex.consumeWs
  rw [wsLoop_snd_rest]
  cases wsRest false l.rest <;> rfl

theorem eof_of_endTrivia {s : Str} (h : EndTrivia s) : wsRest false s = [] := by
  obtain ⟨t, lead, ht, rfl | ⟨text, htext, rfl⟩⟩ := h
  · have := wsRest_trivia ht []
    simpa [wsRest] using this
  · rw [wsRest_trivia ht, wsRest]
    have : (!blank ';' && !(false || (';' : Char) == ';')) = false := by decide
    rw [this]
    simp [wsRest_comment_end _ htext]

theorem not_eof_of_trivia {triv lead : Str} (ht : Trivia triv lead) (c : Char) (cs : Str)
    (hc : tokenChar c = true) : wsRest false (triv ++ c :: cs) = c :: cs := by
  rw [wsRest_trivia ht, wsRest]
  simp only [tokenChar, Bool.and_eq_true, Bool.not_eq_true', bne_iff_ne, ne_eq] at hc
  have : (c == ';') = false := by simp [hc.2]
  simp [hc.1, this]

/-- Split off a comment. -/
theorem split_newline (s : Str) : '\n' ∉ s ∨ ∃ a r, s = a ++ '\n' :: r ∧ '\n' ∉ a := by
  induction s with
  | nil => simp
  | cons c s ih =>
    by_cases hc : c = '\n'
    · right; exact ⟨[], s, by simp [hc], by simp⟩
    · rcases ih with h | ⟨a, r, rfl, ha⟩
      · left; simp [h, Ne.symm hc]
      · right; exact ⟨c :: a, r, by simp, by simp [ha, Ne.symm hc]⟩

theorem trivia_cons_blank {c : Char} {t lead : Str} (hc : blank c = true) (h : Trivia t lead) :
    ∃ lead', Trivia (c :: t) lead' := by
  cases h with
  | blanks w hw =>
    exact ⟨c :: t, .blanks _ (by
      intro d hd
      rcases List.mem_cons.1 hd with h | h
      · rw [h]; exact hc
      · exact hw d h)⟩
  | comment w text r lead hw htext h =>
    refine ⟨lead, ?_⟩
    have := Trivia.comment (c :: w) text r lead (by
      intro d hd
      rcases List.mem_cons.1 hd with h | h
      · rw [h]; exact hc
      · exact hw d h) htext h
    simpa using this

/-- Every text is blanks and comments followed by a token, or only those. -/
theorem trivia_split (s : Str) :
    EndTrivia s ∨ ∃ triv lead c cs, Trivia triv lead ∧ tokenChar c = true ∧ s = triv ++ c :: cs := by
  generalize hn : s.length = n
  induction n using Nat.strongRecOn generalizing s with
  | ind n ih =>
    cases s with
    | nil => left; exact ⟨[], [], .blanks _ (by intro c hc; simp at hc), Or.inl rfl⟩
    | cons c s =>
      by_cases hb : blank c = true
      · rcases ih s.length (by simp at hn; omega) s rfl with ⟨t, lead, ht, h⟩ | ⟨t, lead, d, ds, ht, hd, rfl⟩
        · obtain ⟨lead', h'⟩ := trivia_cons_blank hb ht
          left
          refine ⟨c :: t, lead', h', ?_⟩
          rcases h with rfl | ⟨text, h1, rfl⟩
          · exact Or.inl rfl
          · exact Or.inr ⟨text, h1, by simp⟩
        · obtain ⟨lead', h'⟩ := trivia_cons_blank hb ht
          right
          exact ⟨c :: t, lead', d, ds, h', hd, by simp⟩
      · by_cases hs : c = ';'
        · subst hs
          rcases split_newline s with h | ⟨a, r, rfl, ha⟩
          · left
            exact ⟨[], [], .blanks _ (by intro c hc; simp at hc), Or.inr ⟨s, h, by simp⟩⟩
          · have hnil : Blanks [] := by intro c hc; simp at hc
            rcases ih ('\n' :: r).length (by simp at hn ⊢; omega) ('\n' :: r) rfl with
              ⟨t, lead, ht, h⟩ | ⟨t, lead, d, ds, ht, hd, hr⟩
            · -- the trivia starts with the newline
              left
              have key : ∃ t', t = '\n' :: t' ∨ t = [] := by
                cases t with
                | nil => exact ⟨[], Or.inr rfl⟩
                | cons x xs =>
                  rcases h with h | ⟨text, _, h⟩
                  · simp only [List.cons.injEq] at h
                    exact ⟨xs, Or.inl (by rw [h.1])⟩
                  · simp only [List.cons_append, List.cons.injEq] at h
                    exact ⟨xs, Or.inl (by rw [h.1])⟩
              obtain ⟨t', rfl | rfl⟩ := key
              · refine ⟨[] ++ ';' :: a ++ '\n' :: t', lead, .comment [] a t' lead hnil ha ht, ?_⟩
                rcases h with h | ⟨text, h1, h⟩
                · left; rw [h]; simp
                · right; refine ⟨text, h1, ?_⟩
                  simp only [List.cons_append, List.cons.injEq, true_and] at h
                  simp [h]
              · rcases h with h | ⟨text, _, h⟩
                · simp at h
                · simp at h
            · right
              cases t with
              | nil =>
                simp only [List.nil_append, List.cons.injEq] at hr
                obtain ⟨rfl, rfl⟩ := hr
                exact absurd hd (by decide)
              | cons x xs =>
                simp only [List.cons_append, List.cons.injEq] at hr
                obtain ⟨rfl, rfl⟩ := hr
                exact ⟨[] ++ ';' :: a ++ '\n' :: xs, lead, d, ds, .comment [] a xs lead hnil ha ht, hd, by simp⟩
        · right
          refine ⟨[], [], c, s, .blanks _ (by intro c hc; simp at hc), ?_, rfl⟩
          simp [tokenChar, hb, hs]

end Seam
