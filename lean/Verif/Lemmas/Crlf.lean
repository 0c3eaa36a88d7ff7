import Verif.Lemmas.Layout
import Verif.Lemmas.Sites
import Verif.Spec.Crlf

/-! Windows line ends: reading and writing. -/

namespace Seam
open Spec

/-! ## Texts -/

@[simp] theorem crlf_nil : crlf [] = [] := rfl
theorem crlf_cons (c : Char) (s : Str) : crlf (c :: s) = if c = '\n' then '\r' :: '\n' :: crlf s else c :: crlf s := rfl
theorem crlf_newline (s : Str) : crlf ('\n' :: s) = '\r' :: '\n' :: crlf s := by rw [crlf_cons, if_pos rfl]
theorem crlf_other {c : Char} (h : c ≠ '\n') (s : Str) : crlf (c :: s) = c :: crlf s := by rw [crlf_cons, if_neg h]
theorem crlf_append : ∀ a b : Str, crlf (a ++ b) = crlf a ++ crlf b
  | [], _ => rfl
  | c :: a, b => by
    rw [List.cons_append, crlf_cons, crlf_cons, crlf_append a b]
    split <;> rfl
theorem crlf_line : ∀ {s : Str}, '\n' ∉ s → crlf s = s
  | [], _ => rfl
  | c :: s, h => by
    simp only [List.mem_cons, not_or] at h
    rw [crlf_other (fun e => h.1 e.symm), crlf_line h.2]
theorem crlf_newlines : ∀ s : Str, newlines (crlf s) = newlines s
  | [] => rfl
  | c :: s => by
    rw [crlf_cons]
    split
    · rename_i h
      subst h
      rw [newlines_cons, newlines_cons, newlines_cons, crlf_newlines s]
      simp
    · rw [newlines_cons, newlines_cons, crlf_newlines s]
theorem crlf_lines {a : Str} (h : a = [] ∨ ∃ x, a = x ++ ['\n']) : crlf a = [] ∨ ∃ x, crlf a = x ++ ['\n'] := by
  rcases h with rfl | ⟨x, rfl⟩
  · exact .inl rfl
  · exact .inr ⟨crlf x ++ ['\r'], by rw [crlf_append]; simp [crlf_cons]⟩
theorem crlf_noCr : ∀ s : Str, noCr (crlf s) = noCr s
  | [] => rfl
  | c :: s => by
    have ih := crlf_noCr s
    unfold noCr at ih ⊢
    rw [crlf_cons]
    split
    · rename_i h
      subst h
      simp [ih]
    · simp [List.filter_cons, ih]
theorem crlf_empty {s : Str} : s = [] ↔ crlf s = [] := by
  cases s with
  | nil => simp
  | cons c s => rw [crlf_cons]; split <;> simp

theorem crlf_same (w : Str) : SameCr w (crlf w) := ⟨(crlf_noCr w).symm, crlf_empty⟩

theorem crlf_blanks {w : Str} (h : Blanks w) : Blanks (crlf w) := by
  intro c hc
  induction w with
  | nil => simp at hc
  | cons a w ih =>
    have ih := ih fun c hc => h c (by simp [hc])
    rw [crlf_cons] at hc
    split at hc
    · simp only [List.mem_cons] at hc
      rcases hc with rfl | rfl | hc
      · rfl
      · rfl
      · exact ih hc
    · simp only [List.mem_cons] at hc
      rcases hc with rfl | hc
      · exact h _ (by simp)
      · exact ih hc

theorem noCr_newline (w : Str) : w.contains '\n' = (noCr w).contains '\n' := by
  induction w with
  | nil => rfl
  | cons c w ih =>
    unfold noCr at ih ⊢
    rw [List.filter_cons]
    split
    · rw [List.contains_cons, List.contains_cons, ih]
    · rename_i h
      have : c = '\r' := by simpa using h
      subst this
      rw [List.contains_cons, ih]
      rfl

theorem SameCr.newline {w v : Str} (h : SameCr w v) : w.contains '\n' = v.contains '\n' := by
  rw [noCr_newline w, noCr_newline v, h.1]
theorem SameCr.empty {w v : Str} (h : SameCr w v) : w.isEmpty = v.isEmpty := by
  rw [Bool.eq_iff_iff, List.isEmpty_iff, List.isEmpty_iff]
  exact h.2

instance blanking_cr : Blanking SameCr where
  const _ := ⟨rfl, Iff.rfl⟩
  first h := by
    unfold firstLw
    rw [SameCr.newline h]
    split
    · exact h
    · exact ⟨rfl, Iff.rfl⟩

instance kept_cr : Kept SameCr (· != '\r') where
  kept h := h.1
  symm h := ⟨h.1.symm, h.2.symm⟩
  sep h := by
    rw [SameCr.empty h]
    split
    · rfl
    · exact h.1
  close style w v e f x y h he hx := by
    rw [SameCr.empty he, SameCr.newline hx]
    split
    · split
      · exact h.1
      · rfl
    · exact he.1

/-! ## Blanks and comments -/

theorem trivia_uncr {t lead : Str} (h : Trivia t lead) : ∀ {x : Str}, t = '\r' :: '\n' :: x →
    ∃ lead', Trivia ('\n' :: x) lead' ∧ noCr lead = noCr lead' ∧ lead ≠ [] ∧ lead' ≠ [] := by
  intro x ht
  cases h with
  | blanks _ h =>
    subst ht
    refine ⟨'\n' :: x, .blanks _ fun c hc => h c (by simp at hc ⊢; exact .inr hc), ?_, by simp, by simp⟩
    simp [noCr]
  | comment w text r _ hw htx h =>
    have hl : lead ≠ [] := by
      intro he
      rcases (trivia_lead h).2 with h | ⟨l, h⟩
      · rw [he] at h; cases h
      · rw [he] at h; cases h
    cases w with
    | nil => simp at ht
    | cons c w =>
      simp only [List.cons_append, List.cons.injEq] at ht
      refine ⟨lead, ?_, rfl, hl, hl⟩
      rw [← ht.2]
      exact .comment w text r lead (fun c hc => hw c (by simp [hc])) htx h

theorem trivia_crlf {t lead : Str} (h : Trivia t lead) : ∃ lead', Trivia (crlf t) lead' ∧ SameCr lead lead' := by
  induction h with
  | blanks w h => exact ⟨crlf w, .blanks _ (crlf_blanks h), crlf_same w⟩
  | comment w text r lead hw ht h ih =>
    obtain ⟨l1, h1, h2⟩ := ih
    rw [crlf_newline] at h1
    obtain ⟨l2, h3, h4, h5, h6⟩ := trivia_uncr h1 rfl
    refine ⟨l2, ?_, h2.1.trans h4, ?_⟩
    · have := Trivia.comment (crlf w) (text ++ ['\r']) (crlf r) l2 (crlf_blanks hw) (by simp [ht]) h3
      rw [crlf_append, crlf_append, crlf_newline, crlf_other (by decide), crlf_line ht]
      simpa using this
    · exact ⟨fun h => absurd (h2.2.1 h) h5, fun h => absurd h h6⟩

theorem endTrivia_crlf {s : Str} (h : EndTrivia s) : EndTrivia (crlf s) := by
  obtain ⟨t, lead, h, hs⟩ := h
  obtain ⟨l, h, _⟩ := trivia_crlf h
  refine ⟨_, _, h, ?_⟩
  rcases hs with rfl | ⟨text, ht, rfl⟩
  · exact .inl rfl
  · exact .inr ⟨text, ht, by rw [crlf_append, crlf_other (by decide), crlf_line ht]⟩

/-! ## Tokens -/

/-- The first character of what follows a token is the same, or it was a newline and is a carriage return. -/
theorem crlf_head (s : Str) : crlf s = [] ∨ (∃ l, crlf s = '\r' :: l) ∨ ∃ c l l', s = c :: l ∧ crlf s = c :: l' := by
  cases s with
  | nil => exact .inl rfl
  | cons c s =>
    rw [crlf_cons]
    split
    · exact .inr (.inl ⟨_, rfl⟩)
    · exact .inr (.inr ⟨c, s, _, rfl, rfl⟩)

theorem stop_crlf {rest : Str} (h : Stop rest) : Stop (crlf rest) := by
  rcases crlf_head rest with e | ⟨l, e⟩ | ⟨c, l, l', rfl, e⟩
  · rw [e]; trivial
  · rw [e]; rfl
  · rw [e]; exact h

theorem quotes_crlf {s : Str} (h : q3 <+: crlf s) : q3 <+: s := by
  unfold q3 at *
  obtain ⟨t, ht⟩ := h
  have step : ∀ {s t : Str}, crlf s = '"' :: t → ∃ s', s = '"' :: s' ∧ crlf s' = t := by
    intro s t h
    cases s with
    | nil => simp at h
    | cons c s =>
      rw [crlf_cons] at h
      split at h
      · simp at h
      · simp only [List.cons.injEq] at h
        obtain ⟨rfl, h⟩ := h
        exact ⟨s, rfl, h⟩
  obtain ⟨s1, rfl, h1⟩ := step ht.symm
  obtain ⟨s2, rfl, h2⟩ := step h1
  obtain ⟨s3, rfl, h3⟩ := step h2
  exact ⟨s3, rfl⟩

theorem opens_crlf {q s : Str} (h : Opens q (q ++ s)) : Opens q (q ++ crlf s) := by
  rcases h with ⟨rfl, h⟩ | ⟨rfl, h, h'⟩
  · exact .inl ⟨rfl, ⟨crlf s, rfl⟩⟩
  · refine .inr ⟨rfl, ⟨crlf s, rfl⟩, fun hx => h' ?_⟩
    have : q1 ++ crlf s = crlf (q1 ++ s) := by
      rw [crlf_append]; rfl
    rw [this] at hx
    exact quotes_crlf hx

theorem unclosed_crlf {q s : Str} (hq : q = q1 ∨ q = q3) (h : Unclosed q s) : Unclosed q (crlf s) := by
  have start : ∀ {c : Char} {s : Str}, c ≠ '\n' → ¬ q <+: c :: s → ¬ q <+: c :: crlf s := by
    intro c s hc h hx
    rcases hq with rfl | rfl
    · obtain ⟨t, ht⟩ := hx
      simp only [q1, List.cons_append, List.nil_append, List.cons.injEq] at ht
      exact h ⟨s, by rw [← ht.1]; rfl⟩
    · rw [← crlf_other hc] at hx
      exact h (quotes_crlf hx)
  have blank : ∀ {c : Char} {s : Str}, c ≠ '"' → ¬ q <+: c :: s := by
    intro c s hc hx
    obtain ⟨t, ht⟩ := hx
    rcases hq with rfl | rfl <;> simp only [q1, q3, List.cons_append, List.nil_append, List.cons.injEq] at ht <;> exact hc ht.1.symm
  induction h with
  | nil => exact .nil
  | plain c s h1 h2 _ ih =>
    rw [crlf_cons]
    split
    · exact .plain _ _ (by decide) (blank (by decide)) (.plain _ _ (by decide) (blank (by decide)) ih)
    · rename_i hc
      exact .plain _ _ h1 (start hc h2) ih
  | esc c s _ ih =>
    rw [crlf_other (by decide), crlf_cons]
    split
    · exact .esc _ _ (.plain _ _ (by decide) (blank (by decide)) ih)
    · exact .esc _ _ ih
  | escEnd => exact .escEnd

theorem lexeme_line {kind : Kind} {text value rest : Str} (h : Lexeme kind text value rest) (hv : '\n' ∉ value) : '\n' ∉ text := by
  cases h with
  | lparen => decide
  | rparen => decide
  | symbol => exact hv
  | number => exact hv
  | keyword => simp [hv]
  | string q _ _ _ h =>
    rcases h with ⟨rfl, _⟩ | ⟨rfl, _⟩ <;> simp [hv, q1, q3]

theorem lexeme_crlf {kind : Kind} {text value rest : Str} (hl : Lexeme kind text value rest) (hv : '\n' ∉ value) :
    Lexeme kind text value (crlf rest) := by
  cases hl with
  | lparen => exact .lparen _
  | rparen => exact .rparen _
  | symbol _ _ h1 h2 h3 => exact .symbol _ _ h1 h2 (stop_crlf h3)
  | number _ _ h1 h2 h3 => exact .number _ _ h1 h2 (stop_crlf h3)
  | keyword _ _ h1 h2 => exact .keyword _ _ h1 (stop_crlf h2)
  | string q _ _ h1 h2 =>
    refine .string q _ _ h1 ?_
    have hq : '\n' ∉ q := by rcases h2 with ⟨rfl, _⟩ | ⟨rfl, _⟩ <;> simp [q1, q3]
    have := opens_crlf (q := q) (s := value ++ q ++ rest) (by simpa using h2)
    rw [crlf_append, crlf_line (s := value ++ q) (by simp [hv, hq])] at this
    simpa using this

theorem spot_of {b : Buf} {line : Nat} {before text after : Str} (h : b.code = before ++ text ++ after) (ht : text ≠ []) (hl : '\n' ∉ text) :
    SameSpot b.path b.code (siteOf b line before text) (siteOf { b with code := crlf b.code } line (crlf before) text) := by
  refine ⟨rfl, rfl, ?_⟩
  obtain ⟨a, h1, h2⟩ := lastLine_suffix before
  have hn := lastLine_notin before
  have hc : crlf before = crlf a ++ lastLine before := by
    conv => lhs; rw [h1]
    rw [crlf_append, crlf_line hn]
  have h3 : lastLine (crlf before) = lastLine before := by
    rw [hc, lastLine_line (crlf_lines h2) hn]
  refine ⟨a, lastLine before, text, after, ⟨by rw [← h1]; exact h, h2, hn, ht, rfl, rfl, by rw [← h1]; rfl, rfl, rfl⟩, ?_⟩
  refine ⟨?_, crlf_lines h2, hn, ht, rfl, rfl, by rw [← hc]; rfl, ?_, rfl⟩
  · rw [← hc, h, crlf_append, crlf_append, crlf_line hl]
  · show blen (lastLine (crlf before)) = _
    rw [h3]

theorem tokens_crlf {b : Buf} {before : Str} {line : Nat} {rest : Str} {toks : List Token} {e : Ending} (h : Tokens b before line rest toks e) :
    b.code = before ++ rest → e ≠ .cut → (∀ t ∈ toks, '\n' ∉ t.value) →
    ∃ toks' e', Tokens { b with code := crlf b.code } (crlf before) line (crlf rest) toks' e' ∧
      Pairs (LaidToken (SameSpot b.path b.code) SameCr) toks toks' ∧ MovedEnd (SameSpot b.path b.code) e e' := by
  induction h with
  | eof before line rest h => exact fun _ _ _ => ⟨_, _, .eof _ _ _ (endTrivia_crlf h), .nil, .eof⟩
  | cut => exact fun _ h _ => absurd rfl h
  | unclosed before line triv lead q s h1 h2 h3 =>
    intro hc _ _
    obtain ⟨l, t1, _⟩ := trivia_crlf h1
    have hq : q = q1 ∨ q = q3 := by rcases h2 with ⟨rfl, _⟩ | ⟨rfl, _⟩ <;> simp
    have hn : '\n' ∉ q := by rcases hq with rfl | rfl <;> decide
    have t2 := Tokens.unclosed (b := { b with code := crlf b.code }) (crlf before) line (crlf triv) l q (crlf s) t1 (opens_crlf h2) (unclosed_crlf hq h3)
    rw [crlf_newlines, ← crlf_append] at t2
    refine ⟨[], _, ?_, .nil, .unclosed q _ _ (spot_of (after := s) (by rw [hc]; simp) ?_ hn)⟩
    · rw [crlf_append, crlf_append, crlf_line hn]
      exact t2
    · rcases hq with rfl | rfl <;> simp [q1, q3]
  | token before line triv lead kind text value rest toks e h1 h2 _ ih =>
    intro hc he hv
    have hv1 : '\n' ∉ value := hv _ (List.mem_cons_self ..)
    have hn := lexeme_line h2 hv1
    have h0 := lexeme_length h2
    obtain ⟨toks', e', i1, i2, i3⟩ := ih (by rw [hc]; simp) he fun t ht => hv t (List.mem_cons_of_mem _ ht)
    obtain ⟨l, t1, t2⟩ := trivia_crlf h1
    rw [crlf_append, crlf_append, crlf_line hn, ← crlf_newlines triv] at i1
    have t3 := Tokens.token (b := { b with code := crlf b.code }) (crlf before) line (crlf triv) l kind text value (crlf rest) toks' e' t1
      (lexeme_crlf h2 hv1) i1
    rw [← crlf_line hn, ← crlf_append, ← crlf_append, crlf_line hn] at t3
    refine ⟨_, e', t3, .cons ⟨rfl, rfl, t2, ?_⟩ i2, i3⟩
    · have hl : tokenLine kind line (crlf triv) text = tokenLine kind line triv text := by unfold tokenLine; rw [crlf_newlines]
      show SameSpot _ _ (siteOf _ _ _ _) (siteOf _ (tokenLine kind line (crlf triv) text) _ _)
      rw [hl, ← crlf_append]
      exact spot_of (after := rest) (by rw [hc]; simp) (by intro h; rw [h] at h0; simp at h0) hn

theorem linewise_token {b : Buf} {before : Str} {line : Nat} (triv lead : Str) (kind : Kind) (text value rest : Str) (h1 : Trivia triv lead)
    (h2 : Lexeme kind text value rest) (hv : value.all (· != '\n') = true)
    (h : ∃ toks e, Tokens b (before ++ triv ++ text) (line + newlines triv + 2 * newlines text) rest toks e ∧ e ≠ .cut ∧
      ∀ t ∈ toks, '\n' ∉ t.value) :
    ∃ toks e, Tokens b before line (triv ++ (text ++ rest)) toks e ∧ e ≠ .cut ∧ ∀ t ∈ toks, '\n' ∉ t.value := by
  obtain ⟨toks, e, ht, he, hs⟩ := h
  refine ⟨_, e, .token _ _ _ _ _ _ _ _ _ _ h1 h2 ht, he, fun t ht => ?_⟩
  rcases List.mem_cons.1 ht with rfl | ht
  · intro hn
    simpa using List.all_eq_true.1 hv _ hn
  · exact hs t ht

/-! ## Reports -/

theorem upToNewline_crlf (text : Str) : ∀ rest : Str, noCr (upToNewline (text ++ crlf rest)) = noCr (upToNewline (text ++ rest)) := by
  unfold upToNewline noCr
  induction text with
  | nil =>
    intro rest
    induction rest with
    | nil => rfl
    | cons c rest ih =>
      rw [crlf_cons]
      split
      · rename_i h; subst h; simp
      · rename_i h
        simp only [List.nil_append] at ih ⊢
        rw [List.takeWhile_cons, List.takeWhile_cons]
        split
        · rw [List.filter_cons, List.filter_cons, ih]
        · rfl
  | cons c text ih =>
    intro rest
    rw [List.cons_append, List.cons_append, List.takeWhile_cons, List.takeWhile_cons]
    split
    · rw [List.filter_cons, List.filter_cons, ih]
    · rfl

theorem sameLines_of {S : Site → Site → Prop} {x y : Res Str} (h : SameR S (SameBut (· != '\r')) x y)
    (h' : SameR anyS (SameBut (· != '\r')) y x) : SameLines S x y := by
  cases x <;> cases y <;> first
    | exact h.elim
    | exact h'.elim
    | exact .ok _ _ h
    | exact .err _ _ h
    | exact .panic
    | exact .diverge

end Seam
