import Verif.Lemmas.Lexer

/-! Helper lemmas: single tokens, and the whole token sequence. -/

namespace Seam
open Spec

/-! ### Characters -/

theorem isDigit_eq (c : Char) : isDigit c = c.isDigit := by
  unfold isDigit Char.isDigit
  rfl

theorem charKind_blank {c : Char} (h : blank c = true) : charKind c = none := by
  unfold charKind
  rw [if_pos]
  unfold blank at h
  revert h
  cases c == '\n' <;> cases c == '\r' <;> cases c == '\t' <;> cases c == ' ' <;> simp

/-- The kind of a character that is not blank. -/
theorem charKind_eq {c : Char} (h : blank c = false) : charKind c =
    if c == '(' then some .lparen
    else if c == ')' then some .rparen
    else if numberStart c then some .number
    else if c == ':' then some .keyword
    else if c == '"' then some .string
    else some .symbol := by
  have hb : (c == '\n' || c == '\r' || c == ' ' || c == '\t') = false := by
    unfold blank at h
    revert h
    cases c == '\n' <;> cases c == '\r' <;> cases c == '\t' <;> cases c == ' ' <;> simp
  unfold charKind
  rw [hb, isDigit_eq]
  unfold numberStart
  cases c.isDigit <;> cases (c == '+') <;> cases (c == '-') <;> simp

theorem charKind_identChar {c : Char} (h : identChar c = true) :
    ∃ k, charKind c = some k ∧ (k = .symbol ∨ k = .number ∨ k = .keyword) ∧ (c == '\\') = false ∧ c ≠ '\n' := by
  simp only [identChar, Bool.and_eq_true, Bool.not_eq_true', Bool.or_eq_false_iff] at h
  obtain ⟨hb, ⟨⟨h1, h2⟩, h3⟩, h4⟩ := h
  rw [charKind_eq hb, h1, h2, h3]
  have hn : c ≠ '\n' := by
    rintro rfl
    exact absurd hb (by decide)
  cases numberStart c <;> cases c == ':' <;> simp [h4, hn]

theorem charKind_stopChar {c : Char} (h : stopChar c = true) :
    (c == '\\') = false ∧ (charKind c = none ∨ charKind c = some .lparen ∨ charKind c = some .rparen ∨
      charKind c = some .string) := by
  simp only [stopChar, Bool.or_eq_true, beq_iff_eq] at h
  constructor
  · cases h' : c == '\\' with
    | false => rfl
    | true => rw [beq_iff_eq] at h'; subst h'; exact absurd h (by decide)
  · rcases h with ((h | rfl) | rfl) | rfl
    · left; exact charKind_blank h
    · decide
    · decide
    · decide

theorem char_cases (c : Char) : identChar c = true ∨ stopChar c = true ∨ c = '\\' := by
  unfold identChar stopChar
  by_cases h : c = '\\'
  · simp [h]
  · have : (c == '\\') = false := by simp [h]
    rw [this]
    cases blank c <;> cases c == '(' <;> cases c == ')' <;> cases c == '"' <;> simp

/-! ### Identifiers -/

theorem stateAt_escape (b : Buf) (before : Str) (line : Nat) (c : Char) (r r1 s : Str) :
    (if c == '\n' then
      (((stateAt b before line r).advance ('\\' : Char).utf8Size r1).advance c.utf8Size s).nextLine.nextLine
     else (((stateAt b before line r).advance ('\\' : Char).utf8Size r1).advance c.utf8Size s)) =
      stateAt b (before ++ ['\\', c]) (line + 2 * newlines ['\\', c]) s := by
  have hl : lastLine (before ++ ['\\', c]) = if c = '\n' then [] else lastLine before ++ ['\\', c] := by
    have e : before ++ ['\\', c] = before ++ ['\\'] ++ [c] := by simp
    rw [e, lastLine_snoc, lastLine_snoc]
    by_cases h : c = '\n' <;> simp [h]
  by_cases h : c = '\n'
  · subst h
    simp only [stateAt, Lex.advance, Lex.nextLine, hl]
    simp [newlines_cons]
    omega
  · have h' : (c == '\n') = false := by simp [h]
    simp only [h', stateAt, Lex.advance, hl]
    simp [newlines_cons, h]
    omega

theorem identLoop_stop (l : Lex) (acc rest : Str) (h : Stop rest) (hl : l.rest = rest) :
    identLoop l acc rest = .ok (acc, l) := by
  cases rest with
  | nil => simp [identLoop, ← hl]
  | cons c cs =>
    unfold identLoop
    obtain ⟨h1, h2⟩ := charKind_stopChar h
    rcases h2 with h2 | h2 | h2 | h2 <;> rw [h2] <;> simp [h1, ← hl]

theorem identLoop_plain (b : Buf) (before : Str) (line : Nat) (acc : Str) (c : Char) (s : Str)
    (h : identChar c = true) :
    identLoop (stateAt b before line (c :: s)) acc (c :: s) =
      identLoop (stateAt b (before ++ [c]) line s) (acc ++ [c]) s := by
  obtain ⟨k, h1, h2, h3, h4⟩ := charKind_identChar h
  rw [identLoop.eq_def]
  simp only [h1, h3, Bool.false_eq_true, if_false, h2, if_true]
  rw [stateAt_advance _ _ _ _ _ _ h4]

theorem identLoop_esc (b : Buf) (before : Str) (line : Nat) (acc : Str) (c : Char) (s : Str) :
    identLoop (stateAt b before line ('\\' :: c :: s)) acc ('\\' :: c :: s) =
      identLoop (stateAt b (before ++ ['\\', c]) (line + 2 * newlines ['\\', c]) s) (acc ++ ['\\', c]) s := by
  rw [identLoop.eq_def]
  have : charKind '\\' = some .symbol := by decide
  simp only [this, beq_self_eq_true, if_true]
  rw [stateAt_escape]

theorem identLoop_ident (b : Buf) {text : Str} (ht : Ident text) :
    ∀ (before : Str) (line : Nat) (acc rest : Str), Stop rest →
    identLoop (stateAt b before line (text ++ rest)) acc (text ++ rest) =
      .ok (acc ++ text, stateAt b (before ++ text) (line + 2 * newlines text) rest) := by
  induction ht with
  | nil => intro before line acc rest hr; simp [identLoop_stop (stateAt b before line rest) acc rest hr rfl]
  | plain c s hc _ ih =>
    intro before line acc rest hr
    obtain ⟨k, h1, h2, h3, h4⟩ := charKind_identChar hc
    simp only [List.cons_append]
    rw [identLoop_plain _ _ _ _ _ _ hc, ih _ _ _ _ hr]
    simp [newlines_cons, h4]
  | esc c s _ ih =>
    intro before line acc rest hr
    simp only [List.cons_append]
    rw [identLoop_esc, ih _ _ _ _ hr]
    have : newlines ('\\' :: c :: s) = newlines ['\\', c] + newlines s := by
      rw [← newlines_append]; rfl
    rw [this]
    simp [Nat.mul_add, Nat.add_assoc]

theorem identLoop_cut (b : Buf) {text : Str} (ht : Ident text) :
    ∀ (before : Str) (line : Nat) (acc : Str),
    identLoop (stateAt b before line (text ++ ['\\'])) acc (text ++ ['\\']) = .diverge := by
  induction ht with
  | nil =>
    intro before line acc
    rw [List.nil_append]
    unfold identLoop
    have : charKind '\\' = some .symbol := by decide
    rw [this]
    simp
  | plain c s hc _ ih =>
    intro before line acc
    simp only [List.cons_append]
    rw [identLoop_plain _ _ _ _ _ _ hc, ih]
  | esc c s _ ih =>
    intro before line acc
    simp only [List.cons_append]
    rw [identLoop_esc, ih]

/-- Every text is an identifier followed by an end, or is cut off. -/
theorem ident_split (s : Str) :
    (∃ text rest, Ident text ∧ Stop rest ∧ s = text ++ rest) ∨ ∃ text, Ident text ∧ s = text ++ ['\\'] := by
  generalize hn : s.length = n
  induction n using Nat.strongRecOn generalizing s with
  | ind n ih =>
    cases s with
    | nil => left; exact ⟨[], [], .nil, trivial, rfl⟩
    | cons c s =>
      rcases char_cases c with h | h | h
      · rcases ih s.length (by simp at hn; omega) s rfl with ⟨t, r, h1, h2, rfl⟩ | ⟨t, h1, rfl⟩
        · left; exact ⟨c :: t, r, .plain c t h h1, h2, rfl⟩
        · right; exact ⟨c :: t, .plain c t h h1, rfl⟩
      · left; exact ⟨[], c :: s, .nil, h, rfl⟩
      · subst h
        cases s with
        | nil => right; exact ⟨[], .nil, rfl⟩
        | cons d s =>
          rcases ih s.length (by simp at hn; omega) s rfl with ⟨t, r, h1, h2, rfl⟩ | ⟨t, h1, rfl⟩
          · left; exact ⟨'\\' :: d :: t, r, .esc d t h1, h2, rfl⟩
          · right; exact ⟨'\\' :: d :: t, .esc d t h1, rfl⟩

/-! ### Strings -/

/-- One or three quotes. -/
def IsQuotes (q : Str) : Prop := q = q1 ∨ q = q3

theorem quotes_head {q : Str} (hq : IsQuotes q) : ∃ r, q = '"' :: r := by
  rcases hq with rfl | rfl
  · exact ⟨[], rfl⟩
  · exact ⟨['"', '"'], rfl⟩

theorem quotes_blen {q : Str} (hq : IsQuotes q) : blen q = q.length := by
  rcases hq with rfl | rfl <;> decide

theorem quotes_newlines {q : Str} (hq : IsQuotes q) : '\n' ∉ q := by
  rcases hq with rfl | rfl <;> decide

theorem stringStep_eq (b : Buf) (before : Str) (line : Nat) (c : Char) (s : Str) :
    (stateAt b before line (c :: s)).stringStep c s =
      stateAt b (before ++ [c]) (line + 2 * newlines [c]) s := by
  by_cases h : c = '\n'
  · subst h
    simp [Lex.stringStep, stateAt, Lex.advance, Lex.nextLine, lastLine_snoc, newlines_cons]
  · have h' : (c == '\n') = false := by simp [h]
    simp [Lex.stringStep, h', stateAt, Lex.advance, lastLine_snoc, newlines_cons, h]

theorem stringLoop_go (b : Buf) (before : Str) (line : Nat) (acc : Str) (c : Char) (s q : Str) (esc : Bool)
    (h : esc = false → ¬ q <+: c :: s) :
    stringLoop q (stateAt b before line (c :: s)) esc acc (c :: s) =
      stringLoop q (stateAt b (before ++ [c]) (line + 2 * newlines [c]) s)
        (if !esc then c == '\\' else false) (acc ++ [c]) s := by
  rw [stringLoop, stringStep_eq, if_neg]
  rw [Bool.and_eq_true, List.isPrefixOf_iff_prefix]
  cases esc with
  | false => simp [h rfl]
  | true => simp

theorem not_quotes_prefix {q : Str} (hq : IsQuotes q) {c : Char} (hc : c ≠ '"') (s : Str) : ¬ q <+: c :: s := by
  obtain ⟨r, rfl⟩ := quotes_head hq
  intro h
  rw [List.cons_prefix_cons] at h
  exact hc h.1.symm

theorem not_prefix_longer {q a : Str} (ha : q.length ≤ a.length) (h : ¬ q <+: a) (r : Str) : ¬ q <+: a ++ r := by
  intro h'
  exact h (List.prefix_of_prefix_length_le h' (List.prefix_append a r) ha)

theorem stringLoop_body (b : Buf) {q body : Str} (hq : IsQuotes q) (hb : Body q body) :
    ∀ (before : Str) (line : Nat) (acc rest : Str),
    stringLoop q (stateAt b before line (body ++ (q ++ rest))) false acc (body ++ (q ++ rest)) =
      some (acc ++ body, stateAt b (before ++ body) (line + 2 * newlines body) (q ++ rest)) := by
  induction hb with
  | nil =>
    intro before line acc rest
    obtain ⟨r, rfl⟩ := quotes_head hq
    simp only [List.nil_append, List.cons_append]
    rw [stringLoop, if_pos]
    · simp [stateAt]
    · rw [Bool.and_eq_true, List.isPrefixOf_iff_prefix]
      exact ⟨⟨rest, by simp⟩, rfl⟩
  | plain c s hc hp _ ih =>
    intro before line acc rest
    simp only [List.cons_append]
    rw [stringLoop_go]
    · have h' : (c == '\\') = false := by simp [hc]
      simp only [Bool.not_false, if_true, h']
      rw [ih]
      simp [newlines_cons c s, newlines_cons c [], Nat.mul_add, Nat.add_assoc]
    · intro _
      have := not_prefix_longer (by simp; omega) hp rest
      simpa using this
  | esc c s _ ih =>
    intro before line acc rest
    simp only [List.cons_append]
    rw [stringLoop_go _ _ _ _ _ _ _ _ (fun _ => not_quotes_prefix hq (by decide) _)]
    simp only [Bool.not_false, if_true, beq_self_eq_true]
    rw [stringLoop_go _ _ _ _ _ _ _ _ (by simp)]
    simp only [Bool.not_true, Bool.false_eq_true, if_false]
    rw [ih]
    simp [newlines_cons _ s, newlines_cons '\\' _, newlines_cons c [], Nat.mul_add, Nat.add_assoc]

theorem stringLoop_unclosed (b : Buf) {q s : Str} (hq : IsQuotes q) (hs : Unclosed q s) :
    ∀ (before : Str) (line : Nat) (acc : Str),
    stringLoop q (stateAt b before line s) false acc s = none := by
  induction hs with
  | nil => intros; rfl
  | plain c s hc hp _ ih =>
    intro before line acc
    rw [stringLoop_go _ _ _ _ _ _ _ _ (fun _ => hp)]
    have h' : (c == '\\') = false := by simp [hc]
    simp only [Bool.not_false, if_true, h']
    rw [ih]
  | esc c s _ ih =>
    intro before line acc
    rw [stringLoop_go _ _ _ _ _ _ _ _ (fun _ => not_quotes_prefix hq (by decide) _)]
    simp only [Bool.not_false, if_true, beq_self_eq_true]
    rw [stringLoop_go _ _ _ _ _ _ _ _ (by simp)]
    simp only [Bool.not_true, Bool.false_eq_true, if_false]
    rw [ih]
  | escEnd =>
    intro before line acc
    rw [stringLoop_go _ _ _ _ _ _ _ _ (fun _ => not_quotes_prefix hq (by decide) _)]
    rfl

theorem string_split {q : Str} (_hq : IsQuotes q) (s : Str) :
    (∃ body rest, Body q body ∧ s = body ++ (q ++ rest)) ∨ Unclosed q s := by
  generalize hn : s.length = n
  induction n using Nat.strongRecOn generalizing s with
  | ind n ih =>
    cases s with
    | nil => right; exact .nil
    | cons c s =>
      by_cases hp : q <+: c :: s
      · obtain ⟨r, hr⟩ := hp
        left; exact ⟨[], r, .nil, by simp [hr]⟩
      · by_cases hc : c = '\\'
        · subst hc
          cases s with
          | nil => right; exact .escEnd
          | cons d s =>
            rcases ih s.length (by simp at hn; omega) s rfl with ⟨body, r, h1, rfl⟩ | h
            · left; exact ⟨'\\' :: d :: body, r, .esc d body h1, by simp⟩
            · right; exact .esc d s h
        · rcases ih s.length (by simp at hn; omega) s rfl with ⟨body, r, h1, rfl⟩ | h
          · left
            refine ⟨c :: body, r, .plain c body hc ?_ h1, by simp⟩
            intro h
            apply hp
            have := List.IsPrefix.trans h (List.prefix_append _ r)
            simpa using this
          · right; exact .plain c s hc hp h

theorem opens_isQuotes {q s : Str} (h : Opens q s) : IsQuotes q := by
  rcases h with h | h
  · exact Or.inr h.1
  · exact Or.inl h.1

theorem opens_prefix {q s : Str} (h : Opens q s) : q <+: s := by
  rcases h with h | h
  · rw [h.1]; exact h.2
  · rw [h.1]; exact h.2.1

theorem opens_startsWith {q s : Str} (h : Opens q s) :
    (if q3.isPrefixOf s then q3 else q1) = q ∧
    (if q3.isPrefixOf s then "Unclosed triple-quoted string." else "Unclosed string quote.") =
      (if q = q3 then "Unclosed triple-quoted string." else "Unclosed string quote.") := by
  rcases h with ⟨rfl, h⟩ | ⟨rfl, _, h⟩
  · rw [← List.isPrefixOf_iff_prefix] at h
    simp [h]
  · rw [← List.isPrefixOf_iff_prefix] at h
    rw [if_neg h, if_neg h]
    simp [q1, q3]

theorem exists_opens (s : Str) : ∃ q s', '"' :: s = q ++ s' ∧ Opens q (q ++ s') := by
  by_cases h : q3 <+: '"' :: s
  · obtain ⟨r, hr⟩ := h
    exact ⟨q3, r, hr.symm, Or.inl ⟨rfl, ⟨r, rfl⟩⟩⟩
  · refine ⟨q1, s, rfl, Or.inr ⟨rfl, ⟨s, rfl⟩, h⟩⟩

theorem opens_extend {q s r : Str} (h : Opens q (q ++ s)) (hs : q3.length ≤ (q ++ s).length ∨ r = []) :
    Opens q (q ++ s ++ r) := by
  rcases h with ⟨rfl, h⟩ | ⟨rfl, h1, h2⟩
  · exact Or.inl ⟨rfl, h.trans (List.prefix_append _ _)⟩
  · refine Or.inr ⟨rfl, h1.trans (List.prefix_append _ _), ?_⟩
    rcases hs with hs | rfl
    · exact not_prefix_longer hs h2 r
    · simpa using h2

theorem stateAt_advance_quotes (b : Buf) (before : Str) (line : Nat) {q : Str} (hq : IsQuotes q) (s r : Str) :
    (stateAt b before line s).advance q.length r = stateAt b (before ++ q) line r := by
  simp [stateAt, Lex.advance, lastLine_append_of_notin _ _ (quotes_newlines hq), quotes_blen hq]

theorem consumeString_open (b : Buf) (before : Str) (line : Nat) (lw q s : Str) (ho : Opens q (q ++ s)) :
    (stateAt b before line (q ++ s)).consumeString lw =
      match stringLoop q (stateAt b (before ++ q) line s) false [] s with
      | none => .err (unclosedStringErr q (siteOf b line before q))
      | some (v, l2) =>
        .ok ({ kind := .string, value := v, lw := lw,
               site := { (l2.advance q.length (l2.rest.drop q.length)).site (blen before) (blen (lastLine before)) with line := line } },
             l2.advance q.length (l2.rest.drop q.length)) := by
  have hq := opens_isQuotes ho
  obtain ⟨e1, e2⟩ := opens_startsWith ho
  unfold q3 q1 at e1
  have hq3 : (['"', '"', '"'] : Str) = q3 := rfl
  obtain ⟨r, hr⟩ := quotes_head hq
  have hp : (stateAt b before line (q ++ s)).peekChar = some '"' := by
    simp [stateAt, Lex.peekChar, hr]
  rw [Lex.consumeString, hp]
  simp only [Lex.startsWith]
  have hrest : (stateAt b before line (q ++ s)).rest = q ++ s := rfl
  simp only [hrest, e1]
  simp only [hq3, e2, stateAt_advance_quotes _ _ _ hq, List.drop_left]
  have hrest' : ∀ x, (stateAt b (before ++ q) line x).rest = x := fun _ => rfl
  rw [hrest']
  simp only [unclosedStringErr, siteOf, quotes_blen hq, stateAt]
  rfl

/-! ### One token -/

theorem charKind_symbolStart {c : Char} (h : symbolStart c = true) :
    charKind c = some .symbol ∧ tokenChar c = true := by
  simp only [symbolStart, Bool.and_eq_true, Bool.not_eq_true', Bool.or_eq_false_iff] at h
  obtain ⟨⟨hb, hn⟩, ⟨⟨⟨h1, h2⟩, h3⟩, h4⟩, h5⟩ := h
  rw [charKind_eq hb, h1, h2, h3, h4, hn]
  simp only [beq_eq_false_iff_ne] at h5
  simp [tokenChar, hb, h5]

theorem numberStart_not {c d : Char} (h : numberStart c = true) (hd : numberStart d = false) : c ≠ d := by
  rintro rfl
  rw [h] at hd
  exact absurd hd (by decide)

theorem charKind_numberStart {c : Char} (h : numberStart c = true) :
    charKind c = some .number ∧ tokenChar c = true := by
  have hb : blank c = false := by
    have h1 := numberStart_not (d := ' ') h (by decide)
    have h2 := numberStart_not (d := '\t') h (by decide)
    have h3 := numberStart_not (d := '\r') h (by decide)
    have h4 := numberStart_not (d := '\n') h (by decide)
    simp [blank, h1, h2, h3, h4]
  have h1 := numberStart_not (d := '(') h (by decide)
  have h2 := numberStart_not (d := ')') h (by decide)
  have h3 := numberStart_not (d := ';') h (by decide)
  rw [charKind_eq hb]
  simp [h, h1, h2, h3, tokenChar, hb]

theorem consume_trivia (b : Buf) {triv lead : Str} (ht : Trivia triv lead)
    (before : Str) (line : Nat) (c : Char) (cs : Str) (hc : tokenChar c = true) :
    (stateAt b before line (triv ++ c :: cs)).consume =
      let l := stateAt b (before ++ triv) (line + newlines triv) (c :: cs)
      match charKind c with
      | some .lparen => l.consumeParen .lparen '(' lead
      | some .rparen => l.consumeParen .rparen ')' lead
      | some .number => l.consumeAtom .number lead
      | some .string => l.consumeString lead
      | some .symbol => l.consumeAtom .symbol lead
      | some .keyword => l.consumeKeyword lead
      | none => .panic := by
  unfold Lex.consume
  rw [consumeWs_trivia b ht before line c cs hc]
  rfl

theorem consumeAtom_ident (b : Buf) (before : Str) (line : Nat) (k : Kind) (lw : Str) {text rest : Str}
    (ht : Ident text) (hr : Stop rest) :
    (stateAt b before line (text ++ rest)).consumeAtom k lw =
      .ok ({ kind := k, value := text, lw := lw, site := siteOf b (line + 2 * newlines text) before text },
           stateAt b (before ++ text) (line + 2 * newlines text) rest) := by
  unfold Lex.consumeAtom Lex.consumeIdent
  have := identLoop_ident b ht before line [] rest hr
  have e : (stateAt b before line (text ++ rest)).rest = text ++ rest := rfl
  rw [e, this]
  simp [stateAt, Lex.site, siteOf]

theorem consumeAtom_cut (b : Buf) (before : Str) (line : Nat) (k : Kind) (lw : Str) {text : Str}
    (ht : Ident text) :
    (stateAt b before line (text ++ ['\\'])).consumeAtom k lw = .diverge := by
  unfold Lex.consumeAtom Lex.consumeIdent
  have := identLoop_cut b ht before line []
  have e : (stateAt b before line (text ++ ['\\'])).rest = text ++ ['\\'] := rfl
  rw [e, this]
  rfl

theorem consumeChar_colon (b : Buf) (before : Str) (line : Nat) (s : Str) :
    (stateAt b before line (':' :: s)).consumeChar = .ok (':', stateAt b (before ++ [':']) line s) := by
  have := stateAt_advance b before line ':' s s (by decide)
  unfold Lex.consumeChar
  have e : (stateAt b before line (':' :: s)).rest = ':' :: s := rfl
  rw [e]
  simp only [this]
  rfl

theorem consumeKeyword_ident (b : Buf) (before : Str) (line : Nat) (lw : Str) {name rest : Str}
    (ht : Ident name) (hr : Stop rest) :
    (stateAt b before line (':' :: (name ++ rest))).consumeKeyword lw =
      .ok ({ kind := .keyword, value := name, lw := lw,
             site := siteOf b (line + 2 * newlines name) before (':' :: name) },
           stateAt b (before ++ ':' :: name) (line + 2 * newlines name) rest) := by
  unfold Lex.consumeKeyword
  rw [consumeChar_colon]
  simp only [Res.ok_bind, if_true, Lex.consumeIdent]
  have := identLoop_ident b ht (before ++ [':']) line [] rest hr
  have e : (stateAt b (before ++ [':']) line (name ++ rest)).rest = name ++ rest := rfl
  rw [e, this]
  have hw : (':' : Char).utf8Size = 1 := by decide
  have hl : lastLine (before ++ [':']) = lastLine before ++ [':'] := by simp [lastLine_snoc]
  simp [stateAt, Lex.site, siteOf, hw, hl]

theorem consumeKeyword_cut (b : Buf) (before : Str) (line : Nat) (lw : Str) {name : Str} (ht : Ident name) :
    (stateAt b before line (':' :: (name ++ ['\\']))).consumeKeyword lw = .diverge := by
  unfold Lex.consumeKeyword
  rw [consumeChar_colon]
  simp only [Res.ok_bind, if_true, Lex.consumeIdent]
  have := identLoop_cut b ht (before ++ [':']) line []
  have e : (stateAt b (before ++ [':']) line (name ++ ['\\'])).rest = name ++ ['\\'] := rfl
  rw [e, this]
  rfl

theorem consumeParen_eq (b : Buf) (before : Str) (line : Nat) (k : Kind) (p : Char) (lw rest : Str)
    (hp : p ≠ '\n') :
    (stateAt b before line (p :: rest)).consumeParen k p lw =
      .ok ({ kind := k, value := [p], lw := lw, site := siteOf b line before [p] },
           stateAt b (before ++ [p]) line rest) := by
  have h1 := stateAt_advance b before line p rest rest hp
  have h2 : (p == '\n') = false := by simp [hp]
  unfold Lex.consumeParen Lex.consumeChar
  have e : (stateAt b before line (p :: rest)).rest = p :: rest := rfl
  rw [e]
  simp only [h1, h2, Bool.false_eq_true, if_false, Res.ok_bind, if_true]
  simp [stateAt, Lex.site, siteOf]

/-- The first character of a token. -/
theorem lexeme_head {kind : Kind} {text value rest : Str} (h : Lexeme kind text value rest) :
    ∃ c cs, text = c :: cs ∧ charKind c = some kind ∧ tokenChar c = true := by
  cases h with
  | lparen => exact ⟨'(', [], rfl, by decide, by decide⟩
  | rparen => exact ⟨')', [], rfl, by decide, by decide⟩
  | symbol _ _ _ hs _ =>
    cases text with
    | nil => exact hs.elim
    | cons c cs => exact ⟨c, cs, rfl, (charKind_symbolStart hs).1, (charKind_symbolStart hs).2⟩
  | number _ _ _ hs _ =>
    cases text with
    | nil => exact hs.elim
    | cons c cs => exact ⟨c, cs, rfl, (charKind_numberStart hs).1, (charKind_numberStart hs).2⟩
  | keyword name _ _ _ => exact ⟨':', value, rfl, by decide, by decide⟩
  | string q body _ hb ho =>
    obtain ⟨r, hr⟩ := quotes_head (opens_isQuotes ho)
    exact ⟨'"', r ++ value ++ q, by simp [hr], by decide, by decide⟩

theorem consume_lexeme (b : Buf) {triv lead : Str} (ht : Trivia triv lead) (before : Str) (line : Nat)
    {kind : Kind} {text value rest : Str} (h : Lexeme kind text value rest) :
    (stateAt b before line (triv ++ (text ++ rest))).consume =
      .ok ({ kind := kind, value := value, lw := lead,
             site := siteOf b (tokenLine kind line triv text) (before ++ triv) text },
           stateAt b (before ++ triv ++ text) (line + newlines triv + 2 * newlines text) rest) := by
  obtain ⟨c, cs, htext, hk, hc⟩ := lexeme_head h
  have e : triv ++ (text ++ rest) = triv ++ c :: (cs ++ rest) := by simp [htext]
  rw [e, consume_trivia b ht before line c _ hc, hk]
  have e2 : c :: (cs ++ rest) = text ++ rest := by simp [htext]
  simp only [e2]
  clear hk hc e e2 htext
  unfold tokenLine
  cases h with
  | lparen =>
    have := consumeParen_eq b (before ++ triv) (line + newlines triv) .lparen '(' lead rest (by decide)
    simp only [List.cons_append, List.nil_append]
    rw [this]
    simp [newlines_cons]
  | rparen =>
    have := consumeParen_eq b (before ++ triv) (line + newlines triv) .rparen ')' lead rest (by decide)
    simp only [List.cons_append, List.nil_append]
    rw [this]
    simp [newlines_cons]
  | symbol _ _ hi _ hr =>
    simp only []
    rw [consumeAtom_ident b _ _ _ _ hi hr]
    simp
  | number _ _ hi _ hr =>
    simp only []
    rw [consumeAtom_ident b _ _ _ _ hi hr]
    simp
  | keyword name _ hi hr =>
    have := consumeKeyword_ident b (before ++ triv) (line + newlines triv) lead hi hr
    simp only [List.cons_append]
    rw [this]
    simp [newlines_cons]
  | string q body _ hb ho =>
    have hq := opens_isQuotes ho
    have e : q ++ value ++ q ++ rest = q ++ (value ++ (q ++ rest)) := by simp
    rw [e] at ho
    simp only []
    rw [e, consumeString_open b _ _ _ _ _ ho, stringLoop_body b hq hb]
    have hrest : ∀ p l x, (stateAt b p l x).rest = x := fun _ _ _ => rfl
    simp only [List.nil_append, hrest, List.drop_left, stateAt_advance_quotes _ _ _ hq]
    have hn := newlines_eq_zero.2 (quotes_newlines hq)
    simp [hn, stateAt, Lex.site, siteOf]
    omega

theorem not_eof_lexeme {triv lead : Str} (ht : Trivia triv lead)
    {kind : Kind} {text value rest : Str} (h : Lexeme kind text value rest) (b : Buf) (before : Str) (line : Nat) :
    (stateAt b before line (triv ++ (text ++ rest))).eof = false := by
  obtain ⟨c, cs, htext, hk, hc⟩ := lexeme_head h
  rw [eof_eq]
  have e : (stateAt b before line (triv ++ (text ++ rest))).rest = triv ++ c :: (cs ++ rest) := by
    simp [htext, stateAt]
  rw [e, not_eof_of_trivia ht _ _ hc]
  rfl

/-! ### The whole sequence -/

/-- The lexer state `l` is in front of the tokens `toks` with ending `e`. -/
def At (b : Buf) (l : Lex) (toks : List Token) (e : Ending) : Prop :=
  ∃ before line rest, l = stateAt b before line rest ∧ Tokens b before line rest toks e

theorem At.eof {b : Buf} {l : Lex} (h : At b l [] .eof) : l.eof = true := by
  obtain ⟨before, line, rest, rfl, h⟩ := h
  cases h with
  | eof _ _ _ h =>
    rw [eof_eq]
    show (wsRest false rest).isEmpty = true
    rw [eof_of_endTrivia h]
    rfl

theorem At.unclosed {b : Buf} {l : Lex} {q : Str} {s : Site} (h : At b l [] (.unclosed q s)) :
    l.eof = false ∧ l.consume = .err (unclosedStringErr q s) := by
  obtain ⟨before, line, rest, rfl, h⟩ := h
  cases h with
  | unclosed _ _ triv lead _ s ht ho hs =>
    have hq := opens_isQuotes ho
    obtain ⟨r, hr⟩ := quotes_head hq
    have hc : tokenChar '"' = true := by decide
    have e : triv ++ (q ++ s) = triv ++ '"' :: (r ++ s) := by simp [hr]
    have e2 : '"' :: (r ++ s) = q ++ s := by simp [hr]
    constructor
    · rw [eof_eq]
      show (wsRest false (triv ++ (q ++ s))).isEmpty = false
      rw [e, not_eof_of_trivia ht _ _ hc]
      rfl
    · rw [e, consume_trivia b ht _ _ _ _ hc]
      have hk : charKind '"' = some .string := by decide
      simp only [hk, e2]
      rw [consumeString_open b _ _ _ _ _ ho, stringLoop_unclosed b hq hs]

theorem At.cut {b : Buf} {l : Lex} (h : At b l [] .cut) : l.eof = false ∧ l.consume = .diverge := by
  obtain ⟨before, line, rest, rfl, h⟩ := h
  cases h with
  | cut _ _ triv lead text ht hi hs =>
    obtain ⟨c, cs, hcs⟩ : ∃ c cs, text ++ ['\\'] = c :: cs := by cases text <;> simp
    rw [hcs] at hs
    have hs : (symbolStart c || numberStart c || c == ':') = true := hs
    simp only [Bool.or_eq_true, beq_iff_eq] at hs
    have hc : tokenChar c = true := by
      rcases hs with (h | h) | rfl
      · exact (charKind_symbolStart h).2
      · exact (charKind_numberStart h).2
      · decide
    rw [hcs]
    constructor
    · rw [eof_eq]
      show (wsRest false (triv ++ c :: cs)).isEmpty = false
      rw [not_eof_of_trivia ht _ _ hc]
      rfl
    · rw [consume_trivia b ht _ _ _ _ hc]
      rcases hs with (h | h) | rfl
      · simp only [(charKind_symbolStart h).1, ← hcs]
        exact consumeAtom_cut _ _ _ _ _ hi
      · simp only [(charKind_numberStart h).1, ← hcs]
        exact consumeAtom_cut _ _ _ _ _ hi
      · have hk : charKind ':' = some .keyword := by decide
        simp only [hk]
        cases hi with
        | nil => simp at hcs
        | plain d s hd hi =>
          simp only [List.cons_append, List.cons.injEq] at hcs
          rw [← hcs.2]
          exact consumeKeyword_cut _ _ _ _ hi
        | esc d s hi => simp at hcs

theorem At.token {b : Buf} {l : Lex} {t : Token} {ts : List Token} {e : Ending} (h : At b l (t :: ts) e) :
    l.eof = false ∧ ∃ l', l.consume = .ok (t, l') ∧ At b l' ts e := by
  obtain ⟨before, line, rest, rfl, h⟩ := h
  cases h with
  | token _ _ triv lead kind text value rest _ _ ht hl h =>
    exact ⟨not_eof_lexeme ht hl b before line, _, consume_lexeme b ht before line hl, _, _, _, rfl, h⟩

theorem lexeme_length {kind : Kind} {text value rest : Str} (h : Lexeme kind text value rest) : 0 < text.length := by
  obtain ⟨c, cs, rfl, _⟩ := lexeme_head h
  simp

theorem tokens_length {b : Buf} {before : Str} {line : Nat} {rest : Str} {toks : List Token} {e : Ending}
    (h : Tokens b before line rest toks e) : toks.length ≤ rest.length := by
  induction h with
  | eof => simp
  | unclosed => simp
  | cut => simp
  | token _ _ _ _ _ _ _ _ _ _ _ hl _ ih =>
    have := lexeme_length hl
    simp only [List.length_append, List.length_cons]
    omega

/-- Every text is a token sequence with an ending. -/
theorem tokens_total (b : Buf) (before : Str) (line : Nat) (rest : Str) :
    ∃ toks e, Tokens b before line rest toks e := by
  generalize hn : rest.length = n
  induction n using Nat.strongRecOn generalizing rest before line with
  | ind n ih =>
    rcases trivia_split rest with h | ⟨triv, lead, c, cs, ht, hc, rfl⟩
    · exact ⟨_, _, .eof _ _ _ h⟩
    · have go : ∀ kind text value r, c :: cs = text ++ r → Lexeme kind text value r →
          ∃ toks e, Tokens b before line (triv ++ c :: cs) toks e := by
        intro kind text value r e hl
        have hpos := lexeme_length hl
        have hlen : (triv ++ (text ++ r)).length = n := by rw [← e]; exact hn
        obtain ⟨toks, e', h⟩ := ih r.length (by simp at hlen; omega) (before ++ triv ++ text)
          (line + newlines triv + 2 * newlines text) r rfl
        rw [e]
        exact ⟨_, _, .token before line triv lead kind text value r toks e' ht hl h⟩
      simp only [tokenChar, Bool.and_eq_true, Bool.not_eq_true', bne_iff_ne, ne_eq] at hc
      by_cases h1 : c = '('
      · subst h1; exact go .lparen ['('] ['('] cs rfl (.lparen cs)
      · by_cases h2 : c = ')'
        · subst h2; exact go .rparen [')'] [')'] cs rfl (.rparen cs)
        · by_cases h3 : c = '"'
          · subst h3
            obtain ⟨q, s', e, ho⟩ := exists_opens cs
            have hq := opens_isQuotes ho
            rcases string_split hq s' with ⟨body, r, hb, rfl⟩ | hu
            · exact go .string (q ++ body ++ q) body r (by rw [e]; simp) (.string q body r hb (by simpa using ho))
            · rw [e]; exact ⟨_, _, .unclosed before line triv lead q s' ht ho hu⟩
          · by_cases h4 : c = ':'
            · subst h4
              rcases ident_split cs with ⟨text, r, hi, hr, rfl⟩ | ⟨text, hi, rfl⟩
              · exact go .keyword (':' :: text) text r (by simp) (.keyword text r hi hr)
              · refine ⟨_, _, .cut before line triv lead (':' :: text) ht (.plain _ _ (by decide) hi) ?_⟩
                simp [Starts]
            · have hstart : symbolStart c = true ∨ numberStart c = true := by
                by_cases hnum : numberStart c = true
                · exact Or.inr hnum
                · left; simp [symbolStart, hc, h1, h2, h3, h4, hnum]
              rcases ident_split (c :: cs) with ⟨text, r, hi, hr, e⟩ | ⟨text, hi, e⟩
              · cases text with
                | nil =>
                  simp only [List.nil_append] at e
                  rw [← e] at hr
                  have hr : stopChar c = true := hr
                  simp [stopChar, hc, h1, h2, h3] at hr
                | cons d text =>
                  have hd : c = d := by simp at e; exact e.1
                  subst hd
                  rcases hstart with hs | hs
                  · exact go .symbol (c :: text) (c :: text) r e (.symbol _ _ hi hs hr)
                  · exact go .number (c :: text) (c :: text) r e (.number _ _ hi hs hr)
              · rw [e]
                refine ⟨_, _, .cut before line triv lead text ht hi ?_⟩
                rw [← e]
                rcases hstart with hs | hs <;> simp [Starts, hs]

theorem at_new {b : Buf} {toks : List Token} {e : Ending} (h : TokensOf b toks e) : At b (Lex.new b) toks e :=
  ⟨[], 1, b.code, new_eq b, h⟩

theorem at_unique {b : Buf} {l : Lex} {toks : List Token} {e : Ending} (h : At b l toks e) :
    ∀ {toks' e'}, At b l toks' e' → toks' = toks ∧ e' = e := by
  induction toks generalizing l with
  | nil =>
    intro toks' e' h'
    cases toks' with
    | cons t' ts' =>
      obtain ⟨h1, l', h2, _⟩ := h'.token
      cases e with
      | eof => rw [h.eof] at h1; cases h1
      | unclosed q s => rw [h.unclosed.2] at h2; cases h2
      | cut => rw [h.cut.2] at h2; cases h2
    | nil =>
      refine ⟨rfl, ?_⟩
      cases e with
      | eof =>
        cases e' with
        | eof => rfl
        | unclosed q s => have := h.eof; rw [h'.unclosed.1] at this; cases this
        | cut => have := h.eof; rw [h'.cut.1] at this; cases this
      | unclosed q s =>
        cases e' with
        | eof => have := h'.eof; rw [h.unclosed.1] at this; cases this
        | unclosed q' s' =>
          -- both describe the same text: the quotes and the site are read off the state
          obtain ⟨before, line, rest, rfl, hT⟩ := h
          obtain ⟨before', line', rest', he, hT'⟩ := h'
          have hc := At.unclosed ⟨_, _, _, rfl, hT⟩
          have hc' := At.unclosed ⟨_, _, _, he, hT'⟩
          have := hc'.2
          rw [hc.2] at this
          simp only [Res.err.injEq, unclosedStringErr, Err.mk.injEq] at this
          cases hT with
          | unclosed _ _ _ _ _ _ _ ho _ =>
            cases hT' with
            | unclosed _ _ _ _ _ _ _ ho' _ =>
              have hq : q' = q := by
                rcases opens_isQuotes ho with rfl | rfl <;> rcases opens_isQuotes ho' with rfl | rfl
                · rfl
                · have := this.2.1; simp [q1, q3] at this
                · have := this.2.1; simp [q1, q3] at this
                · rfl
              rw [this.2.2, hq]
        | cut => have := h.unclosed.2; rw [h'.cut.2] at this; cases this
      | cut =>
        cases e' with
        | eof => have := h'.eof; rw [h.cut.1] at this; cases this
        | unclosed q s => have := h.cut.2; rw [h'.unclosed.2] at this; cases this
        | cut => rfl
  | cons t ts ih =>
    intro toks' e' h'
    obtain ⟨h1, l', h2, h3⟩ := h.token
    cases toks' with
    | nil =>
      cases e' with
      | eof => rw [h'.eof] at h1; cases h1
      | unclosed q s => rw [h'.unclosed.2] at h2; cases h2
      | cut => rw [h'.cut.2] at h2; cases h2
    | cons t' ts' =>
      obtain ⟨_, l'', h2', h3'⟩ := h'.token
      rw [h2] at h2'
      simp only [Res.ok.injEq, Prod.mk.injEq] at h2'
      obtain ⟨rfl, rfl⟩ := h2'
      obtain ⟨rfl, rfl⟩ := ih h3 h3'
      exact ⟨rfl, rfl⟩

end Seam
