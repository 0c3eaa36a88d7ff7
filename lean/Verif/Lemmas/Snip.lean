import Verif.Lemmas.Cutoff
import Verif.Lemmas.Parser

/-!
# Programs cut off inside a string or after a keyword
-/

namespace Seam
open Spec

/-- A token in a text, and what comes before it: the text can be cut off anywhere from there on. -/
theorem tokens_to {b : Buf} {t : Token} {t2 : List Token} {e : Ending} : ∀ {t1 : List Token} {before : Str} {line : Nat} {rest : Str},
    Tokens b before line rest (t1 ++ t :: t2) e → ∃ skip triv lead text value rest' line', rest = skip ++ (triv ++ (text ++ rest')) ∧
      Trivia triv lead ∧ Lexeme t.kind text value rest' ∧ t.site.off = blen (before ++ skip ++ triv) ∧ t.site.span = blen text ∧
      Tokens b (before ++ skip ++ triv ++ text) line' rest' t2 e ∧
      ∀ z w, triv ++ (text ++ rest') = z ++ w → ∀ b' before' line', ∃ s1 before'' line'', ∀ toks' e',
        Tokens b' before'' line'' z toks' e' → Tokens b' before' line' (skip ++ z) (s1 ++ toks') e'
  | [], before, line, rest, h => by
    cases h with
    | token _ _ triv lead kind text value rest' _ _ ht hl hr =>
      exact ⟨[], triv, lead, text, value, rest', _, rfl, ht, hl, by simp [siteOf], rfl, by simpa using hr,
        fun z w _ b' before' line' => ⟨[], before', line', fun toks' e' h => h⟩⟩
  | t0 :: t1, before, line, rest, h => by
    cases h with
    | token _ _ triv0 lead0 kind0 text0 value0 rest0 _ _ ht hl hr =>
      obtain ⟨skip, triv, lead, text, value, rest', line', rfl, h1, h2, h3, h4, h5, h6⟩ := tokens_to (t1 := t1) hr
      refine ⟨triv0 ++ (text0 ++ skip), triv, lead, text, value, rest', line', by simp, h1, h2, by rw [h3]; simp, h4, by simpa using h5,
        fun z w hz b' before' line' => ?_⟩
      obtain ⟨s1, before'', line'', h7⟩ := h6 z w hz b' (before' ++ triv0 ++ text0) (line' + newlines triv0 + 2 * newlines text0)
      refine ⟨{ kind := kind0, value := value0, lw := lead0, site := siteOf b' (tokenLine kind0 line' triv0 text0) (before' ++ triv0) text0 } :: s1,
        before'', line'', fun toks' e' h => ?_⟩
      have hl' : Lexeme kind0 text0 value0 (skip ++ z) := by
        rw [hz] at hl
        exact lexeme_cut (y := w) (by simpa using hl)
      have := Tokens.token (b := b') before' line' triv0 lead0 kind0 text0 value0 (skip ++ z) (s1 ++ toks') e' ht hl' (h7 _ _ h)
      simpa using this

/-- A beginning of a text behind a given place of it. -/
theorem cut_behind {x y p r : Str} (h : p ++ r = x ++ y) (hl : blen p ≤ blen x) : ∃ z, x = p ++ z ∧ r = z ++ y := by
  rcases List.append_eq_append_iff.1 h with ⟨d, rfl, hd⟩ | ⟨d, rfl, hd⟩
  · exact ⟨d, rfl, hd⟩
  · have : d = [] := by
      cases d with
      | nil => rfl
      | cons c d => have := Char.utf8Size_pos c; simp at hl; omega
    subst this
    exact ⟨[], by simp, by simpa using hd.symm⟩

/-- The beginning of a string is a string that is not closed, but for the first two of three quotes. -/
theorem string_part {b : Buf} {before : Str} {line : Nat} {triv lead text value rest x y : Str} (ht : Trivia triv lead)
    (h : Lexeme .string text value rest) (hx : x ≠ []) (hx2 : x ≠ ['"', '"']) (hy : y ≠ []) (he : text = x ++ y) :
    ∃ e, Tokens b before line (triv ++ x) [] e ∧ e ≠ .eof := by
  cases h with
  | string q _ _ h1 h2 =>
    have hq := opens_quotes h2
    rw [List.append_assoc] at he
    rcases List.append_eq_append_iff.1 he with ⟨d, rfl, hd⟩ | ⟨d, hq', hd⟩
    · refine ⟨_, .unclosed _ _ _ lead q d ht ?_ (body_cut (by rcases hq with rfl | rfl <;> simp [q1, q3]) h1 _ _ hd hy), by simp⟩
      rcases h2 with ⟨rfl, _⟩ | ⟨rfl, _, hn⟩
      · exact .inl ⟨rfl, ⟨d, rfl⟩⟩
      · exact .inr ⟨rfl, ⟨d, rfl⟩, fun hp => hn (hp.trans ⟨y ++ rest, by simpa using congrArg (· ++ rest) hd.symm⟩)⟩
    · have one : x = q1 ∨ x = q3 := by
        rcases hq with rfl | rfl
        · match x, hx, hq' with
          | c :: x, _, hq' =>
            simp only [q1, List.cons_append, List.cons.injEq] at hq'
            obtain ⟨rfl, hq'⟩ := hq'
            exact .inl (by rw [(List.append_eq_nil_iff.1 hq'.symm).1]; rfl)
        · match x, hx, hx2, hq' with
          | [c], _, _, hq' =>
            simp only [q3, List.cons_append, List.cons.injEq] at hq'
            exact .inl (by rw [← hq'.1]; rfl)
          | [c, c'], _, hx2, hq' =>
            simp only [q3, List.cons_append, List.cons.injEq] at hq'
            exact absurd (by rw [← hq'.1, ← hq'.2.1]) hx2
          | c :: c' :: c'' :: x, _, _, hq' =>
            simp only [q3, List.cons_append, List.cons.injEq] at hq'
            obtain ⟨rfl, rfl, rfl, hq'⟩ := hq'
            exact .inr (by rw [(List.append_eq_nil_iff.1 hq'.symm).1]; rfl)
      rcases one with rfl | rfl
      · exact ⟨_, .unclosed _ _ _ lead q1 [] ht (.inr ⟨rfl, ⟨[], rfl⟩, by decide⟩) .nil, by simp⟩
      · exact ⟨_, .unclosed _ _ _ lead q3 [] ht (.inl ⟨rfl, ⟨[], rfl⟩⟩) .nil, by simp⟩

/-- The beginning of a keyword is one, or ends in a backslash. -/
theorem keyword_part {b : Buf} {before : Str} {line : Nat} {triv lead text value rest x y : Str} (ht : Trivia triv lead)
    (h : Lexeme .keyword text value rest) (hx : x ≠ []) (he : text = x ++ y) :
    ∃ toks e, Tokens b before line (triv ++ x) toks e ∧ (e = .eof → ∃ k, toks = [k] ∧ k.kind = .keyword) := by
  cases h with
  | keyword _ _ h1 h2 =>
    cases x with
    | nil => exact absurd rfl hx
    | cons c x =>
      simp only [List.cons_append, List.cons.injEq] at he
      obtain ⟨rfl, he⟩ := he
      rcases ident_cut h1 x y he with h | ⟨x', h, rfl⟩
      · have := Tokens.token (b := b) before line triv lead .keyword (':' :: x) x [] [] .eof ht (.keyword _ [] h trivial)
          (.eof _ _ _ ⟨[], [], .blanks _ (by intro c hc; cases hc), .inl rfl⟩)
        rw [List.append_nil] at this
        exact ⟨_, .eof, this, fun _ => ⟨_, rfl, rfl⟩⟩
      · exact ⟨[], .cut, by simpa using Tokens.cut (b := b) before line triv lead (':' :: x') ht (.plain _ _ (by decide) h) (by simp [Starts]), fun h => by cases h⟩

/-- In front of the next token there are only blanks and comments. -/
theorem before_next {b : Buf} {before : Str} {line : Nat} {rest x y : Str} {toks : List Token} (h : Tokens b before line rest toks .eof)
    (he : rest = x ++ y) (hn : ∀ t ∈ toks.head?, blen (before ++ x) ≤ t.site.off) : EndTrivia x := by
  cases h with
  | eof _ _ _ h => subst he; exact endTrivia_cut h
  | token _ _ triv lead kind text value rest' _ _ ht hl hr =>
    have hle := hn _ rfl
    simp only [siteOf, blen_append] at hle
    rcases List.append_eq_append_iff.1 he with ⟨d, rfl, hd⟩ | ⟨d, rfl, hd⟩
    · have hd' : d = [] := by
        cases d with
        | nil => rfl
        | cons c d => have := Char.utf8Size_pos c; simp only [blen_append, blen_cons] at hle; omega
      subst hd'
      exact trivia_cut ht _ [] (by simp)
    · exact trivia_cut ht _ _ rfl

mutual
/-- The last token of an expression is not a keyword. -/
theorem expr_last {u : Unescape} : ∀ {ts : List Token} {n : PNode}, Expr u ts n → ∀ pre k, ts = pre ++ [k] → k.kind ≠ .keyword
  | _, _, .symbol t h, pre, k, he => by
    have := congrArg List.getLast? he
    simp at this; subst this; rw [h]; decide
  | _, _, .number t h, pre, k, he => by
    have := congrArg List.getLast? he
    simp at this; subst this; rw [h]; decide
  | _, _, .string t v h _, pre, k, he => by
    have := congrArg List.getLast? he
    simp at this; subst this; rw [h]; decide
  | _, _, .list o c ts ns _ h _, pre, k, he => by
    have := congrArg List.getLast? he
    rw [← List.cons_append, List.getLast?_concat, List.getLast?_concat] at this
    simp at this; subst this; rw [h]; decide
  | _, _, .attr k' ts n _ h, pre, k, he => by
    cases pre with
    | nil => simp at he; exact absurd he.2 (expr_ne_nil h)
    | cons p pre => simp only [List.cons_append, List.cons.injEq] at he; exact expr_last h pre k he.2
theorem exprs_last {u : Unescape} : ∀ {ts : List Token} {ns : List PNode}, Exprs u ts ns → ∀ pre k, ts = pre ++ [k] → k.kind ≠ .keyword
  | _, _, .nil, pre, k, he => by simp at he
  | _, _, .cons ts n ts' ns h h', pre, k, he => by
    rcases List.append_eq_append_iff.1 he with ⟨d, rfl, hd⟩ | ⟨d, rfl, hd⟩
    · exact exprs_last h' d k hd
    · cases d with
      | nil => exact exprs_last h' [] k (by simpa using hd.symm)
      | cons x d =>
        simp only [List.cons_append, List.cons.injEq] at hd
        obtain ⟨rfl, hd⟩ := hd
        obtain ⟨rfl, rfl⟩ := List.append_eq_nil_iff.1 hd.symm
        exact expr_last h pre _ rfl
end

end Seam
