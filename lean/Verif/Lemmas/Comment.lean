import Verif.Lemmas.Parser
import Verif.Spec.Tree

/-! Helper lemmas: reading does not depend on positions. -/

namespace Seam
open Spec

/-! ### The lexer looks only at the unread text -/

theorem wsLoop_same (l l' : Lex) (eon : Bool) (acc s : Str) :
    (wsLoop l eon acc s).1 = (wsLoop l' eon acc s).1 ∧
    (wsLoop l eon acc s).2.rest = (wsLoop l' eon acc s).2.rest := by
  refine ⟨?_, by rw [wsLoop_snd_rest, wsLoop_snd_rest]⟩
  induction s generalizing l l' eon acc with
  | nil => rfl
  | cons c cs ih =>
    cases cs with
    | nil =>
      unfold wsLoop
      simp only []
      split <;> rfl
    | cons d ds =>
      rw [wsLoop_cons, wsLoop_cons]
      split
      · rfl
      · split
        · split
          · exact ih _ _ _ _
          · exact ih _ _ _ _
        · exact ih _ _ _ _

/-- Two outcomes of reading an identifier. -/
def SameText : Res (Str × Lex) → Res (Str × Lex) → Prop
  | .ok (t, l), .ok (t', l') => t = t' ∧ l.rest = l'.rest
  | .err e, .err e' => e.stage = e'.stage ∧ e.msg = e'.msg
  | .panic, .panic => True
  | .diverge, .diverge => True
  | _, _ => False

theorem identLoop_same (s : Str) : ∀ (l l' : Lex) (acc : Str), SameText (identLoop l acc s) (identLoop l' acc s) := by
  generalize hn : s.length = n
  induction n using Nat.strongRecOn generalizing s with
  | ind n ih =>
    intro l l' acc
    rw [identLoop.eq_def, identLoop.eq_def l']
    cases s with
    | nil => exact ⟨rfl, rfl⟩
    | cons c cs =>
      simp only []
      cases charKind c with
      | none => exact ⟨rfl, rfl⟩
      | some k =>
        simp only []
        by_cases hc : (c == '\\') = true
        · rw [if_pos hc, if_pos hc]
          cases cs with
          | nil => trivial
          | cons e es => exact ih es.length (by simp at hn; omega) es rfl _ _ _
        · rw [if_neg hc, if_neg hc]
          by_cases hk : k = .symbol ∨ k = .number ∨ k = .keyword
          · rw [if_pos hk, if_pos hk]
            exact ih cs.length (by simp at hn; omega) cs rfl _ _ _
          · rw [if_neg hk, if_neg hk]
            exact ⟨rfl, rfl⟩

theorem stringLoop_same (q s : Str) : ∀ (l l' : Lex) (esc : Bool) (acc : Str),
    (stringLoop q l esc acc s).map (fun p => (p.1, p.2.rest)) =
    (stringLoop q l' esc acc s).map (fun p => (p.1, p.2.rest)) := by
  induction s with
  | nil => intros; rfl
  | cons c cs ih =>
    intro l l' esc acc
    rw [stringLoop, stringLoop]
    split
    · rfl
    · exact ih _ _ _ _

theorem consumeParen_same {l l' : Lex} (h : l.rest = l'.rest) (k : Kind) (p : Char) (w : Str) :
    SameToken (l.consumeParen k p w) (l'.consumeParen k p w) := by
  unfold Lex.consumeParen Lex.consumeChar
  rw [← h]
  cases hr : l.rest with
  | nil => trivial
  | cons c cs =>
    simp only [Res.ok_bind]
    split
    · refine ⟨rfl, rfl, rfl, ?_⟩
      by_cases hc : (c == '\n') = true
      · rw [if_pos hc, if_pos hc]; rfl
      · rw [if_neg hc, if_neg hc]; rfl
    · trivial

theorem consumeAtom_same {l l' : Lex} (h : l.rest = l'.rest) (k : Kind) (w : Str) :
    SameToken (l.consumeAtom k w) (l'.consumeAtom k w) := by
  unfold Lex.consumeAtom Lex.consumeIdent
  rw [← h]
  have := identLoop_same l.rest l l' []
  revert this
  cases identLoop l [] l.rest <;> cases identLoop l' [] l.rest <;>
    intro h1 <;> simp_all [SameText, SameToken]

theorem consumeKeyword_same {l l' : Lex} (h : l.rest = l'.rest) (w : Str) :
    SameToken (l.consumeKeyword w) (l'.consumeKeyword w) := by
  unfold Lex.consumeKeyword Lex.consumeChar
  rw [← h]
  cases hr : l.rest with
  | nil => trivial
  | cons c cs =>
    simp only [Res.ok_bind]
    by_cases hc : c = ':'
    · subst hc
      have hw : (':' : Char).utf8Size = 1 := by decide
      have hn : ((':' : Char) == '\n') = false := by decide
      simp only [hn, Bool.false_eq_true, if_false, if_true]
      have h1 := identLoop_same cs (l.advance (':' : Char).utf8Size cs) (l'.advance (':' : Char).utf8Size cs) []
      have g : ∀ x : Lex, (x.advance (':' : Char).utf8Size cs).consumeIdent =
          identLoop (x.advance (':' : Char).utf8Size cs) [] cs := fun _ => rfl
      rw [g, g]
      have pos : ∀ x : Lex, 1 ≤ (x.advance (':' : Char).utf8Size cs).off ∧ 1 ≤ (x.advance (':' : Char).utf8Size cs).bol := by
        intro x; simp [Lex.advance, hw]
      revert h1
      cases identLoop (l.advance (':' : Char).utf8Size cs) [] cs <;>
        cases identLoop (l'.advance (':' : Char).utf8Size cs) [] cs <;> intro h1 <;>
        simp_all [SameText, SameToken]
    · simp [hc, SameToken]

theorem consumeString_same {l l' : Lex} (h : l.rest = l'.rest) (w : Str) :
    SameToken (l.consumeString w) (l'.consumeString w) := by
  unfold Lex.consumeString Lex.peekChar Lex.startsWith
  rw [← h]
  cases hr : l.rest with
  | nil => trivial
  | cons c cs =>
    by_cases hc : c = '"'
    · subst hc
      simp only [List.head?_cons]
      generalize (if (['"', '"', '"'] : Str).isPrefixOf ('"' :: cs) then (['"', '"', '"'] : Str) else ['"']) = q
      have h1 := stringLoop_same q (('"' :: cs).drop q.length)
        (l.advance q.length (('"' :: cs).drop q.length)) (l'.advance q.length (('"' :: cs).drop q.length)) false []
      have g : ∀ x : Lex, ∀ n s, (x.advance n s).rest = s := fun _ _ _ => rfl
      rw [g, g]
      revert h1
      cases stringLoop q (l.advance q.length (('"' :: cs).drop q.length)) false [] (('"' :: cs).drop q.length) with
      | none =>
        cases stringLoop q (l'.advance q.length (('"' :: cs).drop q.length)) false [] (('"' :: cs).drop q.length) with
        | none => intro _; exact ⟨rfl, rfl⟩
        | some p => intro h1; simp at h1
      | some p =>
        cases stringLoop q (l'.advance q.length (('"' :: cs).drop q.length)) false [] (('"' :: cs).drop q.length) with
        | none => intro h1; simp at h1
        | some p' =>
          intro h1
          simp only [Option.map_some, Option.some.injEq, Prod.mk.injEq] at h1
          obtain ⟨v, l2⟩ := p
          obtain ⟨v', l2'⟩ := p'
          simp only at h1
          exact ⟨rfl, h1.1, rfl, by simp [Lex.advance, h1.2]⟩
    · have : ∀ x : Option Char, x = some c → (match x with | some '"' => True | _ => False) → False := by
        rintro x rfl; split
        · rename_i h; simp only [Option.some.injEq] at h; exact fun _ => hc h
        · exact id
      simp only [List.head?_cons]
      split
      · rename_i h; simp only [Option.some.injEq] at h; exact absurd h hc
      · trivial

theorem consume_same {l l' : Lex} (h : l.rest = l'.rest) : SameToken l.consume l'.consume := by
  unfold Lex.consume Lex.consumeWs
  rw [← h]
  obtain ⟨h1, h2⟩ := wsLoop_same l l' false [] l.rest
  generalize wsLoop l false [] l.rest = p at h1 h2
  generalize wsLoop l' false [] l.rest = p' at h1 h2
  obtain ⟨w, m⟩ := p
  obtain ⟨w', m'⟩ := p'
  simp only at h1 h2
  subst h1
  simp only [Lex.peekChar]
  rw [← h2]
  cases hr : m.rest.head? with
  | none => trivial
  | some c =>
    simp only []
    cases charKind c with
    | none => trivial
    | some k =>
      cases k with
      | lparen => exact consumeParen_same h2 _ _ _
      | rparen => exact consumeParen_same h2 _ _ _
      | symbol => exact consumeAtom_same h2 _ _
      | number => exact consumeAtom_same h2 _ _
      | string => exact consumeString_same h2 _
      | keyword => exact consumeKeyword_same h2 _

theorem eof_same {l l' : Lex} (h : l.rest = l'.rest) : l.eof = l'.eof := by
  rw [eof_eq, eof_eq, h]

/-! ### A comment reads as its newline -/

theorem wsRest_eq_split (s : Str) : wsRest false s = [] ∨
    ∃ triv lead c cs, Trivia triv lead ∧ tokenChar c = true ∧ s = triv ++ c :: cs := by
  rcases trivia_split s with h | h
  · exact Or.inl (eof_of_endTrivia h)
  · exact Or.inr h

theorem consume_eof {l : Lex} (h : wsRest false l.rest = []) : l.consume = .panic := by
  unfold Lex.consume Lex.consumeWs
  have := wsLoop_snd_rest l false [] l.rest
  rw [h] at this
  generalize wsLoop l false [] l.rest = p at this
  obtain ⟨w, m⟩ := p
  simp only at this
  simp [Lex.peekChar, this]

/-- `Trivia` starting with a newline. -/
theorem trivia_of_newline {triv : Str} {c : Char} {cs r : Str} (h : '\n' :: r = triv ++ c :: cs)
    (hc : tokenChar c = true) : ∃ t, triv = '\n' :: t := by
  cases triv with
  | nil =>
    simp only [List.nil_append, List.cons.injEq] at h
    rw [← h.1] at hc
    exact absurd hc (by decide)
  | cons x xs =>
    simp only [List.cons_append, List.cons.injEq] at h
    exact ⟨xs, by rw [h.1]⟩

theorem wsRest_blank_comment (w text r : Str) (hw : Blanks w) (ht : '\n' ∉ text) :
    wsRest false (w ++ ';' :: (text ++ '\n' :: r)) = wsRest false ('\n' :: r) := by
  rw [wsRest_blanks _ _ hw]
  rw [wsRest]
  have : (!blank ';' && !(false || (';' : Char) == ';')) = false := by decide
  rw [this]
  simp only [Bool.false_eq_true, if_false]
  have h2 : (if (';' : Char) == '\n' then false else false || (';' : Char) == ';') = true := by decide
  rw [h2, wsRest_comment _ _ ht]
  simp [wsRest, blank_newline]

theorem consume_comment {l l' : Lex} {w text r : Str} (hw : Blanks w) (ht : '\n' ∉ text)
    (h : l.rest = w ++ ';' :: (text ++ '\n' :: r)) (h' : l'.rest = '\n' :: r) :
    SameToken l.consume l'.consume := by
  have e1 : l.rest = (stateAt l.buf [] 1 (w ++ ';' :: (text ++ '\n' :: r))).rest := h
  have e2 : (stateAt l.buf [] 1 ('\n' :: r)).rest = l'.rest := h'.symm
  have trans : ∀ {x y z : Res (Token × Lex)}, SameToken x y → SameToken y z → SameToken x z := by
    intro x y z hxy hyz
    cases x <;> cases y <;> cases z <;> simp_all [SameToken]
  refine trans (consume_same e1) (trans ?_ (consume_same e2))
  rcases wsRest_eq_split ('\n' :: r) with h0 | ⟨triv, lead, c, cs, htr, hc, he⟩
  · have h3 := consume_eof (l := stateAt l.buf [] 1 ('\n' :: r)) h0
    have h4 := consume_eof (l := stateAt l.buf [] 1 (w ++ ';' :: (text ++ '\n' :: r)))
      (by rw [← h0]; exact wsRest_blank_comment w text r hw ht)
    rw [h3, h4]; trivial
  · obtain ⟨t, rfl⟩ := trivia_of_newline he hc
    have htr2 := Trivia.comment w text t lead hw ht htr
    have e3 : w ++ ';' :: (text ++ '\n' :: r) = (w ++ ';' :: text ++ '\n' :: t) ++ c :: cs := by
      rw [he]; simp
    rw [e3, he, consume_trivia _ htr2 _ _ _ _ hc, consume_trivia _ htr _ _ _ _ hc]
    have hr : (stateAt l.buf ([] ++ (w ++ ';' :: text ++ '\n' :: t)) (1 + newlines (w ++ ';' :: text ++ '\n' :: t)) (c :: cs)).rest =
      (stateAt l.buf ([] ++ '\n' :: t) (1 + newlines ('\n' :: t)) (c :: cs)).rest := rfl
    simp only []
    cases charKind c with
    | none => trivial
    | some k =>
      cases k with
      | lparen => exact consumeParen_same hr _ _ _
      | rparen => exact consumeParen_same hr _ _ _
      | symbol => exact consumeAtom_same hr _ _
      | number => exact consumeAtom_same hr _ _
      | string => exact consumeString_same hr _
      | keyword => exact consumeKeyword_same hr _

/-! ### The parser looks only at the tokens -/

/-- Two lexer states that read on in the same way. -/
def SameReader (l l' : Lex) : Prop := SameToken l.consume l'.consume ∧ l.eof = l'.eof

theorem sameReader_of_rest {l l' : Lex} (h : l.rest = l'.rest) : SameReader l l' :=
  ⟨consume_same h, eof_same h⟩

/-- Two outcomes of reading an expression. -/
def SameExpr : Res (PNode × Lex) → Res (PNode × Lex) → Prop
  | .ok (n, l), .ok (n', l') => SameNode n n' ∧ l.rest = l'.rest
  | .err e, .err e' => e.stage = e'.stage ∧ e.msg = e'.msg
  | .panic, .panic => True
  | .diverge, .diverge => True
  | _, _ => False

/-- Two outcomes of reading the elements of a list. -/
def SameElems : Res (List PNode × Option Token × Lex) → Res (List PNode × Option Token × Lex) → Prop
  | .ok (ns, some t, l), .ok (ns', some t', l') => SameNodes ns ns' ∧ t.lw = t'.lw ∧ l.rest = l'.rest
  | .ok (_, none, _), .ok (_, none, _) => True
  | .err e, .err e' => e.stage = e'.stage ∧ e.msg = e'.msg
  | .panic, .panic => True
  | .diverge, .diverge => True
  | _, _ => False

theorem parseAtomic_same {u : Unescape} {l l' : Lex} (h : SameToken l.consume l'.consume)
    (f : Node → PNode) (hf : ∀ a b : Node, a.value = b.value → a.lw = b.lw → SameNode (f a) (f b)) :
    SameExpr (parseAtomic u l >>= fun p => .ok (f p.1, p.2)) (parseAtomic u l' >>= fun p => .ok (f p.1, p.2)) := by
  unfold parseAtomic
  revert h
  cases l.consume with
  | ok p =>
    cases l'.consume with
    | ok p' =>
      obtain ⟨t, m⟩ := p
      obtain ⟨t', m'⟩ := p'
      rintro ⟨h1, h2, h3, h4⟩
      simp only [Res.ok_bind, ← h1, ← h2, escapeString]
      cases t.kind with
      | symbol => exact ⟨hf _ _ rfl h3, h4⟩
      | number => exact ⟨hf _ _ rfl h3, h4⟩
      | keyword => exact ⟨hf _ _ rfl h3, h4⟩
      | string =>
        simp only []
        cases u t.value with
        | none => exact ⟨rfl, rfl⟩
        | some v => exact ⟨hf _ _ rfl h3, h4⟩
      | lparen => trivial
      | rparen => trivial
    | _ => intro h; exact h.elim
  | err x =>
    cases l'.consume with
    | err x' => intro h; exact h
    | _ => intro h; exact h.elim
  | panic =>
    cases l'.consume with
    | panic => intro h; trivial
    | _ => intro h; exact h.elim
  | diverge =>
    cases l'.consume with
    | diverge => intro h; trivial
    | _ => intro h; exact h.elim

/-- Case split for two related readers. -/
theorem sameToken_cases {x y : Res (Token × Lex)} (h : SameToken x y) :
    (∃ t l t' l', x = .ok (t, l) ∧ y = .ok (t', l') ∧ t.kind = t'.kind ∧ t.value = t'.value ∧ t.lw = t'.lw ∧
      l.rest = l'.rest) ∨
    (∃ e e', x = .err e ∧ y = .err e' ∧ e.stage = e'.stage ∧ e.msg = e'.msg) ∨
    (x = .panic ∧ y = .panic) ∨ (x = .diverge ∧ y = .diverge) := by
  revert h
  cases x with
  | ok p =>
    cases y with
    | ok p' =>
      obtain ⟨t, m⟩ := p
      obtain ⟨t', m'⟩ := p'
      rintro h
      exact Or.inl ⟨t, m, t', m', rfl, rfl, h⟩
    | _ => intro h; exact h.elim
  | err x =>
    cases y with
    | err x' => intro h; exact Or.inr (Or.inl ⟨x, x', rfl, rfl, h⟩)
    | _ => intro h; exact h.elim
  | panic =>
    cases y with
    | panic => intro h; simp
    | _ => intro h; exact h.elim
  | diverge =>
    cases y with
    | diverge => intro h; simp
    | _ => intro h; exact h.elim

theorem parse_same (u : Unescape) (fuel : Nat) :
    (∀ l l', SameReader l l' → SameExpr (parseExpr u fuel l) (parseExpr u fuel l')) ∧
    (∀ l l', SameReader l l' → SameExpr (parseKeyword u fuel l) (parseKeyword u fuel l')) ∧
    (∀ l l', SameReader l l' → SameExpr (parseList u fuel l) (parseList u fuel l')) ∧
    (∀ l l', SameReader l l' → SameElems (parseElems u fuel l) (parseElems u fuel l')) := by
  induction fuel with
  | zero => refine ⟨?_, ?_, ?_, ?_⟩ <;> intros <;> trivial
  | succ fuel ih =>
    obtain ⟨ihE, ihK, ihL, ihS⟩ := ih
    refine ⟨?_, ?_, ?_, ?_⟩
    · intro l l' h
      rcases sameToken_cases h.1 with ⟨t, m, t', m', hx, hy, h1, h2, h3, h4⟩ | ⟨e, e', hx, hy, h1⟩ | ⟨hx, hy⟩ | ⟨hx, hy⟩
      · simp only [parseExpr, Lex.peek, hx, hy, Res.ok_bind, ← h1]
        cases hk : t.kind with
        | lparen => exact ihL l l' h
        | rparen => exact ⟨rfl, rfl⟩
        | keyword => exact ihK l l' h
        | symbol => exact parseAtomic_same h.1 .symbol (fun a b h1 h2 => ⟨h1, h2⟩)
        | string => exact parseAtomic_same h.1 .string (fun a b h1 h2 => ⟨h1, h2⟩)
        | number => exact parseAtomic_same h.1 .number (fun a b h1 h2 => ⟨h1, h2⟩)
      · simp only [parseExpr, Lex.peek, hx, hy, Res.err_bind]; exact h1
      · simp only [parseExpr, Lex.peek, hx, hy, Res.panic_bind]; trivial
      · simp only [parseExpr, Lex.peek, hx, hy, Res.diverge_bind]; trivial
    · intro l l' h
      rcases sameToken_cases h.1 with ⟨t, m, t', m', hx, hy, h1, h2, h3, h4⟩ | ⟨e, e', hx, hy, h1⟩ | ⟨hx, hy⟩ | ⟨hx, hy⟩
      · have hm := sameReader_of_rest h4
        simp only [parseKeyword, hx, hy, Res.ok_bind, ← h1, ← hm.2]
        by_cases hk : t.kind = .keyword
        · rw [if_pos hk, if_pos hk]
          by_cases he : m.eof = true
          · rw [if_pos he, if_pos he]; exact ⟨rfl, rfl⟩
          · rw [if_neg he, if_neg he]
            have hE := ihE m m' hm
            rcases sameToken_cases hm.1 with ⟨s, p, s', p', hx, hy, g1, g2, g3, g4⟩ | ⟨e, e', hx, hy, g1⟩ | ⟨hx, hy⟩ | ⟨hx, hy⟩
            · simp only [Lex.peek, hx, hy, Res.ok_bind, ← g1]
              by_cases hr : s.kind = .rparen
              · rw [if_pos hr, if_pos hr]; exact ⟨rfl, rfl⟩
              · rw [if_neg hr, if_neg hr]
                revert hE
                cases parseExpr u fuel m <;> cases parseExpr u fuel m' <;> intro hE <;>
                  simp_all [SameExpr, SameNode]
            · simp only [Lex.peek, hx, hy, Res.err_bind]; exact g1
            · simp only [Lex.peek, hx, hy, Res.panic_bind]; trivial
            · simp only [Lex.peek, hx, hy, Res.diverge_bind]; trivial
        · rw [if_neg hk, if_neg hk]; trivial
      · simp only [parseKeyword, hx, hy, Res.err_bind]; exact h1
      · simp only [parseKeyword, hx, hy, Res.panic_bind]; trivial
      · simp only [parseKeyword, hx, hy, Res.diverge_bind]; trivial
    · intro l l' h
      rcases sameToken_cases h.1 with ⟨t, m, t', m', hx, hy, h1, h2, h3, h4⟩ | ⟨e, e', hx, hy, h1⟩ | ⟨hx, hy⟩ | ⟨hx, hy⟩
      · have hm := sameReader_of_rest h4
        simp only [parseList, hx, hy, Res.ok_bind, ← h1]
        by_cases hk : t.kind = .lparen
        · rw [if_pos hk, if_pos hk]
          have hS := ihS m m' hm
          revert hS
          cases parseElems u fuel m with
          | ok p =>
            obtain ⟨ns, r, p⟩ := p
            cases parseElems u fuel m' with
            | ok p' =>
              obtain ⟨ns', r', p'⟩ := p'
              cases r <;> cases r' <;> intro hS
              · exact ⟨rfl, rfl⟩
              · exact hS.elim
              · exact hS.elim
              · exact ⟨⟨hS.1, hS.2.1, h3⟩, hS.2.2⟩
            | _ => intro hS; cases r <;> exact hS.elim
          | err x =>
            cases parseElems u fuel m' with
            | err x' => intro hS; exact hS
            | _ => intro hS; exact hS.elim
          | panic =>
            cases parseElems u fuel m' with
            | panic => intro hS; trivial
            | _ => intro hS; exact hS.elim
          | diverge =>
            cases parseElems u fuel m' with
            | diverge => intro hS; trivial
            | _ => intro hS; exact hS.elim
        · rw [if_neg hk, if_neg hk]; trivial
      · simp only [parseList, hx, hy, Res.err_bind]; exact h1
      · simp only [parseList, hx, hy, Res.panic_bind]; trivial
      · simp only [parseList, hx, hy, Res.diverge_bind]; trivial
    · intro l l' h
      simp only [parseElems, ← h.2]
      by_cases he : l.eof = true
      · rw [if_pos he, if_pos he]; trivial
      · rw [if_neg he, if_neg he]
        rcases sameToken_cases h.1 with ⟨t, m, t', m', hx, hy, h1, h2, h3, h4⟩ | ⟨e, e', hx, hy, h1⟩ | ⟨hx, hy⟩ | ⟨hx, hy⟩
        · simp only [Lex.peek, hx, hy, Res.ok_bind, ← h1]
          by_cases hr : t.kind = .rparen
          · rw [if_pos hr, if_pos hr]; exact ⟨trivial, h3, h4⟩
          · rw [if_neg hr, if_neg hr]
            have hE := ihE l l' h
            revert hE
            cases parseExpr u fuel l with
            | ok p =>
              obtain ⟨n, p⟩ := p
              cases parseExpr u fuel l' with
              | ok p' =>
                obtain ⟨n', p'⟩ := p'
                rintro ⟨g1, g2⟩
                have hS := ihS p p' (sameReader_of_rest g2)
                simp only [Res.ok_bind]
                revert hS
                cases parseElems u fuel p with
                | ok q =>
                  obtain ⟨ns, r, q⟩ := q
                  cases parseElems u fuel p' with
                  | ok q' =>
                    obtain ⟨ns', r', q'⟩ := q'
                    cases r <;> cases r' <;> intro hS
                    · trivial
                    · exact hS.elim
                    · exact hS.elim
                    · exact ⟨⟨g1, hS.1⟩, hS.2.1, hS.2.2⟩
                  | _ => intro hS; cases r <;> exact hS.elim
                | err x =>
                  cases parseElems u fuel p' with
                  | err x' => intro hS; exact hS
                  | _ => intro hS; exact hS.elim
                | panic =>
                  cases parseElems u fuel p' with
                  | panic => intro hS; trivial
                  | _ => intro hS; exact hS.elim
                | diverge =>
                  cases parseElems u fuel p' with
                  | diverge => intro hS; trivial
                  | _ => intro hS; exact hS.elim
              | _ => intro hS; exact hS.elim
            | err x =>
              cases parseExpr u fuel l' with
              | err x' => intro hS; exact hS
              | _ => intro hS; exact hS.elim
            | panic =>
              cases parseExpr u fuel l' with
              | panic => intro hS; trivial
              | _ => intro hS; exact hS.elim
            | diverge =>
              cases parseExpr u fuel l' with
              | diverge => intro hS; trivial
              | _ => intro hS; exact hS.elim
        · simp only [Lex.peek, hx, hy, Res.err_bind]; exact h1
        · simp only [Lex.peek, hx, hy, Res.panic_bind]; trivial
        · simp only [Lex.peek, hx, hy, Res.diverge_bind]; trivial

theorem parseRoot_same (u : Unescape) (fuel : Nat) :
    ∀ l l', SameReader l l' → SameTree (parseRoot u fuel l) (parseRoot u fuel l') := by
  induction fuel with
  | zero => intros; trivial
  | succ fuel ih =>
    intro l l' h
    simp only [parseRoot, ← h.2]
    by_cases he : l.eof = true
    · rw [if_pos he, if_pos he]; trivial
    · rw [if_neg he, if_neg he]
      have hE := (parse_same u fuel).1 l l' h
      revert hE
      cases parseExpr u fuel l with
      | ok p =>
        obtain ⟨n, p⟩ := p
        cases parseExpr u fuel l' with
        | ok p' =>
          obtain ⟨n', p'⟩ := p'
          rintro ⟨g1, g2⟩
          have hS := ih p p' (sameReader_of_rest g2)
          simp only [Res.ok_bind]
          revert hS
          cases parseRoot u fuel p with
          | ok q =>
            cases parseRoot u fuel p' with
            | ok q' => intro hS; exact ⟨g1, hS⟩
            | _ => intro hS; exact hS.elim
          | err x =>
            cases parseRoot u fuel p' with
            | err x' => intro hS; exact hS
            | _ => intro hS; exact hS.elim
          | panic =>
            cases parseRoot u fuel p' with
            | panic => intro hS; trivial
            | _ => intro hS; exact hS.elim
          | diverge =>
            cases parseRoot u fuel p' with
            | diverge => intro hS; trivial
            | _ => intro hS; exact hS.elim
        | _ => intro hS; exact hS.elim
      | err x =>
        cases parseExpr u fuel l' with
        | err x' => intro hS; exact hS
        | _ => intro hS; exact hS.elim
      | panic =>
        cases parseExpr u fuel l' with
        | panic => intro hS; trivial
        | _ => intro hS; exact hS.elim
      | diverge =>
        cases parseExpr u fuel l' with
        | diverge => intro hS; trivial
        | _ => intro hS; exact hS.elim

theorem sameReader_comment {l l' : Lex} {w text r : Str} (hw : Blanks w) (ht : '\n' ∉ text)
    (h : l.rest = w ++ ';' :: (text ++ '\n' :: r)) (h' : l'.rest = '\n' :: r) : SameReader l l' := by
  refine ⟨consume_comment hw ht h h', ?_⟩
  rw [eof_eq, eof_eq, h, h', wsRest_blank_comment w text r hw ht]

end Seam
