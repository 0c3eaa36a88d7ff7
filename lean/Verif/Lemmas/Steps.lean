import Verif.Model.Steps
import Verif.Lemmas.Lexer
import Verif.Lemmas.ByteLexer

/-! The work of the reader. -/

namespace Seam
open Spec

theorem wsSteps_bounds (s : Str) : ∀ eon, blen s ≤ wsSteps eon s + blen (wsRest eon s) ∧
    wsSteps eon s + blen (wsRest eon s) ≤ blen s + 1 ∧ blen (wsRest eon s) ≤ blen s := by
  induction s with
  | nil => intro eon; simp [wsSteps, wsRest]
  | cons c cs ih =>
    intro eon
    rw [wsSteps, wsRest]
    simp only [isWs_eq]
    split
    · omega
    · have := ih (if (c == '\n') = true then false else eon || c == ';')
      simp only [blen_cons]
      omega

theorem identLoop_bounds : ∀ (n : Nat) (s : Str), s.length ≤ n → ∀ (l : Lex) (acc v : Str) (l' : Lex),
    identLoop l acc s = .ok (v, l') → blen v + blen l'.rest = blen acc + blen s ∧
      blen s ≤ identSteps s + blen l'.rest ∧ identSteps s + blen l'.rest ≤ blen s + 1 ∧ blen l'.rest ≤ blen s := by
  intro n
  induction n with
  | zero =>
    intro s hs l acc v l' h
    cases s with
    | nil =>
      simp only [identLoop, Res.ok.injEq, Prod.mk.injEq] at h
      obtain ⟨rfl, rfl⟩ := h
      simp [identSteps]
    | cons c cs => simp at hs
  | succ n ih =>
    intro s hs l acc v l' h
    cases s with
    | nil =>
      simp only [identLoop, Res.ok.injEq, Prod.mk.injEq] at h
      obtain ⟨rfl, rfl⟩ := h
      simp [identSteps]
    | cons c cs =>
      rw [identLoop.eq_def] at h
      rw [identSteps.eq_def]
      simp only at h ⊢
      cases hk : charKind c with
      | none =>
        rw [hk] at h
        simp only [Res.ok.injEq, Prod.mk.injEq] at h
        obtain ⟨rfl, rfl⟩ := h
        simp only
        exact ⟨trivial, by omega, by omega, by omega⟩
      | some k =>
        rw [hk] at h
        simp only at h ⊢
        by_cases hc : (c == '\\') = true
        · rw [if_pos hc] at h ⊢
          cases cs with
          | nil => simp at h
          | cons e es =>
            simp only at h ⊢
            have := ih es (by simp only [List.length_cons] at hs; omega) _ _ _ _ h
            simp only [blen_cons, blen_append, blen_nil] at this ⊢
            omega
        · rw [if_neg hc] at h ⊢
          by_cases hq : k = .symbol ∨ k = .number ∨ k = .keyword
          · rw [if_pos hq] at h ⊢
            have := ih cs (by simp only [List.length_cons] at hs; omega) _ _ _ _ h
            simp only [blen_cons, blen_append, blen_nil] at this ⊢
            omega
          · rw [if_neg hq] at h ⊢
            simp only [Res.ok.injEq, Prod.mk.injEq] at h
            obtain ⟨rfl, rfl⟩ := h
            simp only
            exact ⟨trivial, by omega, by omega, by omega⟩

theorem stringSteps_le (q s : Str) : ∀ esc, stringSteps q esc s ≤ blen s + 1 := by
  induction s with
  | nil => intro esc; simp [stringSteps]
  | cons c cs ih =>
    intro esc
    rw [stringSteps]
    split
    · omega
    · have := ih (if (!esc) = true then c == '\\' else false)
      simp only [blen_cons]
      omega

theorem stringLoop_bounds (q s : Str) : ∀ (l : Lex) (esc : Bool) (acc v : Str) (l' : Lex),
    stringLoop q l esc acc s = some (v, l') → blen v + blen l'.rest = blen acc + blen s ∧
      blen s ≤ stringSteps q esc s + blen l'.rest ∧ stringSteps q esc s + blen l'.rest ≤ blen s + 1 ∧ q <+: l'.rest := by
  induction s with
  | nil => intro l esc acc v l' h; simp [stringLoop] at h
  | cons c cs ih =>
    intro l esc acc v l' h
    rw [stringLoop] at h
    rw [stringSteps]
    split at h
    · rename_i hp
      rw [if_pos hp]
      simp only [Option.some.injEq, Prod.mk.injEq] at h
      obtain ⟨rfl, rfl⟩ := h
      simp only [Bool.and_eq_true] at hp
      refine ⟨by simp only, by simp only; omega, by simp only; omega, List.isPrefixOf_iff_prefix.1 hp.1⟩
    · rename_i hp
      rw [if_neg hp]
      have := ih _ _ _ _ _ h
      simp only [blen_cons, blen_append, blen_nil] at this ⊢
      refine ⟨by omega, by omega, by omega, this.2.2.2⟩

theorem consumeWs_rest (l : Lex) : l.consumeWs.2.rest = wsRest false l.rest := wsLoop_snd_rest _ _ _ _

theorem eofSteps_le (l : Lex) : l.eofSteps ≤ l.consumeSteps := by
  unfold Lex.eofSteps Lex.consumeSteps
  dsimp only
  omega

theorem eofSteps_max (l : Lex) : l.eofSteps ≤ blen l.rest + 2 := by
  have := (wsSteps_bounds l.rest false).2.1
  unfold Lex.eofSteps
  omega

theorem blen_drop_quotes {q s : Str} (h : q <+: s) : blen q + blen (s.drop q.length) = blen s := by
  obtain ⟨t, rfl⟩ := h
  simp [blen_append]

theorem consumeParen_ok {m : Lex} {c : Char} {cs : Str} (hr : m.rest = c :: cs) (k : Kind) (ws : Str) :
    ∃ l', m.consumeParen k c ws = .ok ({ kind := k, value := [c], lw := ws, site := l'.site m.off m.bol }, l') ∧
      l'.rest = cs := by
  unfold Lex.consumeParen Lex.consumeChar
  rw [hr]
  simp only [Bind.bind, Res.bind, if_true]
  refine ⟨_, rfl, ?_⟩
  split <;> rfl

theorem identLoop_first {c : Char} {cs : Str} {l : Lex} {acc v : Str} {l' : Lex}
    (hk : charKind c = some .number ∨ charKind c = some .symbol) (h : identLoop l acc (c :: cs) = .ok (v, l')) :
    blen l'.rest < blen (c :: cs) := by
  rw [identLoop.eq_def] at h
  simp only at h
  have hpos := Char.utf8Size_pos c
  have key : ∀ k, (k = Kind.symbol ∨ k = .number ∨ k = .keyword) → charKind c = some k → blen l'.rest < blen (c :: cs) := by
    intro k hk' hck
    rw [hck] at h
    simp only at h
    by_cases hc : (c == '\\') = true
    · rw [if_pos hc] at h
      cases cs with
      | nil => simp at h
      | cons e es =>
        simp only at h
        have := identLoop_bounds _ es (Nat.le_refl _) _ _ _ _ h
        simp only [blen_cons, blen_append, blen_nil] at this ⊢
        omega
    · rw [if_neg hc, if_pos hk'] at h
      have := identLoop_bounds _ cs (Nat.le_refl _) _ _ _ _ h
      simp only [blen_cons, blen_append, blen_nil] at this ⊢
      omega
  rcases hk with hk | hk
  · exact key _ (.inr (.inl rfl)) hk
  · exact key _ (.inl rfl) hk

theorem identLoop_outcome : ∀ (n : Nat) (s : Str), s.length ≤ n → ∀ (l : Lex) (acc : Str),
    identLoop l acc s = .diverge ∨ ∃ v l', identLoop l acc s = .ok (v, l') := by
  intro n
  induction n with
  | zero =>
    intro s hs l acc
    cases s with
    | nil => exact .inr ⟨_, _, rfl⟩
    | cons c cs => simp at hs
  | succ n ih =>
    intro s hs l acc
    cases s with
    | nil => exact .inr ⟨_, _, rfl⟩
    | cons c cs =>
      rw [identLoop.eq_def]
      simp only
      cases charKind c with
      | none => exact .inr ⟨_, _, rfl⟩
      | some k =>
        simp only
        split
        · cases cs with
          | nil => exact .inl rfl
          | cons e es => exact ih es (by simp only [List.length_cons] at hs; omega) _ _
        · split
          · exact ih cs (by simp only [List.length_cons] at hs; omega) _ _
          · exact .inr ⟨_, _, rfl⟩

/-- What `consume` does with its bytes and steps. -/
theorem consume_bounds (l : Lex) : match l.consume with
    | .ok (t, l') => blen l'.rest < blen l.rest ∧ blen l.rest ≤ l.consumeSteps + blen l'.rest ∧
        l.consumeSteps + blen l'.rest ≤ blen l.rest + 3 ∧ blen t.value + blen l'.rest ≤ blen l.rest
    | .diverge => True
    | _ => l.consumeSteps ≤ blen l.rest + 7 := by
  have hw := wsSteps_bounds l.rest false
  unfold Lex.consume Lex.consumeSteps
  rw [← consumeWs_rest] at hw
  generalize l.consumeWs = p at hw
  obtain ⟨ws, m⟩ := p
  simp only [Lex.peekChar] at hw ⊢
  cases hr : m.rest with
  | nil => simp only [List.head?_nil, hr, blen_nil] at hw ⊢; omega
  | cons c cs =>
    rw [hr] at hw
    have hpos := Char.utf8Size_pos c
    simp only [List.head?_cons] at hw ⊢
    have atom : ∀ k, (charKind c = some .number ∨ charKind c = some .symbol) → (match m.consumeAtom k ws with
        | .ok (t, l') => blen l'.rest < blen l.rest ∧
            blen l.rest ≤ wsSteps false l.rest + 1 + identSteps (c :: cs) + blen l'.rest ∧
            wsSteps false l.rest + 1 + identSteps (c :: cs) + blen l'.rest ≤ blen l.rest + 3 ∧
            blen t.value + blen l'.rest ≤ blen l.rest
        | .diverge => True
        | _ => wsSteps false l.rest + 1 + identSteps (c :: cs) ≤ blen l.rest + 7) := by
      intro k hk
      unfold Lex.consumeAtom Lex.consumeIdent
      rw [hr]
      rcases identLoop_outcome _ (c :: cs) (Nat.le_refl _) m [] with h | ⟨v, l', h⟩
      · rw [h]; trivial
      · have h1 := identLoop_bounds _ _ (Nat.le_refl _) _ _ _ _ h
        have h2 := identLoop_first hk h
        rw [h]
        simp only [Bind.bind, Res.bind, blen_nil] at h1 ⊢
        omega
    cases hk : charKind c with
    | none => simp only; omega
    | some k =>
      cases k with
      | lparen =>
        have hc : c = '(' := by
          unfold charKind at hk
          repeat' split at hk
          all_goals first | (simp at hk; done) | skip
          rename_i h; simpa using h
        subst hc
        obtain ⟨l', h, hl⟩ := consumeParen_ok hr .lparen ws
        simp only [h, hl]
        have h1 : Char.utf8Size '(' = 1 := by decide
        simp only [blen_cons, blen_nil] at hw ⊢
        omega
      | rparen =>
        have hc : c = ')' := by
          unfold charKind at hk
          repeat' split at hk
          all_goals first | (simp at hk; done) | skip
          rename_i h; simpa using h
        subst hc
        obtain ⟨l', h, hl⟩ := consumeParen_ok hr .rparen ws
        simp only [h, hl]
        have h1 : Char.utf8Size ')' = 1 := by decide
        simp only [blen_cons, blen_nil] at hw ⊢
        omega
      | number => exact atom .number (.inl hk)
      | symbol => exact atom .symbol (.inr hk)
      | keyword =>
        have hc : c = ':' := by
          unfold charKind at hk
          repeat' split at hk
          all_goals first | (simp at hk; done) | skip
          rename_i h; simpa using h
        subst hc
        have h1 : Char.utf8Size ':' = 1 := by decide
        simp only [Lex.consumeKeyword, Lex.consumeChar, hr, Bind.bind, Res.bind, Lex.consumeIdent, if_true]
        have hn : (':' == '\n') = false := by decide
        simp only [hn]
        generalize hm : m.advance (Char.utf8Size ':') cs = m'
        have hmr : m'.rest = cs := by subst hm; rfl
        simp only [Bool.false_eq_true, if_false, hmr]
        rcases identLoop_outcome _ cs (Nat.le_refl _) m' [] with h | ⟨v, l', h⟩
        · rw [h]; trivial
        · have h2 := identLoop_bounds _ _ (Nat.le_refl _) _ _ _ _ h
          rw [h]
          simp only [blen_cons, blen_nil] at h2 hw ⊢
          have hoff : 1 ≤ m'.off ∧ 1 ≤ m'.bol := by
            subst hm
            simp only [Lex.advance, h1]
            omega
          rw [if_pos hoff]
          simp only
          omega
      | string =>
        have hc : c = '"' := by
          unfold charKind at hk
          repeat' split at hk
          all_goals first | (simp at hk; done) | skip
          rename_i h; simpa using h
        subst hc
        simp only [Lex.consumeString, Lex.peekChar, hr, List.head?_cons, Lex.startsWith]
        have hq : (if ['"', '"', '"'].isPrefixOf ('"' :: cs) = true then ['"', '"', '"'] else ['"']) <+: '"' :: cs := by
          split
          · rename_i h; exact List.isPrefixOf_iff_prefix.1 h
          · exact ⟨cs, rfl⟩
        have hb : blen (if ['"', '"', '"'].isPrefixOf ('"' :: cs) = true then ['"', '"', '"'] else ['"']) =
            (if ['"', '"', '"'].isPrefixOf ('"' :: cs) = true then ['"', '"', '"'] else ['"']).length := by
          split <;> decide
        have h3 : 1 ≤ (if ['"', '"', '"'].isPrefixOf ('"' :: cs) = true then ['"', '"', '"'] else ['"']).length ∧
            (if ['"', '"', '"'].isPrefixOf ('"' :: cs) = true then ['"', '"', '"'] else ['"']).length ≤ 3 := by
          split <;> decide
        generalize (if ['"', '"', '"'].isPrefixOf ('"' :: cs) = true then ['"', '"', '"'] else ['"']) = q at hq hb h3
        have hd := blen_drop_quotes hq
        have hs := stringSteps_le q (('"' :: cs).drop q.length) false
        simp only [Lex.advance]
        cases h : stringLoop q { m with rest := ('"' :: cs).drop q.length, off := m.off + q.length, bol := m.bol + q.length } false []
            (('"' :: cs).drop q.length) with
        | none => simp only; omega
        | some x =>
          obtain ⟨v, l2⟩ := x
          have h4 := stringLoop_bounds _ _ _ _ _ _ _ h
          have h5 := blen_drop_quotes h4.2.2.2
          simp only [blen_nil] at h4 ⊢
          omega

theorem counted_bind {α β : Type} (x : Counted α) (f : α → Counted β) : (x >>= f) = Counted.bind x f := rfl

theorem counted_fst {α β : Type} {x : Counted α} {f : α → Counted β} {r : Res α} {g : α → Res β} (h : x.1 = r)
    (hf : ∀ a, (f a).1 = g a) : (x >>= f).1 = r >>= g := by
  obtain ⟨x1, n⟩ := x
  cases h
  cases x1 with
  | ok a => exact hf a
  | err e => rfl
  | panic => rfl
  | diverge => rfl

theorem parseAtomicCounted_fst (u : Unescape) (l : Lex) : (parseAtomicCounted u l).1 = parseAtomic u l := by
  unfold parseAtomicCounted parseAtomic
  refine counted_fst rfl fun ⟨t, l⟩ => ?_
  dsimp only
  cases t.kind <;> exact counted_fst rfl fun _ => rfl

theorem reader_counted (u : Unescape) (fuel : Nat) :
    (∀ l, (parseExprCounted u fuel l).1 = parseExpr u fuel l) ∧
    (∀ l, (parseKeywordCounted u fuel l).1 = parseKeyword u fuel l) ∧
    (∀ l, (parseListCounted u fuel l).1 = parseList u fuel l) ∧
    (∀ l, (parseElemsCounted u fuel l).1 = parseElems u fuel l) := by
  induction fuel with
  | zero => refine ⟨?_, ?_, ?_, ?_⟩ <;> intro l <;> simp only [parseExprCounted, parseExpr, parseKeywordCounted, parseKeyword, parseListCounted, parseList, parseElemsCounted, parseElems, steps]
  | succ fuel ih =>
    obtain ⟨i1, i2, i3, i4⟩ := ih
    refine ⟨?_, ?_, ?_, ?_⟩ <;> intro l
    · simp only [parseExprCounted, parseExpr]
      refine counted_fst rfl fun t => ?_
      cases t.kind with
      | lparen => exact i3 _
      | rparen => rfl
      | keyword => exact i2 _
      | symbol => exact counted_fst (parseAtomicCounted_fst u l) fun _ => rfl
      | string => exact counted_fst (parseAtomicCounted_fst u l) fun _ => rfl
      | number => exact counted_fst (parseAtomicCounted_fst u l) fun _ => rfl
    · simp only [parseKeywordCounted, parseKeyword]
      refine counted_fst rfl fun ⟨t, l⟩ => ?_
      dsimp only
      split
      · refine (counted_fst (g := fun done => if done = true then _ else _) (r := .ok l.eof) rfl fun done => ?_).trans rfl
        split
        · rfl
        · refine counted_fst rfl fun t' => ?_
          split
          · rfl
          · exact counted_fst (i1 _) fun _ => rfl
      · rfl
    · simp only [parseListCounted, parseList]
      refine counted_fst rfl fun ⟨t, l⟩ => ?_
      dsimp only
      split
      · refine counted_fst (i4 _) fun ⟨ns, r, l⟩ => ?_
        cases r with
        | none => rfl
        | some e => rfl
      · rfl
    · simp only [parseElemsCounted, parseElems]
      refine (counted_fst (g := fun done => if done = true then _ else _) (r := .ok l.eof) rfl fun done => ?_).trans rfl
      split
      · rfl
      · refine counted_fst rfl fun t => ?_
        split
        · exact counted_fst rfl fun _ => rfl
        · exact counted_fst (i1 _) fun _ => counted_fst (i4 _) fun _ => rfl

theorem root_counted (u : Unescape) : ∀ fuel l, (parseRootCounted u fuel l).1 = parseRoot u fuel l
  | 0, _ => rfl
  | fuel + 1, l => by
    rw [parseRootCounted, parseRoot]
    refine (counted_fst (g := fun done => if done = true then _ else _) (r := .ok l.eof) rfl fun done => ?_).trans rfl
    split
    · rfl
    · exact counted_fst ((reader_counted u fuel).1 l) fun _ => counted_fst (root_counted u fuel _) fun _ => rfl

/-- What holds of the steps: `P` when there is a result, `Q` when there is an error or a panic. -/
def Ends {α : Type} (x : Counted α) (P : α → Nat → Prop) (Q : Nat → Prop) : Prop :=
  match x with
  | (.ok a, n) => P a n
  | (.err _, n) => Q n
  | (.panic, n) => Q n
  | (.diverge, _) => True

theorem Ends.bind {α β : Type} {x : Counted α} {f : α → Counted β} {P : α → Nat → Prop} {Q : Nat → Prop}
    {P' : β → Nat → Prop} {Q' : Nat → Prop} (h : Ends x P Q) (hq : ∀ n, Q n → Q' n)
    (hf : ∀ a n, P a n → Ends (f a) (fun b m => P' b (n + m)) fun m => Q' (n + m)) : Ends (x >>= f) P' Q' := by
  obtain ⟨r, n⟩ := x
  cases r with
  | ok a =>
    have := hf a n h
    change Ends ((f a).1, n + (f a).2) P' Q'
    generalize f a = y at this ⊢
    obtain ⟨s, m⟩ := y
    cases s <;> exact this
  | err e => exact hq n h
  | panic => exact hq n h
  | diverge => trivial

theorem Ends.ok {α : Type} {a : α} {n : Nat} {P : α → Nat → Prop} {Q : Nat → Prop} (h : P a n) :
    Ends (steps (.ok a) n) P Q := h
theorem Ends.err {α : Type} {e : Err} {n : Nat} {P : α → Nat → Prop} {Q : Nat → Prop} (h : Q n) :
    Ends (steps (.err e) n) P Q := h
theorem Ends.panic {α : Type} {n : Nat} {P : α → Nat → Prop} {Q : Nat → Prop} (h : Q n) :
    Ends (steps .panic n) P Q := h

theorem Ends.imp {α : Type} {x : Counted α} {P P' : α → Nat → Prop} {Q Q' : Nat → Prop} (h : Ends x P Q)
    (hp : ∀ a n, P a n → P' a n) (hq : ∀ n, Q n → Q' n) : Ends x P' Q' := by
  obtain ⟨r, n⟩ := x
  cases r with
  | ok a => exact hp a n h
  | err e => exact hq n h
  | panic => exact hq n h
  | diverge => trivial

/-- The steps of an `eof` and a `peek`. -/
def Lex.ahead (l : Lex) : Nat := l.eofSteps + l.consumeSteps

/-- A token was read from `l` up to `l'`. -/
def Took (l : Lex) (p : Token × Lex) : Prop :=
  blen p.2.rest < blen l.rest ∧ blen l.rest ≤ l.consumeSteps + blen p.2.rest ∧
    l.consumeSteps + blen p.2.rest ≤ blen l.rest + 3 ∧ blen p.1.value + blen p.2.rest ≤ blen l.rest

theorem ends_consume (l : Lex) : Ends l.consumeCounted (fun p n => n = l.consumeSteps ∧ Took l p)
    fun n => n = l.consumeSteps ∧ n ≤ blen l.rest + 7 := by
  have h := consume_bounds l
  unfold Lex.consumeCounted steps Ends
  cases hl : l.consume <;> rw [hl] at h
  · exact ⟨rfl, h⟩
  · exact ⟨rfl, h⟩
  · exact ⟨rfl, h⟩
  · trivial

theorem ends_peek (l : Lex) : Ends l.peekCounted (fun t n => n = l.consumeSteps ∧ ∃ l', Took l (t, l'))
    fun n => n = l.consumeSteps ∧ n ≤ blen l.rest + 7 := by
  have h := consume_bounds l
  unfold Lex.peekCounted Lex.peek steps Ends
  cases hl : l.consume <;> rw [hl] at h
  · exact ⟨rfl, _, h⟩
  · exact ⟨rfl, h⟩
  · exact ⟨rfl, h⟩
  · trivial

theorem ends_eof (l : Lex) {P : Bool → Nat → Prop} {Q : Nat → Prop} (h : P l.eof l.eofSteps) : Ends l.eofCounted P Q := h

theorem ends_atomic (u : Unescape) (l : Lex) : Ends (parseAtomicCounted u l)
    (fun p n => (∃ t, Took l (t, p.2)) ∧ l.consumeSteps ≤ n ∧ n + blen p.2.rest ≤ l.consumeSteps + blen l.rest)
    fun n => n ≤ 2 * blen l.rest + 7 := by
  unfold parseAtomicCounted
  refine (ends_consume l).bind (fun n h => by omega) ?_
  rintro ⟨t, l'⟩ n ⟨rfl, h⟩
  have h' := h
  unfold Took at h'
  dsimp only at h' ⊢
  cases t.kind
  · exact Ends.panic (by omega)
  · exact Ends.panic (by omega)
  · exact ⟨⟨t, h⟩, by omega, by dsimp only [steps]; omega⟩
  · unfold escapeString
    cases u t.value
    · exact Ends.err (by omega)
    · exact ⟨⟨t, h⟩, by omega, by dsimp only [steps]; omega⟩
  · exact ⟨⟨t, h⟩, by omega, by dsimp only [steps]; omega⟩
  · exact ⟨⟨t, h⟩, by omega, by dsimp only [steps]; omega⟩

/-- A result was reached after `n` steps, and `pre` more would have been possible. -/
def Spent (pre R R' n : Nat) : Prop := n + pre + 20 * R' ≤ 20 * R ∧ R ≤ n + R'

theorem ends_reader (u : Unescape) (fuel : Nat) :
    (∀ l, Ends (parseExprCounted u fuel l) (fun p n => Spent l.ahead (blen l.rest) (blen p.2.rest) n)
      fun n => n + l.ahead ≤ 20 * blen l.rest + 20) ∧
    (∀ l, (∃ p, Took l p) → Ends (parseKeywordCounted u fuel l)
      (fun p n => Spent (l.ahead + l.consumeSteps) (blen l.rest) (blen p.2.rest) n)
      fun n => n + l.ahead + l.consumeSteps ≤ 20 * blen l.rest + 20) ∧
    (∀ l, (∃ p, Took l p) → Ends (parseListCounted u fuel l)
      (fun p n => Spent (l.ahead + l.consumeSteps) (blen l.rest) (blen p.2.rest) n)
      fun n => n + l.ahead + l.consumeSteps ≤ 20 * blen l.rest + 20) ∧
    (∀ l, Ends (parseElemsCounted u fuel l)
      (fun p n => (p.2.1.isSome = true → Spent 0 (blen l.rest) (blen p.2.2.rest) n) ∧ n ≤ 20 * blen l.rest + 20)
      fun n => n ≤ 20 * blen l.rest + 20) := by
  induction fuel with
  | zero => refine ⟨?_, ?_, ?_, ?_⟩ <;> intros <;> simp only [parseExprCounted, parseKeywordCounted, parseListCounted, parseElemsCounted, steps, Ends]
  | succ fuel ih =>
    obtain ⟨i1, i2, i3, i4⟩ := ih
    refine ⟨?_, ?_, ?_, ?_⟩ <;> intro l
    · rw [parseExprCounted]
      have he := eofSteps_max l
      refine (ends_peek l).bind (fun n h => by unfold Lex.ahead; omega) ?_
      rintro t n ⟨rfl, l', h⟩
      have h' := h
      unfold Took at h'
      have he' := eofSteps_le l
      have atom : ∀ mk : Node → PNode, Ends (do let (n, l) ← parseAtomicCounted u l; steps (.ok (mk n, l)) 0)
          (fun p n => Spent l.ahead (blen l.rest) (blen p.2.rest) (l.consumeSteps + n))
          fun n => l.consumeSteps + n + l.ahead ≤ 20 * blen l.rest + 20 := by
        intro mk
        refine (ends_atomic u l).bind (fun n h => by unfold Lex.ahead; dsimp only at h'; omega) ?_
        rintro ⟨x, l2⟩ n ⟨⟨t2, h2⟩, h3, h4⟩
        unfold Took at h2
        refine Ends.ok ?_
        unfold Spent Lex.ahead
        dsimp only at *
        omega
      cases t.kind with
      | lparen => exact (i3 l ⟨_, h⟩).imp (fun p n hn => by unfold Spent at *; omega) fun n hn => by omega
      | rparen => exact Ends.err (by unfold Lex.ahead; dsimp only at h'; omega)
      | keyword => exact (i2 l ⟨_, h⟩).imp (fun p n hn => by unfold Spent at *; omega) fun n hn => by omega
      | symbol => exact atom _
      | string => exact atom _
      | number => exact atom _
    · rintro ⟨p0, h0⟩
      rw [parseKeywordCounted]
      unfold Took at h0
      have he := eofSteps_le l
      refine (ends_consume l).bind (fun n h => by unfold Lex.ahead; omega) ?_
      rintro ⟨t, l1⟩ n ⟨rfl, h⟩
      unfold Took at h
      have he1 := eofSteps_max l1
      dsimp only at h ⊢
      split
      · refine Ends.bind (Q := fun _ => False) (ends_eof l1 (P := fun _ n => n = l1.eofSteps) rfl) (fun n h => h.elim) ?_
        rintro done n rfl
        split
        · exact Ends.err (by unfold Lex.ahead; omega)
        · refine (ends_peek l1).bind (fun n h => by unfold Lex.ahead; omega) ?_
          rintro t' n ⟨rfl, l2, h2⟩
          split
          · unfold Took at h2
            exact Ends.err (by unfold Lex.ahead; dsimp only at h2; omega)
          · refine (i1 l1).bind (fun n h => by unfold Lex.ahead at *; omega) ?_
            rintro ⟨v, l3⟩ n h3
            refine Ends.ok ?_
            unfold Spent Lex.ahead at *
            dsimp only at *
            omega
      · exact Ends.panic (by unfold Lex.ahead; omega)
    · rintro ⟨p0, h0⟩
      rw [parseListCounted]
      unfold Took at h0
      have he := eofSteps_le l
      refine (ends_consume l).bind (fun n h => by unfold Lex.ahead; omega) ?_
      rintro ⟨t, l1⟩ n ⟨rfl, h⟩
      unfold Took at h
      dsimp only at h ⊢
      split
      · refine (i4 l1).bind (fun n h => by unfold Lex.ahead; omega) ?_
        rintro ⟨ns, r, l2⟩ n h2
        cases r with
        | none => exact Ends.err (by have := h2.2; unfold Lex.ahead; omega)
        | some e =>
          have := h2.1 rfl
          refine Ends.ok ?_
          unfold Spent Lex.ahead at *
          dsimp only at *
          omega
      · exact Ends.panic (by unfold Lex.ahead; omega)
    · rw [parseElemsCounted]
      have he := eofSteps_max l
      have he' := eofSteps_le l
      refine Ends.bind (Q := fun _ => False) (ends_eof l (P := fun _ n => n = l.eofSteps) rfl) (fun n h => h.elim) ?_
      rintro done n rfl
      split
      · exact Ends.ok ⟨nofun, by omega⟩
      · refine (ends_peek l).bind (fun n h => by omega) ?_
        rintro t n ⟨rfl, l1, h1⟩
        unfold Took at h1
        dsimp only at h1
        split
        · refine (ends_consume l).bind (fun n h => by omega) ?_
          rintro ⟨e, l2⟩ n ⟨rfl, h2⟩
          unfold Took at h2
          dsimp only at h2
          refine Ends.ok ⟨fun _ => ?_, by omega⟩
          unfold Spent
          dsimp only
          omega
        · refine (i1 l).bind (fun n h => by unfold Lex.ahead at *; omega) ?_
          rintro ⟨x, l2⟩ n h2
          unfold Spent Lex.ahead at h2
          dsimp only at h2 ⊢
          refine (i4 l2).bind (fun n h => by omega) ?_
          rintro ⟨ns, r, l3⟩ m h3
          refine Ends.ok ⟨fun hr => ?_, ?_⟩
          · have := h3.1 hr
            unfold Spent at *
            dsimp only at *
            omega
          · have := h3.2
            omega

theorem ends_root (u : Unescape) : ∀ fuel l, Ends (parseRootCounted u fuel l)
    (fun _ n => n ≤ 20 * blen l.rest + 20 ∧ blen l.rest ≤ n) fun n => n ≤ 20 * blen l.rest + 20
  | 0, _ => trivial
  | fuel + 1, l => by
    rw [parseRootCounted]
    have he := eofSteps_max l
    refine Ends.bind (Q := fun _ => False) (ends_eof l (P := fun b n => n = l.eofSteps ∧ b = l.eof) ⟨rfl, rfl⟩) (fun n h => h.elim) ?_
    rintro done n ⟨rfl, hd⟩
    split
    · rename_i h
      rw [h] at hd
      have hw := (wsSteps_bounds l.rest false).1
      have hz : wsRest false l.rest = [] := by
        rw [← consumeWs_rest]
        unfold Lex.eof Lex.peekChar at hd
        cases hr : l.consumeWs.2.rest with
        | nil => rfl
        | cons c cs => rw [hr] at hd; simp at hd
      rw [hz, blen_nil] at hw
      exact Ends.ok ⟨by omega, by unfold Lex.eofSteps; omega⟩
    · refine ((ends_reader u fuel).1 l).bind (fun n h => by unfold Lex.ahead at h; omega) ?_
      rintro ⟨x, l2⟩ n h2
      unfold Spent Lex.ahead at h2
      dsimp only at h2 ⊢
      refine (ends_root u fuel l2).bind (fun n h => by omega) ?_
      intro ns m h3
      exact Ends.ok ⟨by omega, by omega⟩

end Seam
