import Verif.Lemmas.Tokens

/-! Helper lemmas: the parser follows the grammar. -/

namespace Seam
open Spec

theorem escapeSanitize_eq (s : Str) : escapeSanitize s = noBackslash s := by
  induction s with
  | nil => rfl
  | cons c s ih =>
    unfold escapeSanitize noBackslash
    by_cases h : c = '\\'
    · simp [h, ih, noBackslash]
    · simp [h, ih, noBackslash]

/-! ### Facts about the grammar -/

theorem expr_ne_nil {u : Unescape} {ts : List Token} {n : PNode} (h : Expr u ts n) : ts ≠ [] := by
  cases h <;> simp

theorem expr_head {u : Unescape} {ts : List Token} {n : PNode} (h : Expr u ts n) :
    ∃ t ts', ts = t :: ts' ∧ t.kind ≠ .rparen := by
  cases h with
  | symbol t h => exact ⟨t, [], rfl, by rw [h]; decide⟩
  | number t h => exact ⟨t, [], rfl, by rw [h]; decide⟩
  | string t v h _ => exact ⟨t, [], rfl, by rw [h]; decide⟩
  | list o c ts ns h _ _ => exact ⟨o, ts ++ [c], rfl, by rw [h]; decide⟩
  | attr k ts n h _ => exact ⟨k, ts, rfl, by rw [h]; decide⟩

theorem expr_pos {u : Unescape} {ts : List Token} {n : PNode} (h : Expr u ts n) : 0 < ts.length :=
  List.length_pos_iff.2 (expr_ne_nil h)

/-! ### Peeking -/

theorem peek_token {b : Buf} {l : Lex} {t : Token} {ts : List Token} {e : Ending} (h : At b l (t :: ts) e) :
    l.peek = .ok t := by
  obtain ⟨_, l', h2, _⟩ := h.token
  simp [Lex.peek, h2]

theorem peek_unclosed {b : Buf} {l : Lex} {q : Str} {s : Site} (h : At b l [] (.unclosed q s)) :
    l.peek = .err (unclosedStringErr q s) := by
  simp [Lex.peek, h.unclosed.2]

theorem peek_cut {b : Buf} {l : Lex} (h : At b l [] .cut) : l.peek = .diverge := by
  simp [Lex.peek, h.cut.2]

theorem parseAtomic_symbolic {u : Unescape} {b : Buf} {l : Lex} {t : Token} {ts : List Token} {e : Ending}
    (h : At b l (t :: ts) e) (hk : t.kind = .symbol ∨ t.kind = .number) :
    ∃ l', parseAtomic u l = .ok ({ value := noBackslash t.value, site := t.site, lw := t.lw }, l') ∧ At b l' ts e := by
  obtain ⟨_, l', h2, h3⟩ := h.token
  refine ⟨l', ?_, h3⟩
  rcases hk with hk | hk <;> simp [parseAtomic, h2, hk, escapeSanitize_eq]

theorem parseAtomic_string {u : Unescape} {b : Buf} {l : Lex} {t : Token} {ts : List Token} {e : Ending}
    (h : At b l (t :: ts) e) (hk : t.kind = .string) :
    (∀ v, u t.value = some v →
      ∃ l', parseAtomic u l = .ok ({ value := v, site := t.site, lw := t.lw }, l') ∧ At b l' ts e) ∧
    (u t.value = none → parseAtomic u l = .err (badEscapeErr t)) := by
  obtain ⟨_, l', h2, h3⟩ := h.token
  constructor
  · intro v hv
    exact ⟨l', by simp [parseAtomic, h2, hk, escapeString, hv], h3⟩
  · intro hv
    simp [parseAtomic, h2, hk, escapeString, hv, badEscapeErr]

/-! ### Soundness: what the parser returns follows the grammar -/

/-- What holds of an outcome of `parseExpr` in front of `toks`. -/
def OutExpr (u : Unescape) (b : Buf) (toks : List Token) (e : Ending) : Res (PNode × Lex) → Prop
  | .ok (n, l') => ∃ ts ts', toks = ts ++ ts' ∧ Expr u ts n ∧ At b l' ts' e
  | .err x => FaultExpr u toks e x
  | .panic => False
  | .diverge => e = .cut ∧ CutExpr u toks

/-- What holds of an outcome of `parseElems` inside the list opened by `o`. -/
def OutElems (u : Unescape) (b : Buf) (o : Token) (toks : List Token) (e : Ending) :
    Res (List PNode × Option Token × Lex) → Prop
  | .ok (ns, some c, l') => ∃ ts ts', toks = ts ++ c :: ts' ∧ Exprs u ts ns ∧ c.kind = .rparen ∧ At b l' ts' e
  | .ok (_, none, _) => FaultList u o toks e (unclosedListErr o)
  | .err x => FaultList u o toks e x
  | .panic => False
  | .diverge => e = .cut ∧ CutList u toks

theorem parse_sound (u : Unescape) (b : Buf) (fuel : Nat) :
    (∀ l toks e, At b l toks e → ¬ (toks = [] ∧ e = .eof) → 3 * toks.length + 1 ≤ fuel →
      OutExpr u b toks e (parseExpr u fuel l)) ∧
    (∀ l k toks e, At b l (k :: toks) e → k.kind = .keyword → 3 * toks.length + 3 ≤ fuel →
      OutExpr u b (k :: toks) e (parseKeyword u fuel l)) ∧
    (∀ l o toks e, At b l (o :: toks) e → o.kind = .lparen → 3 * toks.length + 3 ≤ fuel →
      OutExpr u b (o :: toks) e (parseList u fuel l)) ∧
    (∀ l o toks e, At b l toks e → 3 * toks.length + 2 ≤ fuel →
      OutElems u b o toks e (parseElems u fuel l)) := by
  induction fuel with
  | zero =>
    refine ⟨?_, ?_, ?_, ?_⟩ <;> intros <;> omega
  | succ fuel ih =>
    obtain ⟨ihE, ihK, ihL, ihS⟩ := ih
    refine ⟨?_, ?_, ?_, ?_⟩
    · intro l toks e h hne hf
      cases toks with
      | nil =>
        cases e with
        | eof => exact absurd ⟨rfl, rfl⟩ hne
        | unclosed q s =>
          simp only [parseExpr, peek_unclosed h, Res.err_bind]
          exact .unclosed q s
        | cut =>
          simp only [parseExpr, peek_cut h, Res.diverge_bind]
          exact ⟨rfl, .here⟩
      | cons t ts =>
        simp only [parseExpr, peek_token h, Res.ok_bind]
        simp only [List.length_cons] at hf
        cases hk : t.kind with
        | lparen => exact ihL l t ts e h hk (by omega)
        | rparen => exact .stray t ts e hk
        | keyword => exact ihK l t ts e h hk (by omega)
        | symbol =>
          obtain ⟨l', h1, h2⟩ := parseAtomic_symbolic (u := u) h (Or.inl hk)
          simp only [h1, Res.ok_bind]
          exact ⟨[t], ts, rfl, .symbol t hk, h2⟩
        | number =>
          obtain ⟨l', h1, h2⟩ := parseAtomic_symbolic (u := u) h (Or.inr hk)
          simp only [h1, Res.ok_bind]
          exact ⟨[t], ts, rfl, .number t hk, h2⟩
        | string =>
          obtain ⟨h1, h2⟩ := parseAtomic_string (u := u) h hk
          cases hv : u t.value with
          | none =>
            simp only [h2 hv, Res.err_bind]
            exact .badEscape t ts e hk hv
          | some v =>
            obtain ⟨l', h3, h4⟩ := h1 v hv
            simp only [h3, Res.ok_bind]
            exact ⟨[t], ts, rfl, .string t v hk hv, h4⟩
    · intro l k toks e h hk hf
      obtain ⟨_, l', h2, h3⟩ := h.token
      simp only [parseKeyword, h2, Res.ok_bind, hk, if_true]
      cases toks with
      | nil =>
        cases e with
        | eof =>
          simp only [h3.eof, if_true]
          exact .noValueEof k hk
        | unclosed q s =>
          simp only [h3.unclosed.1, Bool.false_eq_true, if_false, peek_unclosed h3, Res.err_bind]
          exact .value k [] _ _ hk (by simp) (.unclosed q s)
        | cut =>
          simp only [h3.cut.1, Bool.false_eq_true, if_false, peek_cut h3, Res.diverge_bind]
          exact ⟨rfl, .value k [] hk .here⟩
      | cons t ts =>
        simp only [h3.token.1, Bool.false_eq_true, if_false, peek_token h3, Res.ok_bind]
        by_cases hr : t.kind = .rparen
        · simp only [hr, if_true]
          exact .noValue k t ts e hk hr
        · simp only [hr, if_false]
          have := ihE l' (t :: ts) e h3 (by simp) (by omega)
          revert this
          cases parseExpr u fuel l' with
          | ok p =>
            obtain ⟨n, l''⟩ := p
            rintro ⟨us, us', e1, e2, e3⟩
            exact ⟨k :: us, us', by simp [e1], .attr k us n hk e2, e3⟩
          | err x =>
            intro hx
            exact .value k (t :: ts) e x hk (by simpa using hr) hx
          | panic => exact id
          | diverge =>
            rintro ⟨h1, h2⟩
            exact ⟨h1, .value k (t :: ts) hk h2⟩
    · intro l o toks e h hk hf
      obtain ⟨_, l', h2, h3⟩ := h.token
      simp only [parseList, h2, Res.ok_bind, hk, if_true]
      have := ihS l' o toks e h3 (by omega)
      revert this
      cases parseElems u fuel l' with
      | ok p =>
        obtain ⟨ns, r, l''⟩ := p
        cases r with
        | none =>
          intro h
          exact .list o toks e _ hk h
        | some c =>
          rintro ⟨ts, ts', e1, e2, e3, e4⟩
          exact ⟨o :: (ts ++ [c]), ts', by simp [e1], .list o c ts ns hk e3 e2, e4⟩
      | err x => intro hx; exact .list o toks e x hk hx
      | panic => exact id
      | diverge => rintro ⟨h1, h2⟩; exact ⟨h1, .list o toks hk h2⟩
    · intro l o toks e h hf
      cases toks with
      | nil =>
        cases e with
        | eof =>
          simp only [parseElems, h.eof, if_true]
          exact .eof o
        | unclosed q s =>
          simp only [parseElems, h.unclosed.1, Bool.false_eq_true, if_false, peek_unclosed h, Res.err_bind]
          exact .here o [] _ _ (by simp) (.unclosed q s)
        | cut =>
          simp only [parseElems, h.cut.1, Bool.false_eq_true, if_false, peek_cut h, Res.diverge_bind]
          exact ⟨rfl, .here [] .here⟩
      | cons t ts =>
        simp only [parseElems, h.token.1, Bool.false_eq_true, if_false, peek_token h, Res.ok_bind]
        by_cases hr : t.kind = .rparen
        · obtain ⟨_, l', h2, h3⟩ := h.token
          simp only [hr, if_true, h2, Res.ok_bind]
          exact ⟨[], ts, rfl, .nil, hr, h3⟩
        · simp only [hr, if_false]
          have := ihE l (t :: ts) e h (by simp) (by omega)
          revert this
          cases parseExpr u fuel l with
          | ok p =>
            obtain ⟨n, l'⟩ := p
            rintro ⟨us, us', e1, e2, e3⟩
            have hlen : us.length + us'.length = ts.length + 1 := by
              have := congrArg List.length e1
              simp at this; omega
            have hpos := expr_pos e2
            simp only [List.length_cons] at hf
            have := ihS l' o us' e e3 (by omega)
            revert this
            simp only [Res.ok_bind]
            cases parseElems u fuel l' with
            | ok p =>
              obtain ⟨ns, r, l''⟩ := p
              cases r with
              | none =>
                intro h
                simp only [Res.ok_bind]
                show FaultList u o (t :: ts) e _
                rw [e1]
                exact .later o us n us' e _ e2 h
              | some c =>
                rintro ⟨vs, vs', f1, f2, f3, f4⟩
                exact ⟨us ++ vs, vs', by rw [e1, f1]; simp, .cons us n vs ns e2 f2, f3, f4⟩
            | err x =>
              intro hx
              show FaultList u o (t :: ts) e _
              rw [e1]
              exact .later o us n us' e x e2 hx
            | panic => exact id
            | diverge =>
              rintro ⟨h1, h2⟩
              refine ⟨h1, ?_⟩
              rw [e1]
              exact .later us n us' e2 h2
          | err x =>
            intro hx
            exact .here o (t :: ts) e x (by simpa using hr) hx
          | panic => exact id
          | diverge =>
            rintro ⟨h1, h2⟩
            exact ⟨h1, .here _ h2⟩

/-- What holds of an outcome of `parseRoot`. -/
def OutRoot (u : Unescape) (toks : List Token) (e : Ending) : Res (List PNode) → Prop
  | .ok ns => e = .eof ∧ Exprs u toks ns
  | .err x => Fault u toks e x
  | .panic => False
  | .diverge => e = .cut ∧ CutList u toks

theorem parseRoot_sound (u : Unescape) (b : Buf) (fuel : Nat) :
    ∀ l toks e, At b l toks e → 3 * toks.length + 2 ≤ fuel → OutRoot u toks e (parseRoot u fuel l) := by
  induction fuel with
  | zero => intros; omega
  | succ fuel ih =>
    intro l toks e h hf
    by_cases hne : toks = [] ∧ e = .eof
    · obtain ⟨rfl, rfl⟩ := hne
      simp only [parseRoot, h.eof, if_true]
      exact ⟨rfl, .nil⟩
    · have heof : l.eof = false := by
        cases toks with
        | nil =>
          cases e with
          | eof => exact absurd ⟨rfl, rfl⟩ hne
          | unclosed q s => exact h.unclosed.1
          | cut => exact h.cut.1
        | cons t ts => exact h.token.1
      simp only [parseRoot, heof, Bool.false_eq_true, if_false]
      have := (parse_sound u b fuel).1 l toks e h hne (by omega)
      revert this
      cases parseExpr u fuel l with
      | ok p =>
        obtain ⟨n, l'⟩ := p
        rintro ⟨us, us', rfl, e2, e3⟩
        have hpos := expr_pos e2
        simp only [List.length_append] at hf
        have := ih l' us' e e3 (by omega)
        revert this
        simp only [Res.ok_bind]
        cases parseRoot u fuel l' with
        | ok ns => rintro ⟨h1, h2⟩; exact ⟨h1, .cons us n us' ns e2 h2⟩
        | err x =>
          intro hx
          show Fault u (us ++ us') e x
          cases hx with
          | mk ts ns ts' _ _ h1 h2 =>
            rw [← List.append_assoc]
            exact .mk (us ++ ts) (n :: ns) ts' e x (.cons us n ts ns e2 h1) h2
        | panic => exact id
        | diverge => rintro ⟨h1, h2⟩; exact ⟨h1, .later us n us' e2 h2⟩
      | err x => intro hx; exact .mk [] [] toks e x .nil hx
      | panic => exact id
      | diverge => rintro ⟨h1, h2⟩; exact ⟨h1, .here _ h2⟩

theorem parse_out (u : Unescape) (b : Buf) {toks : List Token} {e : Ending} (h : TokensOf b toks e) :
    OutRoot u toks e (parse u b) := by
  have hlen := tokens_length h
  exact parseRoot_sound u b _ _ _ _ (at_new h) (by unfold parseFuel; omega)

/-! ### The grammar is unambiguous -/

mutual
theorem expr_unique {u : Unescape} : ∀ {ts : List Token} {n : PNode} {ts' : List Token} {n' : PNode}
    {r r' : List Token}, Expr u ts n → Expr u ts' n' → ts ++ r = ts' ++ r' → ts = ts' ∧ n = n'
  | _, _, _, _, r, r', .symbol t h, h', e => by
    obtain ⟨t', us, rfl, _⟩ := expr_head h'
    simp only [List.cons_append, List.nil_append, List.cons.injEq] at e
    obtain ⟨rfl, e⟩ := e
    cases h' with
    | symbol => exact ⟨rfl, rfl⟩
    | number _ h' => rw [h] at h'; cases h'
    | string _ _ h' => rw [h] at h'; cases h'
    | list _ _ _ _ h' => rw [h] at h'; cases h'
    | attr _ _ _ h' => rw [h] at h'; cases h'
  | _, _, _, _, r, r', .number t h, h', e => by
    obtain ⟨t', us, rfl, _⟩ := expr_head h'
    simp only [List.cons_append, List.nil_append, List.cons.injEq] at e
    obtain ⟨rfl, e⟩ := e
    cases h' with
    | number => exact ⟨rfl, rfl⟩
    | symbol _ h' => rw [h] at h'; cases h'
    | string _ _ h' => rw [h] at h'; cases h'
    | list _ _ _ _ h' => rw [h] at h'; cases h'
    | attr _ _ _ h' => rw [h] at h'; cases h'
  | _, _, _, _, r, r', .string t v h hv, h', e => by
    obtain ⟨t', us, rfl, _⟩ := expr_head h'
    simp only [List.cons_append, List.nil_append, List.cons.injEq] at e
    obtain ⟨rfl, e⟩ := e
    cases h' with
    | string _ v' _ hv' => rw [hv] at hv'; cases hv'; exact ⟨rfl, rfl⟩
    | symbol _ h' => rw [h] at h'; cases h'
    | number _ h' => rw [h] at h'; cases h'
    | list _ _ _ _ h' => rw [h] at h'; cases h'
    | attr _ _ _ h' => rw [h] at h'; cases h'
  | _, _, _, _, r, r', .list o c ts ns h hc hs, h', e => by
    obtain ⟨t', us, rfl, _⟩ := expr_head h'
    simp only [List.cons_append, List.cons.injEq] at e
    obtain ⟨rfl, e⟩ := e
    cases h' with
    | list _ c' ts' ns' _ hc' hs' =>
      have e' : ts ++ c :: r = ts' ++ c' :: r' := by simpa using e
      obtain ⟨rfl, rfl, hr⟩ := exprs_unique hs hs' e' (by simp [hc]) (by simp [hc'])
      simp only [List.cons.injEq] at hr
      obtain ⟨rfl, rfl⟩ := hr
      exact ⟨rfl, rfl⟩
    | symbol _ h' => rw [h] at h'; cases h'
    | number _ h' => rw [h] at h'; cases h'
    | string _ _ h' => rw [h] at h'; cases h'
    | attr _ _ _ h' => rw [h] at h'; cases h'
  | _, _, _, _, r, r', .attr k ts n h hn, h', e => by
    obtain ⟨t', us, rfl, _⟩ := expr_head h'
    simp only [List.cons_append, List.cons.injEq] at e
    obtain ⟨rfl, e⟩ := e
    cases h' with
    | attr _ _ n' _ hn' =>
      obtain ⟨rfl, rfl⟩ := expr_unique hn hn' e
      exact ⟨rfl, rfl⟩
    | symbol _ h' => rw [h] at h'; cases h'
    | number _ h' => rw [h] at h'; cases h'
    | string _ _ h' => rw [h] at h'; cases h'
    | list _ _ _ _ h' => rw [h] at h'; cases h'
theorem exprs_unique {u : Unescape} : ∀ {ts : List Token} {ns : List PNode} {ts' : List Token} {ns' : List PNode}
    {r r' : List Token}, Exprs u ts ns → Exprs u ts' ns' → ts ++ r = ts' ++ r' →
    (∀ t ∈ r.head?, t.kind = .rparen) → (∀ t ∈ r'.head?, t.kind = .rparen) → ts = ts' ∧ ns = ns' ∧ r = r'
  | _, _, _, _, r, r', .nil, h', e, hr, hr' => by
    cases h' with
    | nil => exact ⟨rfl, rfl, e⟩
    | cons us n us' ns hn hs =>
      obtain ⟨t, vs, rfl, ht⟩ := expr_head hn
      simp only [List.nil_append] at e
      rw [e] at hr
      exact absurd (hr t (by simp)) ht
  | _, _, _, _, r, r', .cons us n us' ns hn hs, h', e, hr, hr' => by
    cases h' with
    | nil =>
      obtain ⟨t, vs, rfl, ht⟩ := expr_head hn
      simp only [List.nil_append] at e
      rw [← e] at hr'
      exact absurd (hr' t (by simp)) ht
    | cons vs m vs' ms hm hs' =>
      rw [List.append_assoc, List.append_assoc] at e
      obtain ⟨rfl, rfl⟩ := expr_unique hn hm e
      rw [List.append_cancel_left_eq] at e
      obtain ⟨rfl, rfl, hr⟩ := exprs_unique hs hs' e hr hr'
      exact ⟨rfl, rfl, hr⟩
end

/-! ### Completeness: the parser finds whatever the grammar describes -/

mutual
theorem expr_complete {u : Unescape} {b : Buf} : ∀ {ts : List Token} {n : PNode}, Expr u ts n →
    ∀ (fuel : Nat) (l : Lex) (ts' : List Token) (e : Ending), At b l (ts ++ ts') e →
    3 * (ts.length + ts'.length) + 1 ≤ fuel → ∃ l', parseExpr u fuel l = .ok (n, l') ∧ At b l' ts' e
  | _, _, .symbol t hk, fuel + 1, l, ts', e, h, _ => by
    obtain ⟨l', h1, h2⟩ := parseAtomic_symbolic (u := u) h (Or.inl hk)
    exact ⟨l', by simp [parseExpr, peek_token h, hk, h1], h2⟩
  | _, _, .number t hk, fuel + 1, l, ts', e, h, _ => by
    obtain ⟨l', h1, h2⟩ := parseAtomic_symbolic (u := u) h (Or.inr hk)
    exact ⟨l', by simp [parseExpr, peek_token h, hk, h1], h2⟩
  | _, _, .string t v hk hv, fuel + 1, l, ts', e, h, _ => by
    obtain ⟨l', h1, h2⟩ := (parseAtomic_string (u := u) h hk).1 v hv
    exact ⟨l', by simp [parseExpr, peek_token h, hk, h1], h2⟩
  | _, _, .list o c ts ns ho hc hs, 0, l, ts', e, h, hf => by simp at hf
  | _, _, .list o c ts ns ho hc hs, 1, l, ts', e, h, hf => by simp at hf; omega
  | _, _, .list o c ts ns ho hc hs, fuel + 2, l, ts', e, h, hf => by
    have h' : At b l (o :: (ts ++ c :: ts')) e := by simpa using h
    obtain ⟨_, l1, h2, h3⟩ := h'.token
    simp only [List.length_cons, List.length_append, List.length_nil] at hf
    obtain ⟨l2, h4, h5⟩ := exprs_complete hs fuel l1 c ts' e h3 hc (by omega)
    refine ⟨l2, ?_, h5⟩
    simp [parseExpr, peek_token h', ho, parseList, h2, h4]
  | _, _, .attr k ts n hk hn, 0, l, ts', e, h, hf => by simp at hf
  | _, _, .attr k ts n hk hn, 1, l, ts', e, h, hf => by simp at hf; omega
  | _, _, .attr k ts n hk hn, fuel + 2, l, ts', e, h, hf => by
    have h' : At b l (k :: (ts ++ ts')) e := by simpa using h
    obtain ⟨_, l1, h2, h3⟩ := h'.token
    simp only [List.length_cons] at hf
    obtain ⟨l2, h4, h5⟩ := expr_complete hn fuel l1 ts' e h3 (by omega)
    refine ⟨l2, ?_, h5⟩
    obtain ⟨t, us, rfl, ht⟩ := expr_head hn
    have h3' : At b l1 (t :: (us ++ ts')) e := by simpa using h3
    simp [parseExpr, peek_token h', hk, parseKeyword, h2, h3'.token.1, peek_token h3', ht, h4]
theorem exprs_complete {u : Unescape} {b : Buf} : ∀ {ts : List Token} {ns : List PNode}, Exprs u ts ns →
    ∀ (fuel : Nat) (l : Lex) (c : Token) (ts' : List Token) (e : Ending), At b l (ts ++ c :: ts') e →
    c.kind = .rparen → 3 * (ts.length + ts'.length) + 5 ≤ fuel →
    ∃ l', parseElems u fuel l = .ok (ns, some c, l') ∧ At b l' ts' e
  | _, _, .nil, fuel + 1, l, c, ts', e, h, hc, _ => by
    have h : At b l (c :: ts') e := h
    obtain ⟨h1, l', h2, h3⟩ := h.token
    exact ⟨l', by simp [parseElems, h1, peek_token h, hc, h2], h3⟩
  | _, _, .cons us n us' ns hn hs, 0, l, c, ts', e, h, hc, hf => by simp at hf
  | _, _, .cons us n us' ns hn hs, fuel + 1, l, c, ts', e, h, hc, hf => by
    have h' : At b l (us ++ (us' ++ c :: ts')) e := by simpa using h
    have hpos := expr_pos hn
    simp only [List.length_append] at hf
    obtain ⟨l1, h1, h2⟩ := expr_complete hn fuel l _ e h' (by simp; omega)
    obtain ⟨l2, h3, h4⟩ := exprs_complete hs fuel l1 c ts' e h2 hc (by omega)
    refine ⟨l2, ?_, h4⟩
    obtain ⟨t, vs, rfl, ht⟩ := expr_head hn
    have h'' : At b l (t :: (vs ++ (us' ++ c :: ts'))) e := by simpa using h'
    simp [parseElems, h''.token.1, peek_token h'', ht, h1, h3]
end

mutual
theorem fault_complete {u : Unescape} {b : Buf} : ∀ {ts : List Token} {e : Ending} {x : Err}, FaultExpr u ts e x →
    ∀ (fuel : Nat) (l : Lex), At b l ts e → 3 * ts.length + 1 ≤ fuel → parseExpr u fuel l = .err x
  | _, _, _, .stray t ts e hk, fuel + 1, l, h, _ => by
    simp [parseExpr, peek_token h, hk, strayErr, parseErr]
  | _, _, _, .unclosed q s, fuel + 1, l, h, _ => by
    simp [parseExpr, peek_unclosed h]
  | _, _, _, .badEscape t ts e hk hv, fuel + 1, l, h, _ => by
    simp [parseExpr, peek_token h, hk, (parseAtomic_string (u := u) h hk).2 hv]
  | _, _, _, .noValueEof k hk, 0, l, h, hf => by simp at hf
  | _, _, _, .noValueEof k hk, 1, l, h, hf => by simp at hf
  | _, _, _, .noValueEof k hk, fuel + 2, l, h, hf => by
    obtain ⟨_, l1, h2, h3⟩ := h.token
    simp [parseExpr, peek_token h, hk, parseKeyword, h2, h3.eof, noValueErr, parseErr]
  | _, _, _, .noValue k t ts e hk ht, 0, l, h, hf => by simp at hf
  | _, _, _, .noValue k t ts e hk ht, 1, l, h, hf => by simp at hf
  | _, _, _, .noValue k t ts e hk ht, fuel + 2, l, h, hf => by
    obtain ⟨_, l1, h2, h3⟩ := h.token
    simp [parseExpr, peek_token h, hk, parseKeyword, h2, h3.token.1, peek_token h3, ht, noValueErr, parseErr]
  | _, _, _, .value k ts e x hk ht hx, 0, l, h, hf => by simp at hf
  | _, _, _, .value k ts e x hk ht hx, 1, l, h, hf => by simp at hf
  | _, _, _, .value k ts e x hk ht hx, fuel + 2, l, h, hf => by
    obtain ⟨_, l1, h2, h3⟩ := h.token
    simp only [List.length_cons] at hf
    have := fault_complete hx fuel l1 h3 (by omega)
    cases ts with
    | nil =>
      cases e with
      | eof => cases hx
      | unclosed q s =>
        have hx' : x = unclosedStringErr q s := by cases hx; rfl
        simp [parseExpr, peek_token h, hk, parseKeyword, h2, h3.unclosed.1, peek_unclosed h3, hx']
      | cut => cases hx
    | cons t ts =>
      have ht' : t.kind ≠ .rparen := ht t (by simp)
      simp [parseExpr, peek_token h, hk, parseKeyword, h2, h3.token.1, peek_token h3, ht', this]
  | _, _, _, .list o ts e x ho hx, 0, l, h, hf => by simp at hf
  | _, _, _, .list o ts e x ho hx, 1, l, h, hf => by simp at hf
  | _, _, _, .list o ts e x ho hx, fuel + 2, l, h, hf => by
    obtain ⟨_, l1, h2, h3⟩ := h.token
    simp only [List.length_cons] at hf
    rcases faultList_complete hx fuel l1 h3 (by omega) with h4 | ⟨rfl, ns, l2, h4⟩
    · simp [parseExpr, peek_token h, ho, parseList, h2, h4]
    · simp [parseExpr, peek_token h, ho, parseList, h2, h4, unclosedListErr, parseErr]
theorem faultList_complete {u : Unescape} {b : Buf} : ∀ {o : Token} {ts : List Token} {e : Ending} {x : Err},
    FaultList u o ts e x → ∀ (fuel : Nat) (l : Lex), At b l ts e → 3 * ts.length + 2 ≤ fuel →
    parseElems u fuel l = .err x ∨ (x = unclosedListErr o ∧ ∃ ns l', parseElems u fuel l = .ok (ns, none, l'))
  | _, _, _, _, .eof o, fuel + 1, l, h, _ => by
    right
    exact ⟨rfl, [], l, by simp [parseElems, h.eof]⟩
  | _, _, _, _, .here o ts e x ht hx, 0, l, h, hf => by simp at hf
  | _, _, _, _, .here o ts e x ht hx, fuel + 1, l, h, hf => by
    left
    have := fault_complete hx fuel l h (by omega)
    cases ts with
    | nil =>
      cases e with
      | eof => cases hx
      | unclosed q s =>
        have hx' : x = unclosedStringErr q s := by cases hx; rfl
        simp [parseElems, h.unclosed.1, peek_unclosed h, hx']
      | cut => cases hx
    | cons t ts =>
      have ht' : t.kind ≠ .rparen := ht t (by simp)
      simp [parseElems, h.token.1, peek_token h, ht', this]
  | _, _, _, _, .later o ts n ts' e x hn hx, 0, l, h, hf => by simp at hf
  | _, _, _, _, .later o ts n ts' e x hn hx, fuel + 1, l, h, hf => by
    have hpos := expr_pos hn
    simp only [List.length_append] at hf
    obtain ⟨l1, h1, h2⟩ := expr_complete hn fuel l _ e h (by omega)
    have h3 := faultList_complete hx fuel l1 h2 (by omega)
    obtain ⟨t, vs, rfl, ht⟩ := expr_head hn
    have h'' : At b l (t :: (vs ++ ts')) e := by simpa using h
    rcases h3 with h3 | ⟨rfl, ns, l2, h3⟩
    · left; simp [parseElems, h''.token.1, peek_token h'', ht, h1, h3]
    · right
      exact ⟨rfl, n :: ns, l2, by simp [parseElems, h''.token.1, peek_token h'', ht, h1, h3]⟩
end

mutual
theorem cut_complete {u : Unescape} {b : Buf} : ∀ {ts : List Token}, CutExpr u ts →
    ∀ (fuel : Nat) (l : Lex), At b l ts .cut → 3 * ts.length + 1 ≤ fuel → parseExpr u fuel l = .diverge
  | _, .here, fuel + 1, l, h, _ => by simp [parseExpr, peek_cut h]
  | _, .value k ts hk hx, 0, l, h, hf => by simp at hf
  | _, .value k ts hk hx, 1, l, h, hf => by simp at hf
  | _, .value k ts hk hx, fuel + 2, l, h, hf => by
    obtain ⟨_, l1, h2, h3⟩ := h.token
    simp only [List.length_cons] at hf
    have := cut_complete hx fuel l1 h3 (by omega)
    cases ts with
    | nil => simp [parseExpr, peek_token h, hk, parseKeyword, h2, h3.cut.1, peek_cut h3]
    | cons t ts =>
      have ht' : t.kind ≠ .rparen := by
        cases hx with
        | value _ _ h => rw [h]; decide
        | list _ _ h => rw [h]; decide
      simp [parseExpr, peek_token h, hk, parseKeyword, h2, h3.token.1, peek_token h3, ht', this]
  | _, .list o ts ho hx, 0, l, h, hf => by simp at hf
  | _, .list o ts ho hx, 1, l, h, hf => by simp at hf
  | _, .list o ts ho hx, fuel + 2, l, h, hf => by
    obtain ⟨_, l1, h2, h3⟩ := h.token
    simp only [List.length_cons] at hf
    have := cutList_complete hx fuel l1 h3 (by omega)
    simp [parseExpr, peek_token h, ho, parseList, h2, this]
theorem cutList_complete {u : Unescape} {b : Buf} : ∀ {ts : List Token},
    CutList u ts → ∀ (fuel : Nat) (l : Lex), At b l ts .cut → 3 * ts.length + 2 ≤ fuel →
    parseElems u fuel l = .diverge
  | _, .here ts hx, 0, l, h, hf => by simp at hf
  | _, .here ts hx, fuel + 1, l, h, hf => by
    have := cut_complete hx fuel l h (by omega)
    cases ts with
    | nil => simp [parseElems, h.cut.1, peek_cut h]
    | cons t ts =>
      have ht' : t.kind ≠ .rparen := by
        cases hx with
        | value _ _ h => rw [h]; decide
        | list _ _ h => rw [h]; decide
      simp [parseElems, h.token.1, peek_token h, ht', this]
  | _, .later ts n ts' hn hx, 0, l, h, hf => by simp at hf
  | _, .later ts n ts' hn hx, fuel + 1, l, h, hf => by
    have hpos := expr_pos hn
    simp only [List.length_append] at hf
    obtain ⟨l1, h1, h2⟩ := expr_complete hn fuel l _ .cut h (by omega)
    have h3 := cutList_complete hx fuel l1 h2 (by omega)
    obtain ⟨t, vs, rfl, ht⟩ := expr_head hn
    have h'' : At b l (t :: (vs ++ ts')) .cut := by simpa using h
    simp [parseElems, h''.token.1, peek_token h'', ht, h1, h3]
end

theorem root_ok {u : Unescape} {b : Buf} : ∀ {ts : List Token} {ns : List PNode}, Exprs u ts ns →
    ∀ (fuel : Nat) (l : Lex), At b l ts .eof → 3 * ts.length + 2 ≤ fuel → parseRoot u fuel l = .ok ns
  | _, _, .nil, fuel + 1, l, h, _ => by simp [parseRoot, h.eof]
  | _, _, .cons us n us' ns hn hs, 0, l, h, hf => by simp at hf
  | _, _, .cons us n us' ns hn hs, fuel + 1, l, h, hf => by
    have hpos := expr_pos hn
    simp only [List.length_append] at hf
    obtain ⟨l1, h1, h2⟩ := expr_complete hn fuel l _ _ h (by omega)
    have h3 := root_ok hs fuel l1 h2 (by omega)
    obtain ⟨t, vs, rfl, ht⟩ := expr_head hn
    have h'' : At b l (t :: (vs ++ us')) .eof := by simpa using h
    simp [parseRoot, h''.token.1, h1, h3]

theorem root_err {u : Unescape} {b : Buf} {e : Ending} {x : Err} {ts' : List Token} (hx : FaultExpr u ts' e x) :
    ∀ {ts : List Token} {ns : List PNode}, Exprs u ts ns →
    ∀ (fuel : Nat) (l : Lex), At b l (ts ++ ts') e → 3 * (ts.length + ts'.length) + 2 ≤ fuel →
      parseRoot u fuel l = .err x
  | _, _, .nil, 0, l, h, hf => by simp at hf
  | _, _, .nil, fuel + 1, l, h, hf => by
    have h : At b l ts' e := h
    have h1 := fault_complete hx fuel l h (by simp at hf; omega)
    have heof : l.eof = false := by
      cases ts' with
      | nil =>
        cases e with
        | eof => cases hx
        | unclosed q s => exact h.unclosed.1
        | cut => exact h.cut.1
      | cons t ts => exact h.token.1
    simp [parseRoot, heof, h1]
  | _, _, .cons us n us' ns hn hs, 0, l, h, hf => by simp at hf
  | _, _, .cons us n us' ns hn hs, fuel + 1, l, h, hf => by
    have hpos := expr_pos hn
    simp only [List.length_append] at hf
    have h' : At b l (us ++ (us' ++ ts')) e := by simpa using h
    obtain ⟨l1, h1, h2⟩ := expr_complete hn fuel l _ _ h' (by simp; omega)
    have h3 := root_err hx hs fuel l1 h2 (by omega)
    obtain ⟨t, vs, rfl, ht⟩ := expr_head hn
    have h'' : At b l (t :: (vs ++ (us' ++ ts'))) e := by simpa using h
    simp [parseRoot, h''.token.1, h1, h3]

theorem root_cut {u : Unescape} {b : Buf} : ∀ {ts : List Token}, CutList u ts →
    ∀ (fuel : Nat) (l : Lex), At b l ts .cut → 3 * ts.length + 2 ≤ fuel → parseRoot u fuel l = .diverge
  | _, .here ts hx, 0, l, h, hf => by simp at hf
  | _, .here ts hx, fuel + 1, l, h, hf => by
    have := cut_complete hx fuel l h (by omega)
    have heof : l.eof = false := by
      cases ts with
      | nil => exact h.cut.1
      | cons t ts => exact h.token.1
    simp [parseRoot, heof, this]
  | _, .later ts n ts' hn hx, 0, l, h, hf => by simp at hf
  | _, .later ts n ts' hn hx, fuel + 1, l, h, hf => by
    have hpos := expr_pos hn
    simp only [List.length_append] at hf
    obtain ⟨l1, h1, h2⟩ := expr_complete hn fuel l _ .cut h (by omega)
    have h3 := root_cut hx fuel l1 h2 (by omega)
    obtain ⟨t, vs, rfl, ht⟩ := expr_head hn
    have h'' : At b l (t :: (vs ++ ts')) .cut := by simpa using h
    simp [parseRoot, h''.token.1, h1, h3]

end Seam
