import Verif.Lemmas.Parser
import Verif.Lemmas.Utf8
import Verif.Spec.Tree

/-! Helper lemmas: from tokens to nodes and their sites. -/

namespace Seam
open Spec

/-- The place of a token in its buffer. -/
structure Placed (b : Buf) (t : Token) where
  before : Str
  triv : Str
  text : Str
  after : Str
  line : Nat
  code : b.code = before ++ triv ++ text ++ after
  trivia : Trivia triv t.lw
  lexeme : Lexeme t.kind text t.value after
  site : t.site = siteOf b line (before ++ triv) text

theorem placed_of_tokens {b : Buf} {before : Str} {line : Nat} {rest : Str} {toks : List Token} {e : Ending}
    (h : Tokens b before line rest toks e) (hc : b.code = before ++ rest) :
    ∀ t ∈ toks, ∃ p : Placed b t, before <+: p.before ∧
      (p.before = before ∨ ∃ t' ∈ toks, blen p.before = t'.site.off + t'.site.span) := by
  induction h with
  | eof => intro t ht; simp at ht
  | unclosed => intro t ht; simp at ht
  | cut => intro t ht; simp at ht
  | token before line triv lead kind text value rest toks e ht hl h ih =>
    intro t htm
    rcases List.mem_cons.1 htm with rfl | htm
    · exact ⟨⟨before, triv, text, rest, _, by rw [hc]; simp, ht, hl, rfl⟩, List.prefix_refl _, Or.inl rfl⟩
    · obtain ⟨p, hp, hq⟩ := ih (by rw [hc]; simp) t htm
      refine ⟨p, List.IsPrefix.trans ⟨triv ++ text, by simp⟩ hp, ?_⟩
      rcases hq with hq | ⟨t', h1, h2⟩
      · right
        refine ⟨_, List.mem_cons_self, ?_⟩
        rw [hq]
        simp [siteOf]; omega
      · right; exact ⟨t', List.mem_cons_of_mem _ h1, h2⟩

/-- The token of a node. -/
def OwnToken (u : Unescape) (t : Token) : PNode → Prop
  | .symbol n => t.kind = .symbol ∧ n = { value := noBackslash t.value, site := t.site, lw := t.lw }
  | .number n => t.kind = .number ∧ n = { value := noBackslash t.value, site := t.site, lw := t.lw }
  | .string n => t.kind = .string ∧ u t.value = some n.value ∧ n.site = t.site ∧ n.lw = t.lw
  | .raw _ => False
  | .list _ s _ w => t.kind = .lparen ∧ s = t.site ∧ w = t.lw
  | .attr k _ s w => t.kind = .keyword ∧ k = t.value ∧ s = t.site ∧ w = t.lw

theorem ownToken_site {u : Unescape} {t : Token} {n : PNode} (h : OwnToken u t n) : n.site = t.site ∧ n.lw = t.lw := by
  cases n with
  | symbol n => obtain ⟨_, rfl⟩ := h; exact ⟨rfl, rfl⟩
  | number n => obtain ⟨_, rfl⟩ := h; exact ⟨rfl, rfl⟩
  | string n => exact ⟨h.2.2.1, h.2.2.2⟩
  | raw n => exact h.elim
  | list ns s e w => exact ⟨h.2.1, h.2.2⟩
  | attr k n s w => exact ⟨h.2.2.1, h.2.2.2⟩

theorem expr_ownToken {u : Unescape} {ts : List Token} {n : PNode} (h : Expr u ts n) : ∃ t ∈ ts, OwnToken u t n := by
  cases h with
  | symbol t h => exact ⟨t, by simp, h, rfl⟩
  | number t h => exact ⟨t, by simp, h, rfl⟩
  | string t v h hv => exact ⟨t, by simp, h, hv, rfl, rfl⟩
  | list o c ts ns h _ _ => exact ⟨o, by simp, h, rfl, rfl⟩
  | attr k ts n h _ => exact ⟨k, by simp, h, rfl, rfl, rfl⟩

theorem exprs_mem {u : Unescape} : ∀ {ts : List Token} {ns : List PNode}, Exprs u ts ns →
    ∀ n ∈ ns, ∃ us, us ⊆ ts ∧ Expr u us n
  | _, _, .nil, n, hn => by simp at hn
  | _, _, .cons us m us' ms hm hs, n, hn => by
    rcases List.mem_cons.1 hn with rfl | hn
    · exact ⟨us, by simp, hm⟩
    · obtain ⟨vs, h1, h2⟩ := exprs_mem hs n hn
      exact ⟨vs, fun t ht => List.mem_append_right _ (h1 ht), h2⟩

theorem within_expr {u : Unescape} {n : PNode} {ns : List PNode} (h : Within n ns) :
    ∀ {ts : List Token}, Exprs u ts ns → ∃ us, us ⊆ ts ∧ Expr u us n := by
  induction h with
  | here ns hn => intro ts hs; exact exprs_mem hs n hn
  | inList ns kids s e w hn _ ih =>
    intro ts hs
    obtain ⟨us, h1, h2⟩ := exprs_mem hs _ hn
    cases h2 with
    | list o c vs _ _ _ hv =>
      obtain ⟨xs, h3, h4⟩ := ih hv
      exact ⟨xs, fun t ht => h1 (by simp [h3 ht]), h4⟩
  | inAttr ns k v s w hn _ ih =>
    intro ts hs
    obtain ⟨us, h1, h2⟩ := exprs_mem hs _ hn
    cases h2 with
    | attr kt vs _ _ hv =>
      have : Exprs u (vs ++ []) [v] := .cons vs v [] [] hv .nil
      obtain ⟨xs, h3, h4⟩ := ih this
      exact ⟨xs, fun t ht => h1 (by have := h3 ht; simp at this; simp [this]), h4⟩

theorem parse_ok_tokens {u : Unescape} {b : Buf} {ns : List PNode} (h : parse u b = .ok ns) :
    ∃ toks, TokensOf b toks .eof ∧ Exprs u toks ns := by
  obtain ⟨toks, e, ht⟩ := tokens_total b [] 1 b.code
  have := parse_out u b ht
  rw [h] at this
  obtain ⟨rfl, h2⟩ := this
  exact ⟨toks, ht, h2⟩

theorem placed_of_tokensOf {b : Buf} {toks : List Token} {e : Ending} (h : TokensOf b toks e) (t : Token) (ht : t ∈ toks) :
    ∃ p : Placed b t, p.before = [] ∨ ∃ t' ∈ toks, blen p.before = t'.site.off + t'.site.span := by
  obtain ⟨p, _, h2⟩ := placed_of_tokens h (by simp) t ht
  exact ⟨p, h2⟩

theorem ownText_of_token {u : Unescape} {t : Token} {n : PNode} {text after : Str} (h : OwnToken u t n)
    (hl : Lexeme t.kind text t.value after) : OwnText u n text := by
  cases n with
  | symbol n =>
    obtain ⟨hk, rfl⟩ := h
    rw [hk] at hl
    generalize hv : t.value = v at hl
    cases hl with
    | symbol _ _ h1 h2 h3 => exact ⟨h1, h2, rfl⟩
  | number n =>
    obtain ⟨hk, rfl⟩ := h
    rw [hk] at hl
    generalize hv : t.value = v at hl
    cases hl with
    | number _ _ h1 h2 h3 => exact ⟨h1, h2, rfl⟩
  | string n =>
    obtain ⟨hk, hu, _⟩ := h
    rw [hk] at hl
    generalize hv : t.value = v at hl
    cases hl with
    | string q body _ h1 h2 => exact ⟨q, v, opens_isQuotes h2, rfl, h1, by rw [← hv]; exact hu⟩
  | raw n => exact h.elim
  | list ns s e w =>
    obtain ⟨hk, _⟩ := h
    rw [hk] at hl
    generalize hv : t.value = v at hl
    cases hl with
    | lparen => rfl
  | attr k n s w =>
    obtain ⟨hk, rfl, _⟩ := h
    rw [hk] at hl
    generalize hv : t.value = v at hl
    cases hl with
    | keyword name _ h1 h2 => exact ⟨rfl, h1⟩

theorem rparen_text {t : Token} {text after : Str} (hk : t.kind = .rparen) (hl : Lexeme t.kind text t.value after) :
    text = [')'] := by
  rw [hk] at hl
  generalize hv : t.value = v at hl
  cases hl with
  | rparen => rfl

/-- Facts about a site of the form `siteOf`. -/
theorem siteOf_view (b : Buf) (line : Nat) (before text after : Str) (h : b.code = before ++ text ++ after) :
    (siteOf b line before text).view = some text := by
  unfold Site.view siteOf
  simp only []
  rw [h, List.append_assoc, sliceBytes_append]

theorem siteOf_startOfLine (b : Buf) (line : Nat) (before text : Str) :
    ∃ p, before = p ++ lastLine before ∧ (p = [] ∨ ∃ p', p = p' ++ ['\n']) ∧
      (siteOf b line before text).startOfLine = some (blen p) := by
  obtain ⟨p, h1, h2⟩ := lastLine_suffix before
  refine ⟨p, h1, h2, ?_⟩
  have : blen before = blen p + blen (lastLine before) := by
    rw [← blen_append, ← h1]
  unfold Site.startOfLine siteOf
  simp only []
  rw [if_pos (by omega)]
  congr 1
  omega

theorem siteOf_endOfLine (b : Buf) (line : Nat) (before text after : Str) (h : b.code = before ++ text ++ after) :
    (siteOf b line before text).endOfLine = blen before + blen ((text ++ after).takeWhile (· != '\n')) := by
  unfold Site.endOfLine siteOf
  simp only []
  rw [h, List.append_assoc, bytesOf_append]
  rw [← bytesOf_length, List.drop_left, eolLoop_line, bytesOf_length]

theorem siteOf_lineSlice (b : Buf) (line : Nat) (before text after : Str) (h : b.code = before ++ text ++ after) :
    (siteOf b line before text).lineSlice =
      some (lastLine before ++ (text ++ after).takeWhile (· != '\n')) := by
  obtain ⟨p, h1, h2, h3⟩ := siteOf_startOfLine b line before text
  unfold Site.lineSlice
  rw [h3, siteOf_endOfLine b line before text after h]
  show sliceBytes b.code _ _ = _
  have hb : blen before = blen p + blen (lastLine before) := by
    rw [← blen_append, ← h1]
  have e : b.code = p ++ ((lastLine before ++ (text ++ after).takeWhile (· != '\n')) ++
      (text ++ after).dropWhile (· != '\n')) := by
    rw [h, List.append_assoc]
    conv => lhs; rw [h1, ← List.takeWhile_append_dropWhile (p := (· != '\n')) (l := text ++ after)]
    simp
  rw [e, hb, Nat.add_assoc, ← blen_append, sliceBytes_append]

theorem siteOf_preceding (b : Buf) (line : Nat) (before text after : Str) (h : b.code = before ++ text ++ after) :
    (siteOf b line before text).preceding = some (lastLine before) := by
  obtain ⟨p, h1, h2, h3⟩ := siteOf_startOfLine b line before text
  unfold Site.preceding
  rw [h3]
  show sliceBytes b.code _ _ = _
  have hb : (siteOf b line before text).off = blen p + blen (lastLine before) := by
    show blen before = _
    rw [← blen_append, ← h1]
  have e : b.code = p ++ (lastLine before ++ (text ++ after)) := by
    rw [h, List.append_assoc]
    conv => lhs; rw [h1]
    simp
  rw [e, hb, sliceBytes_append]

/-- The sites of the tokens of an expression are those of the tree. -/
theorem sites_expr {u : Unescape} : ∀ {ts : List Token} {n : PNode}, Expr u ts n → sites n = ts.map Token.site
  | _, _, .symbol t _ => rfl
  | _, _, .number t _ => rfl
  | _, _, .string t _ _ _ => rfl
  | _, _, .list o c ts ns _ _ hs => by
    have := sitess_exprs hs
    simp [sites, this]
  | _, _, .attr k ts n _ hn => by
    have := sites_expr hn
    simp [sites, this]
where sitess_exprs {u : Unescape} : ∀ {ts : List Token} {ns : List PNode}, Exprs u ts ns → sitess ns = ts.map Token.site
  | _, _, .nil => rfl
  | _, _, .cons us n us' ns hn hs => by
    have h1 := sites_expr hn
    have h2 := sitess_exprs hs
    simp [sitess, h1, h2]

theorem covers_of_tokens {b : Buf} {before : Str} {line : Nat} {rest : Str} {toks : List Token} {e : Ending}
    (h : Tokens b before line rest toks e) (he : e = .eof) : Covers before rest (toks.map Token.site) := by
  induction h with
  | eof _ _ _ h => exact .nil _ _ h
  | unclosed => cases he
  | cut => cases he
  | token before line triv lead kind text value rest toks e ht hl h ih =>
    have := lexeme_length hl
    exact .cons before triv lead text rest _ _ ht (by intro h; subst h; simp at this) rfl rfl (ih he)

/-! ## Places of errors -/

theorem exprs_snoc {u : Unescape} : ∀ {ts : List Token} {ns : List PNode}, Exprs u ts ns →
    ∀ {us : List Token} {n : PNode}, Expr u us n → Exprs u (ts ++ us) (ns ++ [n])
  | _, _, .nil, us, n, h => by simpa using Exprs.cons us n [] [] h .nil
  | _, _, .cons ts m ts' ns h1 h2, us, n, h => by
    have := Exprs.cons ts m _ _ h1 (exprs_snoc h2 h)
    simpa using this

mutual
theorem errorPlace_expr {u : Unescape} {b : Buf} : ∀ {ts : List Token} {e : Ending} {x : Err}, FaultExpr u ts e x →
    ∀ p, TokensOf b (p ++ ts) e → (∀ t ∈ ts.head?, t.kind = .rparen → ∃ ns, Exprs u p ns) → ErrorPlace u b x
  | _, _, _, .stray t ts e hk, p, h, hp => by
    obtain ⟨ns, hns⟩ := hp t (by simp) hk
    exact .stray p ns t ts e h hk hns
  | _, _, _, .unclosed q s, p, h, _ => .unclosedString _ q s h
  | _, _, _, .badEscape t ts e hk hv, p, h, _ => .badEscape p t ts e h hk hv
  | _, _, _, .noValueEof k hk, p, h, _ => .noValue p k [] .eof h hk (Or.inl ⟨rfl, rfl⟩)
  | _, _, _, .noValue k t ts e hk ht, p, h, _ => .noValue p k (t :: ts) e h hk (Or.inr ⟨t, ts, rfl, ht⟩)
  | _, _, _, .value k ts e x hk ht hx, p, h, _ => by
    refine errorPlace_expr hx (p ++ [k]) (by simpa using h) ?_
    intro t h1 h2
    exact absurd h2 (ht t h1)
  | _, _, _, .list o ts e x ho hx, p, h, _ =>
    errorPlace_list hx p [] [] .nil ho (by simpa using h)
theorem errorPlace_list {u : Unescape} {b : Buf} : ∀ {o : Token} {ts : List Token} {e : Ending} {x : Err},
    FaultList u o ts e x → ∀ p us ns, Exprs u us ns → o.kind = .lparen → TokensOf b (p ++ o :: (us ++ ts)) e →
    ErrorPlace u b x
  | _, _, _, _, .eof o, p, us, ns, hs, ho, h => .unclosedList p o us ns (by simpa using h) ho hs
  | _, _, _, _, .here o ts e x ht hx, p, us, ns, hs, ho, h => by
    refine errorPlace_expr hx (p ++ o :: us) (by simpa using h) ?_
    intro t h1 h2
    exact absurd h2 (ht t h1)
  | _, _, _, _, .later o ts n ts' e x hn hx, p, us, ns, hs, ho, h => by
    refine errorPlace_list hx p (us ++ ts) (ns ++ [n]) (exprs_snoc hs hn) ho (by simpa using h)
end

end Seam
