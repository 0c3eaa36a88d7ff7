import Verif.Spec.Source
import Verif.Spec.Unplaced
import Verif.Lemmas.Moved
import Verif.Lemmas.Reader

/-! Texts with the same tokens are read to the same trees, moved. -/

namespace Seam
open Spec

/-- The same token at another place, after other blanks. -/
def LaidToken (S : Site → Site → Prop) (W : Str → Str → Prop) (t t' : Token) : Prop :=
  t.kind = t'.kind ∧ t.value = t'.value ∧ W t.lw t'.lw ∧ S t.site t'.site

/-- The same ending at another place. -/
inductive MovedEnd (S : Site → Site → Prop) : Ending → Ending → Prop
  | eof : MovedEnd S .eof .eof
  | unclosed (q : Str) (s s' : Site) : S s s' → MovedEnd S (.unclosed q s) (.unclosed q s')
  | cut : MovedEnd S .cut .cut

theorem sameSource_tokens {b b' : Buf} : ∀ {x y : Str}, SameSource x y → ∀ before before' line line',
    ∃ toks toks' e e', Tokens b before line x toks e ∧ Tokens b' before' line' y toks' e' ∧
      Pairs (LaidToken (fun _ _ => True) (· = ·)) toks toks' ∧ MovedEnd (fun _ _ => True) e e'
  | _, _, .eof a c ha hc, before, before', line, line' =>
    ⟨[], [], .eof, .eof, .eof _ _ _ ha, .eof _ _ _ hc, .nil, .eof⟩
  | _, _, .unclosed triv triv' lead lead' q s s' h1 h2 h3 h4 h5 h6, before, before', line, line' =>
    ⟨[], [], _, _, .unclosed _ _ _ _ _ _ h1 h3 h5, .unclosed _ _ _ _ _ _ h2 h4 h6, .nil, .unclosed _ _ _ trivial⟩
  | _, _, .cut triv triv' lead lead' text text' h1 h2 h3 h4 h5 h6, before, before', line, line' =>
    ⟨[], [], .cut, .cut, .cut _ _ _ _ _ h1 h3 h5, .cut _ _ _ _ _ h2 h4 h6, .nil, .cut⟩
  | _, _, .token triv triv' lead kind text text' value rest rest' h1 h2 h3 h4 h5, before, before', line, line' => by
    obtain ⟨toks, toks', e, e', t1, t2, hp, he⟩ := sameSource_tokens h5 (before ++ triv ++ text) (before' ++ triv' ++ text')
      (line + newlines triv + 2 * newlines text) (line' + newlines triv' + 2 * newlines text')
    exact ⟨_, _, e, e', .token _ _ _ _ _ _ _ _ _ _ h1 h3 t1, .token _ _ _ _ _ _ _ _ _ _ h2 h4 t2,
      .cons ⟨rfl, rfl, rfl, trivial⟩ hp, he⟩

theorem pairs_indexed {S : Site → Site → Prop} {W : Str → Str → Prop} : ∀ {ts us : List Token}, Pairs (LaidToken (fun _ _ => True) W) ts us →
    (∀ (i : Nat) (t u : Token), ts[i]? = some t → us[i]? = some u → S t.site u.site) → Pairs (LaidToken S W) ts us
  | _, _, .nil, _ => .nil
  | _, _, .cons h hs, hS => .cons ⟨h.1, h.2.1, h.2.2.1, hS 0 _ _ rfl rfl⟩
      (pairs_indexed hs fun i t u ht hu => hS (i + 1) t u ht hu)

theorem tokensOf_corresponds {b b' : Buf} (h : SameSource b.code b'.code) :
    ∃ toks toks' e e', TokensOf b toks e ∧ TokensOf b' toks' e' ∧
      Pairs (LaidToken (Corresponds b b') (· = ·)) toks toks' ∧ MovedEnd (Corresponds b b') e e' := by
  obtain ⟨toks, toks', e, e', t1, t2, hp, he⟩ := sameSource_tokens (b := b) (b' := b') h [] [] 1 1
  refine ⟨toks, toks', e, e', t1, t2, pairs_indexed hp fun i t u ht hu => .token toks toks' e e' i t u t1 t2 ht hu, ?_⟩
  cases he with
  | eof => exact .eof
  | cut => exact .cut
  | unclosed q s s' _ => exact .unclosed q s s' (.quote toks toks' q s s' t1 t2)

/-! ## Leaving the comments out -/

theorem trivia_lead {t lead : Str} (h : Trivia t lead) : Blanks lead ∧ (t = lead ∨ ∃ l, lead = '\n' :: l) := by
  induction h with
  | blanks w h => exact ⟨h, .inl rfl⟩
  | comment w text r lead hw ht h ih =>
    refine ⟨ih.1, .inr ?_⟩
    rcases ih.2 with h | h
    · exact ⟨_, h.symm⟩
    · exact h

theorem trivia_same {t lead : Str} (h : Trivia t lead) : Trivia lead lead := .blanks _ (trivia_lead h).1

/-- What follows a token may be replaced by the same with the comments left out. -/
def Follows (rest rest' : Str) : Prop := rest' = [] ∨ (∃ l, rest' = '\n' :: l) ∨ (∃ c l l', rest = c :: l ∧ rest' = c :: l')

theorem follows_trivia {t lead x y : Str} (h : Trivia t lead) (hx : x ≠ []) (hy : ∃ c l l', x = c :: l ∧ y = c :: l') :
    Follows (t ++ x) (lead ++ y) := by
  obtain ⟨c, l, l', rfl, rfl⟩ := hy
  rcases (trivia_lead h).2 with rfl | ⟨m, rfl⟩
  · cases t with
    | nil => exact .inr (.inr ⟨c, l, l', rfl, rfl⟩)
    | cons a t => exact .inr (.inr ⟨a, _, _, rfl, rfl⟩)
  · exact .inr (.inl ⟨_, rfl⟩)

theorem stop_follows {rest rest' : Str} (h : Follows rest rest') (hs : Stop rest) : Stop rest' := by
  rcases h with rfl | ⟨l, rfl⟩ | ⟨c, l, l', rfl, rfl⟩
  · trivial
  · rfl
  · exact hs

theorem lexeme_follows {kind : Kind} {text value rest rest' : Str} (h : Follows rest rest') (hl : Lexeme kind text value rest) :
    Lexeme kind text value rest' := by
  cases hl with
  | lparen => exact .lparen _
  | rparen => exact .rparen _
  | symbol _ _ h1 h2 h3 => exact .symbol _ _ h1 h2 (stop_follows h h3)
  | number _ _ h1 h2 h3 => exact .number _ _ h1 h2 (stop_follows h h3)
  | keyword _ _ h1 h2 => exact .keyword _ _ h1 (stop_follows h h2)
  | string q _ _ h1 h2 =>
    refine .string q _ _ h1 ?_
    rcases h2 with ⟨rfl, h2⟩ | ⟨rfl, h2, h3⟩
    · refine .inl ⟨rfl, ?_⟩
      exact ⟨value ++ q3 ++ rest', by simp⟩
    · refine .inr ⟨rfl, ⟨value ++ q1 ++ rest', by simp⟩, fun h4 => h3 ?_⟩
      revert h4 h3
      cases value with
      | nil =>
        simp only [q1, q3, List.nil_append, List.cons_append, List.append_nil]
        rcases h with rfl | ⟨l, rfl⟩ | ⟨c, l, l', rfl, rfl⟩
        · simp
        · simp
        · simp
      | cons a value =>
        simp only [q1, q3, List.nil_append, List.cons_append]
        cases value with
        | nil => simp
        | cons b value => simp

theorem tokens_bare {b : Buf} {before : Str} {line : Nat} {rest : Str} {toks : List Token} {e : Ending}
    (h : Tokens b before line rest toks e) : ∃ rest', SameSource rest rest' ∧ Bare rest' ∧ Follows rest rest' := by
  induction h with
  | eof before line rest h =>
    exact ⟨[], .eof _ _ h ⟨[], [], .blanks _ (by intro c hc; simp at hc), .inl rfl⟩, .eof, .inl rfl⟩
  | unclosed before line triv lead q s h1 h2 h3 =>
    refine ⟨lead ++ (q ++ s), .unclosed _ _ _ _ _ _ _ h1 (trivia_same h1) h2 h2 h3 h3, .unclosed _ _ _ (trivia_lead h1).1 h2 h3, ?_⟩
    obtain ⟨c, l, hq⟩ : ∃ c l, q = c :: l := by
      rcases h2 with ⟨rfl, _⟩ | ⟨rfl, _⟩ <;> exact ⟨_, _, rfl⟩
    subst hq
    exact follows_trivia h1 (by simp) ⟨_, _, _, rfl, rfl⟩
  | cut before line triv lead text h1 h2 h3 =>
    refine ⟨lead ++ (text ++ ['\\']), .cut _ _ _ _ _ _ h1 (trivia_same h1) h2 h2 h3 h3, .cut _ _ (trivia_lead h1).1 h2 h3, ?_⟩
    cases text with
    | nil => exact follows_trivia h1 (by simp) ⟨_, _, _, rfl, rfl⟩
    | cons a text => exact follows_trivia h1 (by simp) ⟨_, _, _, rfl, rfl⟩
  | token before line triv lead kind text value rest toks e h1 h2 _ ih =>
    obtain ⟨rest', i1, i2, i3⟩ := ih
    have h3 := lexeme_follows i3 h2
    refine ⟨lead ++ (text ++ rest'), .token _ _ _ _ _ _ _ _ _ h1 (trivia_same h1) h2 h3 i1, .token _ _ _ _ _ (trivia_lead h1).1 h3 i2, ?_⟩
    obtain ⟨c, l, rfl, _⟩ := lexeme_head h2
    exact follows_trivia h1 (by simp) ⟨_, _, _, rfl, rfl⟩

/-! ## Concrete texts -/

theorem ident_all : ∀ {s : Str}, s.all identChar = true → Ident s
  | [], _ => .nil
  | c :: s, h => by
    simp only [List.all_cons, Bool.and_eq_true] at h
    exact .plain c s h.1 (ident_all h.2)

theorem trivia_all {w : Str} (h : w.all blank = true) : Trivia w w := .blanks w (List.all_eq_true.1 h)

section
variable {S : Site → Site → Prop} {W : Str → Str → Prop} {u : Unescape}

theorem pairs_split {α β : Type} {R : α → β → Prop} : ∀ (as : List α) {as' : List α} {bs : List β}, Pairs R (as ++ as') bs →
    ∃ cs cs', bs = cs ++ cs' ∧ Pairs R as cs ∧ Pairs R as' cs'
  | [], _, bs, h => ⟨[], bs, rfl, .nil, h⟩
  | a :: as, as', _, .cons h hs => by
    obtain ⟨cs, cs', rfl, h1, h2⟩ := pairs_split as hs
    exact ⟨_ :: cs, cs', rfl, .cons h h1, h2⟩

mutual
theorem expr_laid : ∀ {ts : List Token} {n : PNode}, Expr u ts n → ∀ {us : List Token}, Pairs (LaidToken S W) ts us →
    ∃ m, Expr u us m ∧ Laid S W n m
  | _, _, .symbol t hk, us, hp => by
    cases hp with
    | cons h hs =>
      cases hs
      refine ⟨_, .symbol _ (h.1 ▸ hk), .symbol _ _ ⟨?_, h.2.2.1, h.2.2.2⟩⟩
      simp only [h.2.1]
  | _, _, .number t hk, us, hp => by
    cases hp with
    | cons h hs =>
      cases hs
      refine ⟨_, .number _ (h.1 ▸ hk), .number _ _ ⟨?_, h.2.2.1, h.2.2.2⟩⟩
      simp only [h.2.1]
  | _, _, .string t v hk hv, us, hp => by
    cases hp with
    | cons h hs =>
      cases hs
      exact ⟨_, .string _ v (h.1 ▸ hk) (h.2.1 ▸ hv), .string _ _ ⟨rfl, h.2.2.1, h.2.2.2⟩⟩
  | _, _, .list o c ts ns ho hc hn, us, hp => by
    cases hp with
    | cons h hs =>
      obtain ⟨cs, cs', rfl, h1, h2⟩ := pairs_split ts hs
      cases h2 with
      | cons h2 h3 =>
        cases h3
        obtain ⟨ms, hm, hmv⟩ := exprs_laid hn h1
        refine ⟨_, .list _ _ cs ms (h.1 ▸ ho) (h2.1 ▸ hc) hm, ?_⟩
        exact .list _ _ _ _ _ _ _ _ hmv h.2.2.2 h2.2.2.1 h2.2.2.2 h.2.2.1
  | _, _, .attr k ts n hk hn, us, hp => by
    cases hp with
    | cons h hs =>
      obtain ⟨m, hm, hmv⟩ := expr_laid hn hs
      refine ⟨_, .attr _ _ m (h.1 ▸ hk) hm, ?_⟩
      rw [← h.2.1]
      exact .attr _ _ _ _ _ _ _ hmv h.2.2.2 h.2.2.1
theorem exprs_laid : ∀ {ts : List Token} {ns : List PNode}, Exprs u ts ns → ∀ {us : List Token}, Pairs (LaidToken S W) ts us →
    ∃ ms, Exprs u us ms ∧ Laids S W ns ms
  | _, _, .nil, _, hp => by cases hp; exact ⟨[], .nil, .nil⟩
  | _, _, .cons ts n ts' ns hn hs, us, hp => by
    obtain ⟨cs, cs', rfl, h1, h2⟩ := pairs_split ts hp
    obtain ⟨m, hm, hmv⟩ := expr_laid hn h1
    obtain ⟨ms, hms, hmvs⟩ := exprs_laid hs h2
    exact ⟨_, .cons _ _ _ _ hm hms, .cons _ _ _ _ hmv hmvs⟩
end

theorem head_laid {ts us : List Token} (hp : Pairs (LaidToken S W) ts us) (h : ∀ t ∈ ts.head?, t.kind ≠ .rparen) :
    ∀ t ∈ us.head?, t.kind ≠ .rparen := by
  cases hp with
  | nil => simp
  | cons h1 _ => simpa [← h1.1] using h

mutual
theorem faultExpr_laid : ∀ {ts : List Token} {e : Ending} {x : Err}, FaultExpr u ts e x → ∀ {us : List Token} {e' : Ending},
    Pairs (LaidToken S W) ts us → MovedEnd S e e' → ∃ y, FaultExpr u us e' y ∧ MovedErr S x y
  | _, _, _, .stray t ts e hk, us, e', hp, he => by
    cases hp with
    | cons h hs => exact ⟨_, .stray _ _ _ (h.1 ▸ hk), rfl, rfl, h.2.2.2⟩
  | _, _, _, .unclosed q s, us, e', hp, he => by
    cases hp
    cases he with
    | unclosed _ _ s' h => exact ⟨_, .unclosed q s', rfl, rfl, h⟩
  | _, _, _, .badEscape t ts e hk hv, us, e', hp, he => by
    cases hp with
    | cons h hs => exact ⟨_, .badEscape _ _ _ (h.1 ▸ hk) (h.2.1 ▸ hv), rfl, rfl, h.2.2.2⟩
  | _, _, _, .noValueEof k hk, us, e', hp, he => by
    cases he
    cases hp with
    | cons h hs =>
      cases hs
      exact ⟨_, .noValueEof _ (h.1 ▸ hk), rfl, rfl, h.2.2.2⟩
  | _, _, _, .noValue k t ts e hk ht, us, e', hp, he => by
    cases hp with
    | cons h hs =>
      cases hs with
      | cons h2 hs => exact ⟨_, .noValue _ _ _ _ (h.1 ▸ hk) (h2.1 ▸ ht), rfl, rfl, h.2.2.2⟩
  | _, _, _, .value k ts e err hk ht hx, us, e', hp, he => by
    cases hp with
    | cons h hs =>
      obtain ⟨y, hy, hm⟩ := faultExpr_laid hx hs he
      exact ⟨y, .value _ _ _ _ (h.1 ▸ hk) (head_laid hs ht) hy, hm⟩
  | _, _, _, .list o ts e err ho hx, us, e', hp, he => by
    cases hp with
    | cons h hs =>
      obtain ⟨y, hy, hm⟩ := faultList_laid hx h hs he
      exact ⟨y, .list _ _ _ _ (h.1 ▸ ho) hy, hm⟩
theorem faultList_laid : ∀ {o : Token} {ts : List Token} {e : Ending} {x : Err}, FaultList u o ts e x →
    ∀ {o' : Token} {us : List Token} {e' : Ending}, LaidToken S W o o' →
    Pairs (LaidToken S W) ts us → MovedEnd S e e' → ∃ y, FaultList u o' us e' y ∧ MovedErr S x y
  | _, _, _, _, .eof o, o', us, e', ho, hp, he => by
    cases hp; cases he
    exact ⟨_, .eof o', rfl, rfl, ho.2.2.2⟩
  | _, _, _, _, .here o ts e err ht hx, o', us, e', ho, hp, he => by
    obtain ⟨y, hy, hm⟩ := faultExpr_laid hx hp he
    exact ⟨y, .here _ _ _ _ (head_laid hp ht) hy, hm⟩
  | _, _, _, _, .later o ts n ts' e err hn hx, o', us, e', ho, hp, he => by
    obtain ⟨cs, cs', rfl, h1, h2⟩ := pairs_split ts hp
    obtain ⟨m, hm, _⟩ := expr_laid hn h1
    obtain ⟨y, hy, hv⟩ := faultList_laid hx ho h2 he
    exact ⟨y, .later _ _ _ _ _ _ hm hy, hv⟩
end

mutual
theorem cutExpr_laid : ∀ {ts : List Token}, CutExpr u ts → ∀ {us : List Token}, Pairs (LaidToken S W) ts us → CutExpr u us
  | _, .here, _, hp => by cases hp; exact .here
  | _, .value k ts hk hx, _, hp => by
    cases hp with
    | cons h hs => exact .value _ _ (h.1 ▸ hk) (cutExpr_laid hx hs)
  | _, .list o ts ho hx, _, hp => by
    cases hp with
    | cons h hs => exact .list _ _ (h.1 ▸ ho) (cutList_laid hx hs)
theorem cutList_laid : ∀ {ts : List Token}, CutList u ts → ∀ {us : List Token}, Pairs (LaidToken S W) ts us → CutList u us
  | _, .here ts hx, _, hp => .here _ (cutExpr_laid hx hp)
  | _, .later ts n ts' hn hx, _, hp => by
    obtain ⟨cs, cs', rfl, h1, h2⟩ := pairs_split ts hp
    obtain ⟨m, hm, _⟩ := expr_laid hn h1
    exact .later _ _ _ hm (cutList_laid hx h2)
end

theorem parse_laid (u : Unescape) {b b' : Buf} {toks toks' : List Token} {e e' : Ending} (h : TokensOf b toks e)
    (h' : TokensOf b' toks' e') (hp : Pairs (LaidToken S W) toks toks') (he : MovedEnd S e e') :
    LaidTree S W (parse u b) (parse u b') := by
  have ho := parse_out u b h
  have hlen := tokens_length h'
  have hat := at_new h'
  have hpl : parse u b' = parseRoot u (parseFuel b'.code.length) (Lex.new b') := rfl
  have hfuel : 3 * toks'.length + 2 ≤ parseFuel b'.code.length := by unfold parseFuel; omega
  rw [hpl]
  generalize parse u b = r at ho ⊢
  cases r with
  | ok ns =>
    obtain ⟨rfl, hx⟩ := ho
    cases he
    obtain ⟨ms, hm, hv⟩ := exprs_laid hx hp
    rw [root_ok hm _ _ hat hfuel]
    exact .done _ _ (.ok _ _ hv)
  | err x =>
    have ho : Fault u toks e x := ho
    cases ho with
    | mk ts ns ts' _ _ h1 h2 =>
      obtain ⟨cs, cs', rfl, p1, p2⟩ := pairs_split ts hp
      obtain ⟨ms, hm, hv⟩ := exprs_laid h1 p1
      obtain ⟨y, hy, hx⟩ := faultExpr_laid h2 p2 he
      rw [root_err hy hm _ _ hat (by simpa using hfuel)]
      exact .done _ _ (.err _ _ hx)
  | panic => exact ho.elim
  | diverge =>
    obtain ⟨rfl, hx⟩ := ho
    cases he
    rw [root_cut (cutList_laid hx hp) _ _ hat hfuel]
    exact .diverge

end

/-! ## A tree that was read has only blanks between its nodes -/

mutual
theorem Spec.Laid.mono {S T : Site → Site → Prop} {W : Str → Str → Prop} (h : ∀ p q, S p q → T p q) : ∀ {n m : PNode},
    Laid S W n m → Laid T W n m
  | _, _, .symbol a b hm => .symbol _ _ ⟨hm.1, hm.2.1, h _ _ hm.2.2⟩
  | _, _, .number a b hm => .number _ _ ⟨hm.1, hm.2.1, h _ _ hm.2.2⟩
  | _, _, .string a b hm => .string _ _ ⟨hm.1, hm.2.1, h _ _ hm.2.2⟩
  | _, _, .raw a b hm => .raw _ _ ⟨hm.1, hm.2.1, h _ _ hm.2.2⟩
  | _, _, .list _ _ _ _ _ _ _ _ hs h1 h2 h3 h4 => .list _ _ _ _ _ _ _ _ (Laids.mono h hs) (h _ _ h1) h2 (h _ _ h3) h4
  | _, _, .attr _ _ _ _ _ _ _ hs h1 h2 => .attr _ _ _ _ _ _ _ (Laid.mono h hs) (h _ _ h1) h2
theorem Spec.Laids.mono {S T : Site → Site → Prop} {W : Str → Str → Prop} (h : ∀ p q, S p q → T p q) : ∀ {ns ms : List PNode},
    Laids S W ns ms → Laids T W ns ms
  | _, _, .nil => .nil
  | _, _, .cons _ _ _ _ h1 h2 => .cons _ _ _ _ (Laid.mono h h1) (Laids.mono h h2)
end

theorem tokens_self {W : Str → Str → Prop} [Blanking W] {b : Buf} {before : Str} {line : Nat} {rest : Str} {toks : List Token} {e : Ending}
    (h : Tokens b before line rest toks e) : Pairs (LaidToken (· = ·) W) toks toks ∧ MovedEnd (· = ·) e e := by
  induction h with
  | eof => exact ⟨.nil, .eof⟩
  | unclosed => exact ⟨.nil, .unclosed _ _ _ rfl⟩
  | cut => exact ⟨.nil, .cut⟩
  | token before line triv lead kind text value rest toks e h1 h2 _ ih =>
    exact ⟨.cons ⟨rfl, rfl, Blanking.const (trivia_lead h1).1, rfl⟩ ih.1, ih.2⟩

theorem parse_self {W : Str → Str → Prop} [Blanking W] (u : Unescape) (b : Buf) (tree : List PNode) (hp : parse u b = .ok tree) :
    Laids (· = ·) W tree tree := by
  obtain ⟨toks, e, h⟩ := tokens_total b [] 1 b.code
  have hs := tokens_self (W := W) h
  have := parse_laid u h h hs.1 hs.2
  rw [hp] at this
  cases this with
  | done _ _ h => cases h with | ok _ _ h => exact h

theorem siteOf_reread (b : Buf) (j line : Nat) (before text : Str) :
    Reread (siteOf b line before text) (siteOf { b with id := j } line before text) := rfl

theorem tokens_reread {W : Str → Str → Prop} [Blanking W] {b : Buf} (j : Nat) {before : Str} {line : Nat} {rest : Str} {toks : List Token}
    {e : Ending} (h : Tokens b before line rest toks e) :
    ∃ toks' e', Tokens { b with id := j } before line rest toks' e' ∧ Pairs (LaidToken Reread W) toks toks' ∧ MovedEnd Reread e e' := by
  induction h with
  | eof before line rest h => exact ⟨_, _, .eof _ _ _ h, .nil, .eof⟩
  | unclosed before line triv lead q s h1 h2 h3 =>
    exact ⟨_, _, .unclosed _ _ _ _ _ _ h1 h2 h3, .nil, .unclosed _ _ _ (siteOf_reread ..)⟩
  | cut before line triv lead text h1 h2 h3 => exact ⟨_, _, .cut _ _ _ _ _ h1 h2 h3, .nil, .cut⟩
  | token before line triv lead kind text value rest toks e h1 h2 _ ih =>
    obtain ⟨toks', e', i1, i2, i3⟩ := ih
    exact ⟨_, _, .token _ _ _ _ _ _ _ _ _ _ h1 h2 i1, .cons ⟨rfl, rfl, Blanking.const (trivia_lead h1).1, siteOf_reread ..⟩ i2, i3⟩

theorem Spec.LaidTree.mono {S T : Site → Site → Prop} {W : Str → Str → Prop} (h : ∀ p q, S p q → T p q) {r r' : Res (List PNode)}
    (hr : LaidTree S W r r') : LaidTree T W r r' := by
  cases hr with
  | done _ _ hr =>
    refine .done _ _ ?_
    cases hr with
    | ok _ _ hr => exact .ok _ _ (hr.mono h)
    | err _ _ hr => exact .err _ _ ⟨hr.1, hr.2.1, h _ _ hr.2.2⟩
    | panic => exact .panic
  | diverge => exact .diverge

theorem parse_rereads {W : Str → Str → Prop} [Blanking W] (u : Unescape) (b : Buf) : LaidTree (· = ·) W (parse u b) (parse u b) := by
  obtain ⟨toks, e, h⟩ := tokens_total b [] 1 b.code
  exact parse_laid u h h (tokens_self (W := W) h).1 (tokens_self (W := W) h).2

/-- A file that is read again gives the same tree. -/
theorem parse_reread {W : Str → Str → Prop} [Blanking W] (u : Unescape) (b : Buf) (j : Nat) :
    LaidTree Reread W (parse u b) (parse u { b with id := j }) := by
  obtain ⟨toks, e, h⟩ := tokens_total b [] 1 b.code
  obtain ⟨toks', e', h1, h2, h3⟩ := tokens_reread (W := W) j h
  exact parse_laid u h h1 h2 h3

/-! ## Trees without positions -/

mutual
theorem moved_unplaced {S : Site → Site → Prop} : ∀ {n m : PNode}, Moved S n m → unplaced n = unplaced m
  | _, _, .symbol a b h => by simp [unplaced, h.1, h.2.1]
  | _, _, .number a b h => by simp [unplaced, h.1, h.2.1]
  | _, _, .string a b h => by simp [unplaced, h.1, h.2.1]
  | _, _, .raw a b h => by simp [unplaced, h.1, h.2.1]
  | _, _, .list _ _ _ _ _ _ _ h _ h2 _ => by simp [unplaced, moveds_unplaced h, h2]
  | _, _, .attr _ _ _ _ _ _ h _ => by simp [unplaced, moved_unplaced h]
theorem moveds_unplaced {S : Site → Site → Prop} : ∀ {ns ms : List PNode}, Moveds S ns ms → unplaceds ns = unplaceds ms
  | _, _, .nil => rfl
  | _, _, .cons _ _ _ _ h hs => by simp [unplaceds, moved_unplaced h, moveds_unplaced hs]
end

mutual
theorem unplaced_moved : ∀ {n m : PNode}, unplaced n = unplaced m → Moved (fun _ _ => True) n m
  | .symbol a, m, h => by
    cases m <;> simp [unplaced] at h
    exact .symbol _ _ ⟨h.1, h.2, trivial⟩
  | .number a, m, h => by
    cases m <;> simp [unplaced] at h
    exact .number _ _ ⟨h.1, h.2, trivial⟩
  | .string a, m, h => by
    cases m <;> simp [unplaced] at h
    exact .string _ _ ⟨h.1, h.2, trivial⟩
  | .raw a, m, h => by
    cases m <;> simp [unplaced] at h
    exact .raw _ _ ⟨h.1, h.2, trivial⟩
  | .list ns s e w, m, h => by
    cases m <;> simp [unplaced] at h
    obtain ⟨h1, h2, rfl⟩ := h
    exact .list _ _ _ _ _ _ _ (unplaceds_moved h1) trivial h2 trivial
  | .attr k n s w, m, h => by
    cases m <;> simp [unplaced] at h
    obtain ⟨rfl, h2, rfl⟩ := h
    exact .attr _ _ _ _ _ _ (unplaced_moved h2) trivial
theorem unplaceds_moved : ∀ {ns ms : List PNode}, unplaceds ns = unplaceds ms → Moveds (fun _ _ => True) ns ms
  | [], ms, h => by
    cases ms <;> simp [unplaceds] at h
    exact .nil
  | n :: ns, ms, h => by
    cases ms <;> simp [unplaceds] at h
    exact .cons _ _ _ _ (unplaced_moved h.1) (unplaceds_moved h.2)
end

/-! ## Moved trees are trees laid out otherwise with the same blanks -/

section
variable {S : Site → Site → Prop}

mutual
theorem laid_moved : ∀ {n m : PNode}, Laid S (· = ·) n m → Moved S n m
  | _, _, .symbol _ _ h => .symbol _ _ h
  | _, _, .number _ _ h => .number _ _ h
  | _, _, .string _ _ h => .string _ _ h
  | _, _, .raw _ _ h => .raw _ _ h
  | _, _, .list _ _ _ _ _ _ _ _ h1 h2 h3 h4 h5 => by
    cases h5
    exact .list _ _ _ _ _ _ _ (laids_moved h1) h2 h3 h4
  | _, _, .attr _ _ _ _ _ _ _ h1 h2 h3 => by
    cases h3
    exact .attr _ _ _ _ _ _ (laid_moved h1) h2
theorem laids_moved : ∀ {ns ms : List PNode}, Laids S (· = ·) ns ms → Moveds S ns ms
  | _, _, .nil => .nil
  | _, _, .cons _ _ _ _ h hs => .cons _ _ _ _ (laid_moved h) (laids_moved hs)
end

mutual
theorem moved_laid : ∀ {n m : PNode}, Moved S n m → Laid S (· = ·) n m
  | _, _, .symbol _ _ h => .symbol _ _ h
  | _, _, .number _ _ h => .number _ _ h
  | _, _, .string _ _ h => .string _ _ h
  | _, _, .raw _ _ h => .raw _ _ h
  | _, _, .list _ _ _ _ _ _ _ h1 h2 h3 h4 => .list _ _ _ _ _ _ _ _ (moveds_laid h1) h2 h3 h4 rfl
  | _, _, .attr _ _ _ _ _ _ h1 h2 => .attr _ _ _ _ _ _ _ (moved_laid h1) h2 rfl
theorem moveds_laid : ∀ {ns ms : List PNode}, Moveds S ns ms → Laids S (· = ·) ns ms
  | _, _, .nil => .nil
  | _, _, .cons _ _ _ _ h hs => .cons _ _ _ _ (moved_laid h) (moveds_laid hs)
end

theorem movedSt_laid {s t : St} (h : MovedSt S s t) : LaidSt S (· = ·) s t where
  defined := h.defined
  scope name m m' hm hm' := ⟨moveds_laid (h.scope name m m' hm hm').1, moveds_laid (h.scope name m m' hm hm').2⟩
  fresh := h.fresh
  log := h.log
  hashes := h.hashes
  order := h.order
theorem laidSt_moved {s t : St} (h : LaidSt S (· = ·) s t) : MovedSt S s t where
  defined := h.defined
  scope name m m' hm hm' := ⟨laids_moved (h.scope name m m' hm hm').1, laids_moved (h.scope name m m' hm hm').2⟩
  fresh := h.fresh
  log := h.log
  hashes := h.hashes
  order := h.order
theorem laidRes_moved {r r' : Res (List PNode)} (h : LaidRes S (· = ·) r r') : MovedRes S r r' := by
  cases h with
  | ok _ _ h => exact .ok _ _ (laids_moved h)
  | err _ _ h => exact .err _ _ h
  | panic => exact .panic

theorem parse_moved (u : Unescape) {b b' : Buf} {toks toks' : List Token} {e e' : Ending} (h : TokensOf b toks e)
    (h' : TokensOf b' toks' e') (hp : Pairs (LaidToken S (· = ·)) toks toks') (he : MovedEnd S e e') :
    MovedTree S (parse u b) (parse u b') := by
  have := parse_laid u h h' hp he
  generalize parse u b = r at this ⊢
  generalize parse u b' = r' at this ⊢
  cases this with
  | done _ _ h => exact .done _ _ (laidRes_moved h)
  | diverge => exact .diverge
end

instance blanking_same : Blanking (· = ·) where
  const _ := rfl
  first h := by rw [h]

end Seam
