import Verif.Lemmas.Layout
import Verif.Lemmas.Sites
import Verif.Spec.Joined

/-! Reading two texts joined by a line break. -/

namespace Seam
open Spec

theorem blanks_newline {w : Str} (h : Blanks w) {v : Str} (hv : Blanks v) : Blanks (w ++ '\n' :: v) := by
  intro c hc
  rcases List.mem_append.1 hc with hc | hc
  · exact h c hc
  · rcases List.mem_cons.1 hc with rfl | hc
    · rfl
    · exact hv c hc

theorem trivia_break {y lead : Str} (h : Trivia y lead) : ∀ w, Blanks w → ∃ lead', Trivia (w ++ '\n' :: y) lead' ∧ AfterBreak lead lead' := by
  intro w hw
  cases h with
  | blanks _ hy => exact ⟨_, .blanks _ (blanks_newline hw hy), .inr ⟨w, hw, rfl⟩⟩
  | comment w2 text r _ hw2 ht hr =>
    have h := Trivia.comment (w ++ '\n' :: w2) text r lead (blanks_newline hw hw2) ht hr
    exact ⟨lead, by simpa using h, .inl rfl⟩

theorem trivia_then {t l y lead : Str} (ht : Trivia t l) (h : Trivia y lead) :
    ∃ lead', Trivia (t ++ '\n' :: y) lead' ∧ AfterBreak lead lead' := by
  induction ht with
  | blanks w hw => exact trivia_break h w hw
  | comment w text r _ hw ht hr ih =>
    obtain ⟨lead', h1, h2⟩ := ih
    have h := Trivia.comment w text (r ++ '\n' :: y) lead' hw ht h1
    exact ⟨lead', by simpa using h, h2⟩

theorem trivia_comment {t l y lead text : Str} (ht : Trivia t l) (hx : '\n' ∉ text) (h : Trivia y lead) :
    ∃ lead', Trivia (t ++ ';' :: text ++ '\n' :: y) lead' ∧ AfterBreak lead lead' := by
  induction ht with
  | blanks w hw =>
    obtain ⟨lead', h1, h2⟩ := trivia_break h [] (by intro c hc; simp at hc)
    exact ⟨lead', .comment w text y lead' hw hx h1, h2⟩
  | comment w text' r _ hw ht hr ih =>
    obtain ⟨lead', h1, h2⟩ := ih
    have h := Trivia.comment w text' (r ++ ';' :: text ++ '\n' :: y) lead' hw ht (by simpa using h1)
    exact ⟨lead', by simpa using h, h2⟩

theorem trivia_join {x y lead : Str} (hx : EndTrivia x) (h : Trivia y lead) :
    ∃ lead', Trivia (x ++ '\n' :: y) lead' ∧ AfterBreak lead lead' := by
  obtain ⟨t, l, ht, rfl | ⟨text, hn, rfl⟩⟩ := hx
  · exact trivia_then ht h
  · exact trivia_comment ht hn h

theorem endTrivia_join {x y : Str} (hx : EndTrivia x) (hy : EndTrivia y) : EndTrivia (x ++ '\n' :: y) := by
  obtain ⟨t, l, ht, hc⟩ := hy
  obtain ⟨l', h1, _⟩ := trivia_join hx ht
  refine ⟨_, l', h1, ?_⟩
  rcases hc with rfl | ⟨text, hn, rfl⟩
  · exact .inl rfl
  · exact .inr ⟨text, hn, by simp⟩

theorem stop_more {rest r : Str} (h : Stop rest) : Stop (rest ++ '\n' :: r) := by
  cases rest with
  | nil => rfl
  | cons c l => exact h

theorem lexeme_more {kind : Kind} {text value rest r : Str} (h : Lexeme kind text value rest) :
    Lexeme kind text value (rest ++ '\n' :: r) := by
  cases h with
  | lparen => exact .lparen _
  | rparen => exact .rparen _
  | symbol _ _ h1 h2 h3 => exact .symbol _ _ h1 h2 (stop_more h3)
  | number _ _ h1 h2 h3 => exact .number _ _ h1 h2 (stop_more h3)
  | keyword _ _ h1 h2 => exact .keyword _ _ h1 (stop_more h2)
  | string q _ _ h1 h2 =>
    refine .string q _ _ h1 ?_
    rcases h2 with ⟨rfl, h2⟩ | ⟨rfl, h2, h3⟩
    · exact .inl ⟨rfl, ⟨value ++ q3 ++ (rest ++ '\n' :: r), by simp⟩⟩
    · refine .inr ⟨rfl, ⟨value ++ q1 ++ (rest ++ '\n' :: r), by simp⟩, fun h4 => h3 ?_⟩
      revert h4
      cases value with
      | nil => cases rest <;> simp [q1, q3]
      | cons a value => cases value <;> simp [q1, q3]

theorem lastLine_break (a x : Str) : lastLine (a ++ '\n' :: x) = lastLine x := by
  obtain ⟨y, hy, h⟩ := lastLine_suffix x
  have hn := lastLine_notin x
  generalize lastLine x = z at hy hn ⊢
  subst hy
  have e : a ++ '\n' :: (y ++ z) = (a ++ '\n' :: y) ++ z := by simp
  rw [e]
  refine lastLine_line (.inr ?_) hn
  rcases h with rfl | ⟨y', rfl⟩
  · exact ⟨a, rfl⟩
  · exact ⟨a ++ '\n' :: y', by simp⟩

theorem newline_size : Char.utf8Size '\n' = 1 := by decide

theorem siteOf_shift {b c : Buf} (line k : Nat) (pre before text : Str) :
    ShiftedTo c k (blen pre + 1) (siteOf b line before text) (siteOf c (line + k) (pre ++ '\n' :: before) text) := by
  simp only [ShiftedTo, siteOf, lastLine_break, Site.mk.injEq, true_and, and_true, blen_append, blen_cons, newline_size]
  omega

theorem tokenLine_add (kind : Kind) (line k : Nat) (triv text : Str) :
    tokenLine kind (line + k) triv text = tokenLine kind line triv text + k := by
  simp only [tokenLine]; omega

theorem tokens_shift {b c : Buf} {k : Nat} {pre : Str} {before : Str} {line : Nat} {rest : Str} {toks : List Token} {e : Ending}
    (h : Tokens b before line rest toks e) :
    ∃ toks' e', Tokens c (pre ++ '\n' :: before) (line + k) rest toks' e' ∧
      Pairs (LaidToken (ShiftedTo c k (blen pre + 1)) (· = ·)) toks toks' ∧ MovedEnd (ShiftedTo c k (blen pre + 1)) e e' := by
  induction h with
  | eof before line rest h => exact ⟨_, _, .eof _ _ _ h, .nil, .eof⟩
  | unclosed before line triv lead q s h1 h2 h3 =>
    refine ⟨_, _, .unclosed _ _ triv lead q s h1 h2 h3, .nil, .unclosed _ _ _ ?_⟩
    have := siteOf_shift (b := b) (c := c) (line + newlines triv) k pre (before ++ triv) q
    rw [Nat.add_right_comm line k]
    simpa using this
  | cut before line triv lead text h1 h2 h3 => exact ⟨_, _, .cut _ _ triv lead text h1 h2 h3, .nil, .cut⟩
  | token before line triv lead kind text value rest toks e h1 h2 h3 ih =>
    obtain ⟨toks', e', t1, t2, t3⟩ := ih
    refine ⟨_, e', .token _ _ triv lead kind text value rest toks' e' h1 h2 ?_, .cons ⟨rfl, rfl, rfl, ?_⟩ t2, t3⟩
    · have e1 : line + k + newlines triv + 2 * newlines text = line + newlines triv + 2 * newlines text + k := by omega
      rw [e1]
      simpa using t1
    · have := siteOf_shift (b := b) (c := c) (tokenLine kind line triv text) k pre (before ++ triv) text
      rw [tokenLine_add]
      simpa using this

theorem tokens_cast {c : Buf} {before : Str} {line : Nat} {rest rest' : Str} {toks : List Token} {e : Ending} (h : rest = rest')
    (ht : Tokens c before line rest toks e) : Tokens c before line rest' toks e := h ▸ ht

/-- The first token after other blanks. -/
def relead (w : Str) : List Token → List Token
  | [] => []
  | t :: ts => { t with lw := w } :: ts

/-- The tokens of the second text, in the joined text. -/
def JoinedTail (c : Buf) (k n : Nat) (bt us : List Token) : Prop :=
  ∃ w, (∀ t ∈ bt.head?, AfterBreak t.lw w) ∧ Pairs (LaidToken (ShiftedTo c k n) (· = ·)) (relead w bt) us

theorem tokens_break {b c : Buf} {before x : Str} {line : Nat} (hx : EndTrivia x) {bt : List Token} {e : Ending} (hb : TokensOf b bt e) :
    ∃ us e', Tokens c before line (x ++ '\n' :: b.code) us e' ∧ JoinedTail c (line + newlines x) (blen (before ++ x) + 1) bt us ∧
      MovedEnd (ShiftedTo c (line + newlines x) (blen (before ++ x) + 1)) e e' := by
  unfold TokensOf at hb
  generalize b.code = code at hb ⊢
  obtain ⟨z, hz⟩ : ∃ z : Str, [] = z := ⟨_, rfl⟩
  obtain ⟨one, ho⟩ : ∃ n : Nat, 1 = n := ⟨_, rfl⟩
  rw [hz, ho] at hb
  cases hb with
  | eof _ _ rest h => exact ⟨_, _, .eof _ _ _ (endTrivia_join hx h), ⟨[], by simp, .nil⟩, .eof⟩
  | unclosed _ _ triv lead q s h1 h2 h3 =>
    obtain ⟨lead', t1, _⟩ := trivia_join hx h1
    have ht := Tokens.unclosed (b := c) before line (x ++ '\n' :: triv) lead' q s t1 h2 h3
    refine ⟨_, _, tokens_cast (by simp) ht, ⟨[], by simp, .nil⟩, .unclosed _ _ _ ?_⟩
    have := siteOf_shift (b := b) (c := c) (one + newlines triv) (line + newlines x) (before ++ x) ([] ++ triv) q
    have e1 : line + newlines (x ++ '\n' :: triv) = one + newlines triv + (line + newlines x) := by
      rw [newlines_append, newlines_cons, ← ho]; simp; omega
    rw [e1, ← hz]
    simpa using this
  | cut _ _ triv lead text h1 h2 h3 =>
    obtain ⟨lead', t1, _⟩ := trivia_join hx h1
    have ht := Tokens.cut (b := c) before line (x ++ '\n' :: triv) lead' text t1 h2 h3
    exact ⟨_, _, tokens_cast (by simp) ht, ⟨[], by simp, .nil⟩, .cut⟩
  | token _ _ triv lead kind text value rest toks e h1 h2 h3 =>
    obtain ⟨lead', t1, t2⟩ := trivia_join hx h1
    obtain ⟨toks', e', t3, t4, t5⟩ := tokens_shift (c := c) (k := line + newlines x) (pre := before ++ x) h3
    have e1 : one + newlines triv + 2 * newlines text + (line + newlines x) =
        line + newlines (x ++ '\n' :: triv) + 2 * newlines text := by
      rw [newlines_append, newlines_cons, ← ho]; simp; omega
    rw [e1] at t3
    have ht := Tokens.token (b := c) before line (x ++ '\n' :: triv) lead' kind text value rest toks' e' t1 h2 (by simpa [← hz] using t3)
    refine ⟨_, e', tokens_cast (by simp) ht, ⟨lead', by simpa using t2, .cons ⟨rfl, rfl, rfl, ?_⟩ t4⟩, t5⟩
    have := siteOf_shift (b := b) (c := c) (tokenLine kind one triv text) (line + newlines x) (before ++ x) ([] ++ triv) text
    have e2 : tokenLine kind line (x ++ '\n' :: triv) text = tokenLine kind one triv text + (line + newlines x) := by
      simp only [tokenLine, newlines_append, newlines_cons, ← ho]; simp; omega
    rw [e2, ← hz]
    simpa using this

theorem tokens_join {a b c : Buf} {bt : List Token} {e : Ending} (hb : TokensOf b bt e) : ∀ {before : Str} {line : Nat} {rest : Str} {toks : List Token},
    Tokens a before line rest toks .eof →
    ∃ k toks' us e', Tokens c before line (rest ++ '\n' :: b.code) (toks' ++ us) e' ∧ line + newlines rest ≤ k ∧
      Pairs (LaidToken (ShiftedTo c 0 0) (· = ·)) toks toks' ∧ JoinedTail c k (blen before + blen rest + 1) bt us ∧
      MovedEnd (ShiftedTo c k (blen before + blen rest + 1)) e e'
  | before, line, rest, _, .eof _ _ _ h => by
    obtain ⟨us, e', h1, h2, h3⟩ := tokens_break (c := c) (before := before) (line := line) h hb
    rw [blen_append] at h2 h3
    exact ⟨_, [], us, e', h1, Nat.le_refl _, .nil, h2, h3⟩
  | before, line, _, _, .token _ _ triv lead kind text value rest toks _ h1 h2 h3 => by
    obtain ⟨k, toks', us, e', t1, t2, t3, t4, t5⟩ := tokens_join hb h3
    have e1 : blen (before ++ triv ++ text) + blen rest + 1 = blen before + blen (triv ++ (text ++ rest)) + 1 := by
      simp; omega
    rw [e1] at t4 t5
    have ht := Tokens.token (b := c) before line triv lead kind text value _ _ _ h1 (lexeme_more h2) t1
    refine ⟨k, { kind := kind, value := value, lw := lead, site := siteOf c (tokenLine kind line triv text) (before ++ triv) text } :: toks',
      us, e', tokens_cast (by simp) ht, ?_, .cons ⟨rfl, rfl, rfl, (by simp [ShiftedTo, siteOf])⟩ t3, t4, t5⟩
    simp only [newlines_append] at t2 ⊢
    omega

theorem expr_relead {u : Unescape} {ts : List Token} {n : PNode} (w : Str) (h : Expr u ts n) : Expr u (relead w ts) (n.setLw w) := by
  cases h with
  | symbol t hk => exact .symbol _ hk
  | number t hk => exact .number _ hk
  | string t v hk hv => exact .string _ v hk hv
  | list o c ts ns h1 h2 h3 => exact .list { o with lw := w } c ts ns h1 h2 h3
  | attr k ts n h1 h2 => exact .attr { k with lw := w } ts n h1 h2

theorem exprs_relead {u : Unescape} {ts : List Token} {ns : List PNode} (w : Str) (h : Exprs u ts ns) :
    Exprs u (relead w ts) (firstSpaced w ns) := by
  cases h with
  | nil => exact .nil
  | cons ts n ts' ns hn hs =>
    obtain ⟨t, vs, rfl, _⟩ := expr_head hn
    exact .cons _ _ _ _ (expr_relead w hn) hs

theorem exprs_lead {u : Unescape} {ts : List Token} {ns : List PNode} (h : Exprs u ts ns) : ∀ n ∈ ns.head?, ∃ t ∈ ts.head?, n.lw = t.lw := by
  cases h with
  | nil => simp
  | cons ts n ts' ns hn hs =>
    intro m hm
    simp only [List.head?_cons, Option.mem_def, Option.some.injEq] at hm
    subst hm
    cases hn with
    | symbol t hk => exact ⟨t, by simp, rfl⟩
    | number t hk => exact ⟨t, by simp, rfl⟩
    | string t v hk hv => exact ⟨t, by simp, rfl⟩
    | list o c ts ns h1 h2 h3 => exact ⟨o, by simp, rfl⟩
    | attr k ts n h1 h2 => exact ⟨k, by simp, rfl⟩

theorem relead_laid {S : Site → Site → Prop} {w : Str} : ∀ {ts us : List Token}, Pairs (LaidToken S (· = ·)) (relead w ts) us →
    Pairs (LaidToken S fun _ _ => True) ts us := by
  have weak : ∀ {ts us : List Token}, Pairs (LaidToken S (· = ·)) ts us → Pairs (LaidToken S fun _ _ => True) ts us := by
    intro ts us h
    induction h with
    | nil => exact .nil
    | cons h hs ih => exact .cons ⟨h.1, h.2.1, trivial, h.2.2.2⟩ ih
  intro ts us h
  cases ts with
  | nil => exact weak h
  | cons t ts =>
    cases h with
    | cons h hs => exact .cons ⟨h.1, h.2.1, trivial, h.2.2.2⟩ (weak hs)

theorem exprs_append {u : Unescape} {us : List Token} {ms : List PNode} (h' : Exprs u us ms) : ∀ {ts : List Token} {ns : List PNode},
    Exprs u ts ns → Exprs u (ts ++ us) (ns ++ ms)
  | _, _, .nil => h'
  | _, _, .cons ts n ts' ns hn hs => by
    rw [List.append_assoc]
    exact .cons _ _ _ _ hn (exprs_append h' hs)

theorem cutList_append {u : Unescape} {us : List Token} (h' : CutList u us) : ∀ {ts : List Token} {ns : List PNode},
    Exprs u ts ns → CutList u (ts ++ us)
  | _, _, .nil => h'
  | _, _, .cons ts n ts' ns hn hs => by
    rw [List.append_assoc]
    exact .later _ _ _ hn (cutList_append h' hs)

/-- What is read from a text joined to another. -/
def JoinedRes (c : Buf) (k n : Nat) (ns' : List PNode) : Res (List PNode) → Res (List PNode) → Prop
  | .ok ms, r => ∃ w ms', r = .ok (ns' ++ ms') ∧ Laids (ShiftedTo c k n) (· = ·) (firstSpaced w ms) ms' ∧ ∀ m ∈ ms.head?, AfterBreak m.lw w
  | .err x, r => ∃ y, r = .err y ∧ MovedErr (ShiftedTo c k n) x y
  | .diverge, r => r = .diverge
  | .panic, _ => False

theorem parse_joined (u : Unescape) {a b c : Buf} (hc : c.code = a.code ++ '\n' :: b.code) {ns : List PNode} (ha : parse u a = .ok ns) :
    ∃ ns' k, Laids (ShiftedTo c 0 0) (· = ·) ns ns' ∧ newlines a.code < k ∧ JoinedRes c k (blen a.code + 1) ns' (parse u b) (parse u c) := by
  obtain ⟨ta, h1, h2⟩ := parse_ok_tokens ha
  obtain ⟨tb, e, hb⟩ := tokens_total b [] 1 b.code
  obtain ⟨k, ta', us, e', t1, t2, t3, ⟨w, hw, t4⟩, t5⟩ := tokens_join (c := c) hb h1
  have t1 : TokensOf c (ta' ++ us) e' := by unfold TokensOf; rw [hc]; exact t1
  simp only [blen_nil, Nat.zero_add] at t4 t5
  obtain ⟨ns', x1, x2⟩ := exprs_laid h2 t3
  refine ⟨ns', k, x2, by omega, ?_⟩
  have ho := parse_out u b hb
  have hlen := tokens_length t1
  have hat := at_new t1
  have hpl : parse u c = parseRoot u (parseFuel c.code.length) (Lex.new c) := rfl
  have hfuel : 3 * (ta' ++ us).length + 2 ≤ parseFuel c.code.length := by unfold parseFuel; omega
  rw [hpl]
  generalize parse u b = r at ho ⊢
  cases r with
  | ok ms =>
    obtain ⟨rfl, hx⟩ := ho
    cases t5
    obtain ⟨ms', y1, y2⟩ := exprs_laid (exprs_relead w hx) t4
    refine ⟨w, ms', root_ok (exprs_append y1 x1) _ _ hat hfuel, y2, fun m hm => ?_⟩
    obtain ⟨t, ht, e⟩ := exprs_lead hx m hm
    rw [e]; exact hw t ht
  | err x =>
    have ho : Fault u tb e x := ho
    have t4 := relead_laid t4
    cases ho with
    | mk ts ns ts' _ _ h1 h2 =>
      obtain ⟨cs, cs', rfl, p1, p2⟩ := pairs_split ts t4
      obtain ⟨ms, hm, hv⟩ := exprs_laid h1 p1
      obtain ⟨y, hy, hx⟩ := faultExpr_laid h2 p2 t5
      rw [← List.append_assoc] at hat hfuel
      exact ⟨y, root_err hy (exprs_append hm x1) _ _ hat (by simpa [Nat.add_assoc] using hfuel), hx⟩
  | panic => exact ho.elim
  | diverge =>
    obtain ⟨rfl, hx⟩ := ho
    cases t5
    exact root_cut (cutList_append (cutList_laid hx (relead_laid t4)) x1) _ _ hat hfuel

end Seam
