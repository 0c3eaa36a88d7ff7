import Verif.Lemmas.Reader
import Verif.Lemmas.Markup

/-! Helper lemmas: the source text between a child of a list and its closing
parenthesis. -/

namespace Seam
open Spec

theorem expr_first {u : Unescape} {ts : List Token} {n : PNode} (h : Expr u ts n) :
    ∃ t ts', ts = t :: ts' ∧ OwnToken u t n := by
  cases h with
  | symbol t h => exact ⟨t, [], rfl, h, rfl⟩
  | number t h => exact ⟨t, [], rfl, h, rfl⟩
  | string t v h hv => exact ⟨t, [], rfl, h, hv, rfl, rfl⟩
  | list o c ts ns h _ _ => exact ⟨o, _, rfl, h, rfl, rfl⟩
  | attr k ts n h _ => exact ⟨k, _, rfl, h, rfl, rfl, rfl⟩

/-- The tokens of a program are those of the nodes in front, of the node, and of
the nodes behind. -/
theorem exprs_split {u : Unescape} : ∀ {pre : List PNode} {ts : List Token} {n : PNode} {post : List PNode},
    Exprs u ts (pre ++ n :: post) → ∃ p us q, ts = p ++ us ++ q ∧ Expr u us n
  | [], _, n, post, h => by
    cases h with
    | cons us _ us' _ hm hs => exact ⟨[], us, us', by simp, hm⟩
  | m :: pre, _, n, post, h => by
    cases h with
    | cons us _ us' _ hm hs =>
      obtain ⟨p, vs, q, h1, h2⟩ := exprs_split hs
      exact ⟨us ++ p, vs, q, by simp [h1], h2⟩

/-- The tokens of a node stand together. -/
theorem within_infix {u : Unescape} {n : PNode} {ns : List PNode} (h : Within n ns) :
    ∀ {ts : List Token}, Exprs u ts ns → ∃ p us q, ts = p ++ us ++ q ∧ Expr u us n := by
  induction h with
  | here ns hn =>
    intro ts hs
    obtain ⟨a, b, rfl⟩ := List.append_of_mem hn
    exact exprs_split hs
  | inList ns kids s e w hn _ ih =>
    intro ts hs
    obtain ⟨a, b, rfl⟩ := List.append_of_mem hn
    obtain ⟨p, us, q, rfl, hx⟩ := exprs_split hs
    cases hx with
    | list o c vs _ _ _ hv =>
      obtain ⟨p', xs, q', rfl, h4⟩ := ih hv
      exact ⟨p ++ o :: p', xs, q' ++ e :: q, by simp, h4⟩
  | inAttr ns k v s w hn _ ih =>
    intro ts hs
    obtain ⟨a, b, rfl⟩ := List.append_of_mem hn
    obtain ⟨p, us, q, rfl, hx⟩ := exprs_split hs
    cases hx with
    | attr kt vs _ _ hv =>
      have : Exprs u (vs ++ []) [v] := .cons vs v [] [] hv .nil
      obtain ⟨p', xs, q', hx, h4⟩ := ih this
      simp only [List.append_nil] at hx
      subst hx
      exact ⟨p ++ kt :: p', xs, q' ++ q, by simp, h4⟩

theorem tokens_split {b : Buf} {pre : List Token} : ∀ {before : Str} {line : Nat} {rest : Str} {post : List Token}
    {e : Ending}, Tokens b before line rest (pre ++ post) e →
    ∃ before' line' rest', before' ++ rest' = before ++ rest ∧ Tokens b before' line' rest' post e := by
  induction pre with
  | nil => intro before line rest post e h; exact ⟨before, line, rest, rfl, h⟩
  | cons t pre ih =>
    intro before line rest post e h
    cases h with
    | token _ _ triv lead kind text value rest _ _ ht hl h =>
      obtain ⟨b', l', r', h1, h2⟩ := ih h
      exact ⟨b', l', r', by simp [h1], h2⟩

/-- Between two tokens: the first with its whitespace, and what follows up to the second. -/
theorem tokens_between {b : Buf} {p mid q : List Token} {t c : Token} {e : Ending}
    (h : TokensOf b (p ++ t :: (mid ++ c :: q)) e) :
    ∃ before text after, b.code = before ++ t.lw ++ text ++ after ∧ t.site.off = blen (before ++ t.lw) ∧
      c.site.off = blen (before ++ t.lw ++ text) ∧ t.site.buf = b.id ∧ c.site.buf = b.id ∧ c.site.code = b.code ∧
      Blanks t.lw := by
  obtain ⟨before', line', rest', h1, h2⟩ := tokens_split h
  simp only [List.nil_append] at h1
  cases h2 with
  | token _ _ triv lead kind text value rest _ _ ht hl h3 =>
    obtain ⟨pl, hp, _⟩ := placed_of_tokens h3 (by rw [← h1]; simp) c (by simp)
    obtain ⟨gap, hg⟩ := hp
    have hlead : ∀ {triv lead}, Trivia triv lead → Blanks lead ∧ lead <:+ triv := by
      intro triv lead h
      induction h with
      | blanks w hw => exact ⟨hw, List.suffix_refl _⟩
      | comment w text r lead _ _ _ ih => exact ⟨ih.1, ih.2.trans ⟨w ++ ';' :: text, by simp⟩⟩
    obtain ⟨hb, x, rfl⟩ := hlead ht
    refine ⟨before' ++ x, text ++ gap ++ pl.triv, pl.text ++ pl.after, ?_, ?_, ?_, rfl, ?_, ?_, hb⟩
    · rw [pl.code, ← hg]; simp
    · simp [siteOf]
    · rw [pl.site, ← hg]; simp [siteOf]
    · rw [pl.site]; rfl
    · rw [pl.site]; rfl

/-- A child of a list of a parsed program and the closing parenthesis. -/
theorem child_to_close {u : Unescape} {b : Buf} {ns : List PNode} (h : parse u b = .ok ns) {pre : List PNode} {k : PNode}
    {post : List PNode} {s : Site} {e : Token} {w : Str} (hn : Within (.list (pre ++ k :: post) s e w) ns) :
    ∃ before text after, b.code = before ++ k.lw ++ text ++ after ∧ k.site.off = blen (before ++ k.lw) ∧
      e.site.off = blen (before ++ k.lw ++ text) ∧ k.site.buf = b.id ∧ e.site.buf = b.id ∧ e.site.code = b.code ∧
      Blanks k.lw := by
  obtain ⟨toks, ht, hs⟩ := parse_ok_tokens h
  obtain ⟨p, us, q, rfl, hx⟩ := within_infix hn hs
  cases hx with
  | list o _ ts _ _ _ hv =>
    obtain ⟨p', us, q', rfl, hk⟩ := exprs_split hv
    obtain ⟨t, us', rfl, ho⟩ := expr_first hk
    obtain ⟨h1, h2⟩ := ownToken_site ho
    have := tokens_between (b := b) (p := p ++ o :: p') (mid := us' ++ q') (t := t) (c := e) (q := q) (e := .eof)
      (by simpa using ht)
    rw [h1, h2]
    exact this

/-- `raw_text` on such a child. -/
theorem rawText_of_source {b : Buf} {k : PNode} {e : Token} {before text after : Str}
    (hc : b.code = before ++ k.lw ++ text ++ after) (hk : k.site.off = blen (before ++ k.lw))
    (he : e.site.off = blen (before ++ k.lw ++ text)) (hb : k.site.buf = b.id) (hb' : e.site.buf = b.id)
    (hcode : e.site.code = b.code) :
    rawText (some k) e = .ok ((if k.lw.head? = some ' ' then k.lw.tail else k.lw) ++ text) := by
  unfold rawText
  simp only [hb, hb', if_true]
  have hle : blen k.lw ≤ k.site.off := by rw [hk]; simp
  rw [if_pos hle, hcode, hc, he, hk]
  cases hl : k.lw with
  | nil =>
    simp only [List.head?_nil, reduceCtorEq, if_false, List.append_nil, List.nil_append]
    have := sliceBytes_append before text after
    have e1 : blen before - blen ([] : Str) + 0 = blen before := by simp
    rw [e1]
    have e2 : blen (before ++ text) = blen before + blen text := by simp
    rw [e2, List.append_assoc, this]
  | cons c w =>
    by_cases hsp : c = ' '
    · subst hsp
      simp only [List.head?_cons, if_true, List.tail_cons]
      have := sliceBytes_append (before ++ [' ']) (w ++ text) after
      have e1 : blen (before ++ ' ' :: w) - blen (' ' :: w) + 1 = blen (before ++ [' ']) := by
        have : (' ' : Char).utf8Size = 1 := by decide
        simp [this]
      have e2 : blen (before ++ ' ' :: w ++ text) = blen (before ++ [' ']) + blen (w ++ text) := by
        simp; omega
      rw [e1, e2]
      have e3 : before ++ ' ' :: w ++ text ++ after = before ++ [' '] ++ (w ++ text ++ after) := by simp
      rw [e3, this]
    · have hne : ¬ ((c :: w).head? = some ' ') := by simpa using hsp
      rw [if_neg hne, if_neg hne]
      have := sliceBytes_append before (c :: w ++ text) after
      have e1 : blen (before ++ c :: w) - blen (c :: w) + 0 = blen before := by simp
      have e2 : blen (before ++ c :: w ++ text) = blen before + blen (c :: w ++ text) := by
        simp
      rw [e1, e2]
      have e3 : before ++ c :: w ++ text ++ after = before ++ (c :: w ++ text ++ after) := by simp
      rw [e3, this]

end Seam
