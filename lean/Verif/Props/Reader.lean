import Verif.Lemmas.Reader
import Verif.Lemmas.Comment
import Verif.Lemmas.Check

/-!
# Properties of the reader (C01–C12)

`parse u b` is `Parser::parse` on the buffer `b`; `u` is the unescaping of
string contents (crate `descape`), over which all theorems quantify.
-/

namespace Seam
open Spec

/-- A sample source: `(p :class "x" hi) ; note⏎ 42`. -/
def demo : Buf :=
  { path := str! "a.sex", id := 1, code := str! "(p :class \"x\" hi) ; note\n 42" }

/-- It parses (with string contents taken as they are), to two nodes. -/
theorem demo_parses : ∃ ns, parse some demo = .ok ns ∧ ns.length = 2 := by
  obtain ⟨ns, h1, h2⟩ := Res.okP_elim (r := parse some demo) (p := fun ns => decide (ns.length = 2)) (by decide +kernel)
  exact ⟨ns, h1, by simpa using h2⟩

/-! ## C01 -/

/-- C01: the site of every node selects exactly the text of the node's own token,
and `view` returns it (no panic). -/
theorem C01_site_selects_own_text (u : Unescape) (b : Buf) (ns : List PNode) (h : parse u b = .ok ns)
    (n : PNode) (hn : Within n ns) :
    ∃ before text after, Selects n.site b.code before text after ∧ OwnText u n text ∧
      n.site.view = some text ∧ n.site.path = b.path := by
  obtain ⟨toks, ht, hs⟩ := parse_ok_tokens h
  obtain ⟨us, hus, hx⟩ := within_expr hn hs
  obtain ⟨t, htm, ho⟩ := expr_ownToken hx
  obtain ⟨p, _⟩ := placed_of_tokensOf ht t (hus htm)
  have hsite : n.site = siteOf b p.line (p.before ++ p.triv) p.text := by
    rw [(ownToken_site ho).1, p.site]
  refine ⟨p.before ++ p.triv, p.text, p.after, ⟨p.code, ?_, ?_, ?_⟩, ownText_of_token ho p.lexeme, ?_, ?_⟩
  all_goals rw [hsite]
  · rfl
  · rfl
  · rfl
  · exact siteOf_view b _ _ _ p.after p.code
  · rfl

/-- C01, closing parentheses: the site of the closing parenthesis of every list
selects a `)`. -/
theorem C01_close_selects_paren (u : Unescape) (b : Buf) (ns : List PNode) (h : parse u b = .ok ns)
    (kids : List PNode) (s : Site) (e : Token) (w : Str) (hn : Within (.list kids s e w) ns) :
    ∃ before after, Selects e.site b.code before [')'] after ∧ e.site.view = some [')'] ∧ e.site.path = b.path := by
  obtain ⟨toks, ht, hs⟩ := parse_ok_tokens h
  obtain ⟨us, hus, hx⟩ := within_expr hn hs
  cases hx with
  | list o _ ts _ _ hc _ =>
    obtain ⟨p, _⟩ := placed_of_tokensOf ht e (hus (by simp))
    have htext := rparen_text hc p.lexeme
    have hsite := p.site
    have hcode := p.code
    rw [htext] at hsite hcode
    refine ⟨p.before ++ p.triv, p.after, ⟨hcode, ?_, ?_, ?_⟩, ?_, ?_⟩
    all_goals rw [hsite]
    · rfl
    · rfl
    · rfl
    · exact siteOf_view b _ _ _ p.after hcode
    · rfl

/-- The hypotheses are met by every node of the sample, for example the symbol
`hi` inside the list. -/
example : ∃ ns n, parse some demo = .ok ns ∧ Within n ns ∧ n.site.view = some (str! "hi") := by
  obtain ⟨ns, n, h1, h2, h3⟩ := exists_within (r := parse some demo)
    (fun n => decide (n.site.view = some (str! "hi"))) (by decide +kernel)
  exact ⟨ns, n, h1, h2, by simpa using h3⟩

/-! ## C02 -/

/-- C02: `start_of_line` of every node is the true start of its line: the start
of the file or just behind a newline, with no newline between it and the node;
and the quoted line (`line_slice`) is that line up to the next newline. -/
theorem C02_columns_from_line_start (u : Unescape) (b : Buf) (ns : List PNode) (h : parse u b = .ok ns)
    (n : PNode) (hn : Within n ns) :
    ∃ above left right below, b.code = above ++ left ++ right ++ below ∧
      (above = [] ∨ ∃ a, above = a ++ ['\n']) ∧ '\n' ∉ left ∧ '\n' ∉ right ∧ (below = [] ∨ below.head? = some '\n') ∧
      n.site.off = blen (above ++ left) ∧ n.site.startOfLine = some (blen above) ∧
      n.site.preceding = some left ∧ n.site.lineSlice = some (left ++ right) := by
  obtain ⟨toks, ht, hs⟩ := parse_ok_tokens h
  obtain ⟨us, hus, hx⟩ := within_expr hn hs
  obtain ⟨t, htm, ho⟩ := expr_ownToken hx
  obtain ⟨p, _⟩ := placed_of_tokensOf ht t (hus htm)
  have hsite : n.site = siteOf b p.line (p.before ++ p.triv) p.text := by
    rw [(ownToken_site ho).1, p.site]
  obtain ⟨a, h1, h2, h3⟩ := siteOf_startOfLine b p.line (p.before ++ p.triv) p.text
  refine ⟨a, lastLine (p.before ++ p.triv), (p.text ++ p.after).takeWhile (· != '\n'),
    (p.text ++ p.after).dropWhile (· != '\n'), ?_, h2, lastLine_notin _, ?_, ?_, ?_, ?_, ?_, ?_⟩
  · rw [← h1, List.append_assoc, List.takeWhile_append_dropWhile, p.code]; simp
  · intro hm
    have := List.all_takeWhile (l := p.text ++ p.after) (p := (· != '\n'))
    rw [List.all_eq_true] at this
    simpa using this _ hm
  · have := List.head?_dropWhile_not (· != '\n') (p.text ++ p.after)
    cases hd : (p.text ++ p.after).dropWhile (· != '\n') with
    | nil => exact Or.inl rfl
    | cons c cs => rw [hd] at this; simp at this; right; simp [this]
  · rw [← h1, hsite]; rfl
  · rw [hsite]; exact h3
  · rw [hsite]; exact siteOf_preceding b _ _ _ p.after p.code
  · rw [hsite]; exact siteOf_lineSlice b _ _ _ p.after p.code

/-- In the sample, the number `42` is on a line of its own: ` 42`. -/
example : ∃ ns n, parse some demo = .ok ns ∧ Within n ns ∧ n.site.lineSlice = some (str! " 42") := by
  obtain ⟨ns, n, h1, h2, h3⟩ := exists_within (r := parse some demo)
    (fun n => decide (n.site.lineSlice = some (str! " 42"))) (by decide +kernel)
  exact ⟨ns, n, h1, h2, by simpa using h3⟩

/-! ## C03 -/

/-- C03 is false: after the string `"⏎"` the symbol `x` is on line 2, but is
reported on line 3. -/
theorem C03_line_numbers_false : ∃ (b : Buf) (ns : List PNode) (n : PNode) (before after : Str),
    parse some b = .ok ns ∧ Within n ns ∧ Selects n.site b.code before ['x'] after ∧
    1 + newlines before = 2 ∧ n.site.line = 3 := by
  obtain ⟨ns, n, h1, h2, h3⟩ := exists_within (r := parse some { path := [], id := 1, code := str! "\"\n\" x" })
    (fun n => decide (n.site.code = str! "\"\n\" x" ∧ n.site.off = 4 ∧ n.site.span = 1 ∧ n.site.line = 3))
    (by decide +kernel)
  simp only [decide_eq_true_eq] at h3
  obtain ⟨h3, h4, h5, h6⟩ := h3
  refine ⟨_, ns, n, str! "\"\n\" ", [], h1, h2, ⟨?_, h3, h4, h5⟩, by decide, h6⟩
  decide

theorem line_of_tokens {b : Buf} {before : Str} {line : Nat} {rest : Str} {toks : List Token} {e : Ending}
    (h : Tokens b before line rest toks e) : ∀ (pre : List Token) (t : Token) (post : List Token),
    toks = pre ++ t :: post → b.code = before ++ rest →
    (∀ s ∈ (pre ++ [t]).map Token.site, ∀ v, s.view = some v → '\n' ∉ v) →
    ∃ r text after, Selects t.site b.code (before ++ r) text after ∧ t.site.line = line + newlines r := by
  induction h with
  | eof => intro pre t post h; simp at h
  | unclosed => intro pre t post h; simp at h
  | cut => intro pre t post h; simp at h
  | token before line triv lead kind text value rest toks e ht hl h ih =>
    intro pre t post he hc hv
    have hview : (siteOf b (tokenLine kind line triv text) (before ++ triv) text).view = some text :=
      siteOf_view b _ _ _ rest (by rw [hc]; simp)
    cases pre with
    | nil =>
      simp only [List.nil_append, List.cons.injEq] at he
      obtain ⟨rfl, rfl⟩ := he
      have hn := hv _ (by simp) _ hview
      refine ⟨triv, text, rest, ⟨by rw [hc]; simp, rfl, rfl, rfl⟩, ?_⟩
      simp [siteOf, tokenLine, newlines_eq_zero.2 hn]
    | cons t0 pre =>
      simp only [List.cons_append, List.cons.injEq] at he
      obtain ⟨rfl, rfl⟩ := he
      have hn := hv (siteOf b (tokenLine kind line triv text) (before ++ triv) text) (by simp) _ hview
      obtain ⟨r, text', after', h1, h2⟩ := ih pre t post rfl (by rw [hc]; simp)
        (fun s hs v hv' => hv s (by simp at hs ⊢; exact Or.inr hs) v hv')
      refine ⟨triv ++ text ++ r, text', after', ?_, ?_⟩
      · have e : before ++ (triv ++ text ++ r) = before ++ triv ++ text ++ r := by simp
        rw [e]; exact h1
      · rw [h2]; simp [newlines_eq_zero.2 hn]; omega

/-- C03 as far as it holds: a token (in source order, `sitess`) has the right line
number if neither it nor a token before it contains a newline.  Missing: tokens
after a string with a newline in it or an identifier with an escaped newline. -/
theorem C03_line_numbers_partial (u : Unescape) (b : Buf) (ns : List PNode) (h : parse u b = .ok ns)
    (pre : List Site) (s : Site) (post : List Site) (hs : sitess ns = pre ++ s :: post)
    (hv : ∀ s' ∈ pre ++ [s], ∀ v, s'.view = some v → '\n' ∉ v) :
    ∃ before text after, Selects s b.code before text after ∧ s.line = 1 + newlines before := by
  obtain ⟨toks, ht, hx⟩ := parse_ok_tokens h
  rw [sites_expr.sitess_exprs hx] at hs
  obtain ⟨p, q, rfl, hp, hq⟩ := List.map_eq_append_iff.1 hs
  obtain ⟨t, post', rfl, rfl, hpost⟩ := List.map_eq_cons_iff.1 hq
  obtain ⟨r, text, after, h1, h2⟩ := line_of_tokens ht p t post' rfl (by simp) (by
    intro s' hs' v hv'
    refine hv s' ?_ v hv'
    rw [← hp]; simpa using hs')
  exact ⟨_, text, after, h1, h2⟩

/-- The newlines inside the tokens at the given places. -/
def newlinesInside (sites : List Site) : Nat := (sites.map fun s => newlines (s.view.getD [])).sum

/-- The excess of the reported line of a token with the text `text`: none for strings, twice
its own (escaped) newlines for others. -/
def ownExcess (text : Str) : Nat := if text.head? = some '"' then 0 else 2 * newlines text

theorem lexeme_string {kind : Kind} {text value rest : Str} (h : Lexeme kind text value rest) :
    kind = .string ↔ text.head? = some '"' := by
  obtain ⟨c, cs, rfl, hk, _⟩ := lexeme_head h
  simp only [List.head?_cons, Option.some.injEq]
  constructor
  · rintro rfl
    unfold charKind at hk
    by_cases hc : c = '"'
    · exact hc
    · have hb : (c == '"') = false := by simpa using hc
      rw [hb] at hk
      repeat (split at hk; · cases hk)
      cases hk
  · rintro rfl
    have : charKind '"' = some .string := by decide
    rw [this] at hk
    exact (Option.some.inj hk).symm

theorem line_exact {b : Buf} {before : Str} {line : Nat} {rest : Str} {toks : List Token} {e : Ending}
    (h : Tokens b before line rest toks e) : ∀ (pre : List Token) (t : Token) (post : List Token),
    toks = pre ++ t :: post → b.code = before ++ rest →
    ∃ r text after, Selects t.site b.code (before ++ r) text after ∧
      t.site.line = line + newlines r + newlinesInside (pre.map Token.site) + ownExcess text := by
  induction h with
  | eof => intro pre t post h; simp at h
  | unclosed => intro pre t post h; simp at h
  | cut => intro pre t post h; simp at h
  | token before line triv lead kind text value rest toks e ht hl h ih =>
    intro pre t post he hc
    have hview : (siteOf b (tokenLine kind line triv text) (before ++ triv) text).view = some text :=
      siteOf_view b _ _ _ rest (by rw [hc]; simp)
    cases pre with
    | nil =>
      simp only [List.nil_append, List.cons.injEq] at he
      obtain ⟨rfl, rfl⟩ := he
      refine ⟨triv, text, rest, ⟨by rw [hc]; simp, rfl, rfl, rfl⟩, ?_⟩
      have hk := lexeme_string hl
      simp only [siteOf, tokenLine, ownExcess, newlinesInside, List.map_nil, List.sum_nil, Nat.add_zero]
      by_cases hq : kind = .string
      · rw [if_pos hq, if_pos (hk.1 hq)]
      · rw [if_neg hq, if_neg (fun h => hq (hk.2 h))]
    | cons t0 pre =>
      simp only [List.cons_append, List.cons.injEq] at he
      obtain ⟨rfl, rfl⟩ := he
      obtain ⟨r, text', after', h1, h2⟩ := ih pre t post rfl (by rw [hc]; simp)
      refine ⟨triv ++ text ++ r, text', after', ?_, ?_⟩
      · have e : before ++ (triv ++ text ++ r) = before ++ triv ++ text ++ r := by simp
        rw [e]; exact h1
      · rw [h2]
        simp only [newlinesInside, List.map_cons, List.sum_cons, hview, Option.getD_some]
        simp only [newlines, List.count_append]
        omega

/-- C03, exactly: the line of a token (in source order, `sitess`) is one plus the newlines
before it, plus once more those inside the tokens before it, plus twice its own if it is no
string.  -/
theorem C03_line_exact (u : Unescape) (b : Buf) (ns : List PNode) (h : parse u b = .ok ns)
    (pre : List Site) (s : Site) (post : List Site) (hs : sitess ns = pre ++ s :: post) :
    ∃ before text after, Selects s b.code before text after ∧
      s.line = 1 + newlines before + newlinesInside pre + ownExcess text := by
  obtain ⟨toks, ht, hx⟩ := parse_ok_tokens h
  rw [sites_expr.sitess_exprs hx] at hs
  obtain ⟨p, q, rfl, hp, hq⟩ := List.map_eq_append_iff.1 hs
  obtain ⟨t, post', rfl, rfl, hpost⟩ := List.map_eq_cons_iff.1 hq
  obtain ⟨r, text, after, h1, h2⟩ := line_exact ht p t post' rfl (by simp)
  exact ⟨_, text, after, h1, by rw [← hp]; exact h2⟩

/-- C03: hence the line is right if and only if no token before contains a newline and the
token itself is a string or contains none. -/
theorem C03_right_exactly (u : Unescape) (b : Buf) (ns : List PNode) (h : parse u b = .ok ns)
    (pre : List Site) (s : Site) (post : List Site) (hs : sitess ns = pre ++ s :: post) :
    ∃ before text after, Selects s b.code before text after ∧ (s.line = 1 + newlines before ↔
      (∀ s' ∈ pre, ∀ v, s'.view = some v → '\n' ∉ v) ∧ (text.head? = some '"' ∨ '\n' ∉ text)) := by
  obtain ⟨before, text, after, h1, h2⟩ := C03_line_exact u b ns h pre s post hs
  refine ⟨before, text, after, h1, ?_⟩
  have e1 : newlinesInside pre = 0 ↔ ∀ s' ∈ pre, ∀ v, s'.view = some v → '\n' ∉ v := by
    clear h1 h2 hs
    induction pre with
    | nil => simp [newlinesInside]
    | cons x xs ih =>
      have hx : newlines (x.view.getD []) = 0 ↔ ∀ v, x.view = some v → '\n' ∉ v := by
        cases hv : x.view with
        | none => simp [newlines]
        | some v => rw [Option.getD_some, newlines_eq_zero]; simp
      have : newlinesInside (x :: xs) = newlines (x.view.getD []) + newlinesInside xs := by
        simp [newlinesInside]
      rw [this, Nat.add_eq_zero_iff, ih, hx]
      simp
  have e2 : ownExcess text = 0 ↔ text.head? = some '"' ∨ '\n' ∉ text := by
    unfold ownExcess
    split
    · simp [*]
    · rename_i hq
      rw [← newlines_eq_zero, or_iff_right hq]
      omega
  rw [← e1, ← e2, h2]
  omega

/-- After the string `"⏎"` the symbol `x` has one newline too much. -/
example : newlinesInside [siteOf { path := [], id := 1, code := str! "\"\n\" x" } 1 [] (str! "\"\n\"")] = 1 ∧
    ownExcess ['x'] = 0 ∧ ownExcess (str! "a\\\nb") = 2 := by decide

/-- The sample meets the hypotheses for its last token, `42`, which is on line 2. -/
example : ∃ ns pre s, parse some demo = .ok ns ∧ sitess ns = pre ++ s :: [] ∧ s.line = 2 ∧
    (∀ s' ∈ pre ++ [s], ∀ v, s'.view = some v → '\n' ∉ v) := by
  obtain ⟨ns, h1, h2⟩ := Res.okP_elim (r := parse some demo) (p := fun ns =>
    match (sitess ns).reverse with
    | s :: _ => decide (s.line = 2) && (sitess ns).all fun s' => !((s'.view.getD []).contains '\n')
    | [] => false) (by decide +kernel)
  cases hr : (sitess ns).reverse with
  | nil => simp [hr] at h2
  | cons s r =>
    have hs : sitess ns = r.reverse ++ [s] := by rw [← List.reverse_reverse (sitess ns), hr]; simp
    simp only [hr, Bool.and_eq_true, decide_eq_true_eq, List.all_eq_true] at h2
    refine ⟨ns, r.reverse, s, h1, hs, h2.1, ?_⟩
    intro s' hs' v hv
    have := h2.2 s' (by rw [hs]; exact hs')
    rw [hv] at this
    simpa using this

/-! ## C04 -/

/-- C04: the leading whitespace of a node is what it should be: the text between
the token before (or the start of the file) and this one is blanks and comments
`triv`, and the leading whitespace is the final part of it after the last
comment. -/
theorem C04_leading_whitespace (u : Unescape) (b : Buf) (ns : List PNode) (h : parse u b = .ok ns)
    (n : PNode) (hn : Within n ns) :
    ∃ before triv text after, b.code = before ++ triv ++ text ++ after ∧
      n.site.off = blen (before ++ triv) ∧ Trivia triv n.lw ∧
      (before = [] ∨ ∃ s ∈ sitess ns, blen before = s.off + s.span) := by
  obtain ⟨toks, ht, hs⟩ := parse_ok_tokens h
  obtain ⟨us, hus, hx⟩ := within_expr hn hs
  obtain ⟨t, htm, ho⟩ := expr_ownToken hx
  obtain ⟨p, hp⟩ := placed_of_tokensOf ht t (hus htm)
  refine ⟨p.before, p.triv, p.text, p.after, p.code, ?_, ?_, ?_⟩
  · rw [(ownToken_site ho).1, p.site]; rfl
  · rw [(ownToken_site ho).2]; exact p.trivia
  · rcases hp with hp | ⟨t', h1, h2⟩
    · exact Or.inl hp
    · refine Or.inr ⟨t'.site, ?_, h2⟩
      rw [sites_expr.sitess_exprs hs]
      exact List.mem_map_of_mem h1

/-- The same for closing parentheses. -/
theorem C04_leading_whitespace_close (u : Unescape) (b : Buf) (ns : List PNode) (h : parse u b = .ok ns)
    (kids : List PNode) (s : Site) (e : Token) (w : Str) (hn : Within (.list kids s e w) ns) :
    ∃ before triv after, b.code = before ++ triv ++ ')' :: after ∧
      e.site.off = blen (before ++ triv) ∧ Trivia triv e.lw ∧
      (before = [] ∨ ∃ s ∈ sitess ns, blen before = s.off + s.span) := by
  obtain ⟨toks, ht, hs⟩ := parse_ok_tokens h
  obtain ⟨us, hus, hx⟩ := within_expr hn hs
  cases hx with
  | list o _ ts _ _ hc _ =>
    obtain ⟨p, hp⟩ := placed_of_tokensOf ht e (hus (by simp))
    have htext := rparen_text hc p.lexeme
    have hcode := p.code
    rw [htext] at hcode
    refine ⟨p.before, p.triv, p.after, by rw [hcode]; simp, ?_, p.trivia, ?_⟩
    · rw [p.site]; rfl
    · rcases hp with hp | ⟨t', h1, h2⟩
      · exact Or.inl hp
      · refine Or.inr ⟨t'.site, ?_, h2⟩
        rw [sites_expr.sitess_exprs hs]
        exact List.mem_map_of_mem h1

/-- What `Trivia` means for the leading whitespace: only blanks, and directly in
front of the token. -/
theorem C04_lead_is_blank {triv lead : Str} (h : Trivia triv lead) : Blanks lead ∧ lead <:+ triv := by
  induction h with
  | blanks w hw => exact ⟨hw, List.suffix_refl _⟩
  | comment w text r lead _ _ _ ih => exact ⟨ih.1, ih.2.trans ⟨w ++ ';' :: text, by simp⟩⟩

/-- In the sample, the leading whitespace of `42` is the newline that ends the
comment and a blank. -/
example : ∃ ns n, parse some demo = .ok ns ∧ Within n ns ∧ n.lw = str! "\n " := by
  obtain ⟨ns, n, h1, h2, h3⟩ := exists_within (r := parse some demo)
    (fun n => decide (n.lw = str! "\n ")) (by decide +kernel)
  exact ⟨ns, n, h1, h2, by simpa using h3⟩

/-! ## C05 -/

/-- C05: the source is exactly the tokens of the tree in order, with only blanks
and comments between, before and after them. -/
theorem C05_lossless (u : Unescape) (b : Buf) (ns : List PNode) (h : parse u b = .ok ns) :
    Covers [] b.code (sitess ns) := by
  obtain ⟨toks, ht, hs⟩ := parse_ok_tokens h
  rw [sites_expr.sitess_exprs hs]
  exact covers_of_tokens ht rfl

example : ∃ ns, parse some demo = .ok ns ∧ (sitess ns).length = 7 := by
  obtain ⟨ns, h1, h2⟩ := Res.okP_elim (r := parse some demo) (p := fun ns => decide ((sitess ns).length = 7))
    (by decide +kernel)
  exact ⟨ns, h1, by simpa using h2⟩

/-! ## C06 -/

/-- C06 is false: on the source `\` the parser does not return. -/
theorem C06_terminates_false : parse some { path := [], id := 1, code := ['\\'] } = .diverge :=
  Res.isDiverge_elim (by decide +kernel)

/-- C06 as far as it holds: if the parser does not return, the source ends in a
backslash.  Missing: sources ending in a backslash (outside of a comment or string). -/
theorem C06_terminates_partial (u : Unescape) (b : Buf) (h : b.code.getLast? ≠ some '\\') :
    (∃ ns, parse u b = .ok ns) ∨ ∃ e, parse u b = .err e := by
  obtain ⟨toks, e, ht⟩ := tokens_total b [] 1 b.code
  have hout := parse_out u b ht
  cases hp : parse u b with
  | ok ns => exact Or.inl ⟨ns, rfl⟩
  | err x => exact Or.inr ⟨x, rfl⟩
  | panic => rw [hp] at hout; exact hout.elim
  | diverge =>
    rw [hp] at hout
    obtain ⟨rfl, _⟩ := hout
    exfalso
    apply h
    have : ∀ {before line rest toks e}, Tokens b before line rest toks e → e = .cut → rest.getLast? = some '\\' := by
      intro before line rest toks e ht
      induction ht with
      | eof => intro h; cases h
      | unclosed => intro h; cases h
      | cut before line triv lead text _ _ _ => intro _; simp
      | token _ _ triv lead kind text value rest toks e _ _ _ ih =>
        intro h
        have := ih h
        simp [List.getLast?_append, this]
    exact this ht rfl

/-- Exactly when the parser does not return: it comes to an identifier that is
cut off by the end of the file after a backslash. -/
theorem C06_diverges_exactly (u : Unescape) (b : Buf) :
    parse u b = .diverge ↔ ∃ toks, TokensOf b toks .cut ∧ CutList u toks := by
  constructor
  · intro h
    obtain ⟨toks, e, ht⟩ := tokens_total b [] 1 b.code
    have hout := parse_out u b ht
    rw [h] at hout
    obtain ⟨rfl, h2⟩ := hout
    exact ⟨toks, ht, h2⟩
  · rintro ⟨toks, ht, h2⟩
    have hlen := tokens_length ht
    exact root_cut h2 _ _ (at_new ht) (by unfold parseFuel; omega)

example : demo.code.getLast? ≠ some '\\' := by decide

/-! ## C07 -/

/-- C07: the parser never panics. -/
theorem C07_never_panics (u : Unescape) (b : Buf) : parse u b ≠ .panic := by
  intro h
  obtain ⟨toks, e, ht⟩ := tokens_total b [] 1 b.code
  have hout := parse_out u b ht
  rw [h] at hout
  exact hout

/-! ## C08 -/

/-- C08: wherever the reader stands, blanks and a comment up to its newline read
as the newline alone: the next token, the end-of-file test and the whole rest of
the program differ at most in positions. -/
theorem C08_comment_is_newline (u : Unescape) (l l' : Lex) (w text r : Str) (hw : Blanks w) (ht : '\n' ∉ text)
    (h : l.rest = w ++ ';' :: (text ++ '\n' :: r)) (h' : l'.rest = '\n' :: r) :
    SameToken l.consume l'.consume ∧ l.eof = l'.eof ∧
      ∀ fuel, SameTree (parseRoot u fuel l) (parseRoot u fuel l') :=
  ⟨consume_comment hw ht h h', (sameReader_comment hw ht h h').2,
   fun fuel => parseRoot_same u fuel l l' (sameReader_comment hw ht h h')⟩

/-- `  ; a (b⏎ x` against `⏎ x`. -/
example : ∃ l l' : Lex, l.rest = str! "  " ++ ';' :: (str! " a (b" ++ '\n' :: str! " x") ∧
    l'.rest = '\n' :: str! " x" ∧ '\n' ∉ str! " a (b" ∧ Blanks (str! "  ") :=
  ⟨Lex.new { path := [], id := 1, code := str! "  ; a (b\n x" }, Lex.new { path := [], id := 1, code := str! "\n x" },
   rfl, rfl, by decide, by intro c hc; simp at hc; subst hc; decide⟩

/-! ## C09 -/

/-- C09: the parser succeeds with the tree `ns` exactly if the source lexes to the
end and the grammar derives `ns` from its tokens. -/
theorem C09_accepts_exactly_grammar (u : Unescape) (b : Buf) (ns : List PNode) :
    parse u b = .ok ns ↔ ∃ toks, TokensOf b toks .eof ∧ Exprs u toks ns := by
  constructor
  · exact parse_ok_tokens
  · rintro ⟨toks, ht, h2⟩
    have hlen := tokens_length ht
    exact root_ok h2 _ _ (at_new ht) (by unfold parseFuel; omega)

/-- The token sequence of a source exists and is unique. -/
theorem C09_tokens_unique (b : Buf) : ∃ p : List Token × Ending, TokensOf b p.1 p.2 ∧
    ∀ toks e, TokensOf b toks e → (toks, e) = p := by
  obtain ⟨toks, e, h⟩ := tokens_total b [] 1 b.code
  refine ⟨(toks, e), h, ?_⟩
  intro toks' e' h'
  obtain ⟨rfl, rfl⟩ := at_unique (at_new h) (at_new h')
  rfl

/-- The grammar is unambiguous: a token sequence has at most one tree. -/
theorem C09_tree_unique (u : Unescape) (toks : List Token) (ns ns' : List PNode)
    (h : Exprs u toks ns) (h' : Exprs u toks ns') : ns = ns' :=
  (exprs_unique (r := []) (r' := []) h h' rfl (by simp) (by simp)).2.1

example : ∃ toks ns, TokensOf demo toks .eof ∧ Exprs some toks ns ∧ ns.length = 2 := by
  obtain ⟨ns, h, hl⟩ := demo_parses
  obtain ⟨toks, h1, h2⟩ := parse_ok_tokens h
  exact ⟨toks, _, h1, h2, hl⟩

/-! ## C10 -/

/-- C10: whenever the parser reports an error, it is one of the five faults, at
its place. -/
theorem C10_error_places (u : Unescape) (b : Buf) (x : Err) (h : parse u b = .err x) : ErrorPlace u b x := by
  obtain ⟨toks, e, ht⟩ := tokens_total b [] 1 b.code
  have hout := parse_out u b ht
  rw [h] at hout
  cases hout with
  | mk ts ns ts' _ _ h1 h2 => exact errorPlace_expr h2 ts ht (fun _ _ _ => ⟨ns, h1⟩)

/-- C10, converse and completeness: the parser reports `x` exactly if `x` is the
first fault met when reading the tokens from left to right (`Spec.Fault`). -/
theorem C10_errors_exactly (u : Unescape) (b : Buf) (x : Err) :
    parse u b = .err x ↔ ∃ toks e, TokensOf b toks e ∧ Fault u toks e x := by
  constructor
  · intro h
    obtain ⟨toks, e, ht⟩ := tokens_total b [] 1 b.code
    have hout := parse_out u b ht
    rw [h] at hout
    exact ⟨toks, e, ht, hout⟩
  · rintro ⟨toks, e, ht, hf⟩
    have hlen := tokens_length ht
    cases hf with
    | mk ts ns ts' _ _ h1 h2 =>
      exact root_err h2 h1 _ _ (at_new ht) (by unfold parseFuel; simp at hlen; omega)

/-- The place of an unclosed string is its opening quotes: the site selects them. -/
theorem C10_unclosed_string_site (b : Buf) (toks : List Token) (q : Str) (s : Site)
    (h : TokensOf b toks (.unclosed q s)) :
    ∃ before after, Selects s b.code before q after ∧ (q = q1 ∨ q = q3) ∧ Unclosed q after ∧ s.view = some q := by
  have : ∀ {before line rest toks e}, Tokens b before line rest toks e → b.code = before ++ rest →
      e = .unclosed q s → ∃ p after line', b.code = p ++ q ++ after ∧ s = siteOf b line' p q ∧
        (q = q1 ∨ q = q3) ∧ Unclosed q after := by
    intro before line rest toks e ht
    induction ht with
    | eof => intro _ h; cases h
    | cut => intro _ h; cases h
    | unclosed before line triv lead q' s' _ ho hu =>
      intro hc he
      simp only [Ending.unclosed.injEq] at he
      obtain ⟨rfl, rfl⟩ := he
      exact ⟨before ++ triv, s', _, by rw [hc]; simp, rfl, opens_isQuotes ho, hu⟩
    | token before line triv lead kind text value rest toks e _ _ _ ih =>
      intro hc he
      exact ih (by rw [hc]; simp) he
  obtain ⟨p, after, line', h1, rfl, h2, h3⟩ := this h (by simp) rfl
  exact ⟨p, after, ⟨h1, rfl, rfl, rfl⟩, h2, h3, siteOf_view b _ _ _ after h1⟩

/-- `(a (b "c" (d)` : the last parenthesis left open is the one before `b`. -/
example : ∃ e, parse some { path := [], id := 1, code := str! "(a (b \"c\" (d)" } = .err e ∧
    e.site.off = 3 ∧ e.site.view = some ['('] := by
  obtain ⟨e, h1, h2⟩ := Res.errP_elim (r := parse some { path := [], id := 1, code := str! "(a (b \"c\" (d)" })
    (p := fun e => decide (e.site.off = 3 ∧ e.site.view = some ['('])) (by decide +kernel)
  exact ⟨e, h1, by simpa using h2⟩

/-! ## C11 -/

/-- Full statement of C11's last part, which is false: an escaped backslash stands
for a backslash.  The source `\\` is a symbol with empty value. -/
theorem C11_escaped_backslash_false : ∃ n : Node,
    parse some { path := [], id := 1, code := ['\\', '\\'] } = .ok [.symbol n] ∧ n.value = [] := by
  obtain ⟨ns, h1, h2⟩ := Res.okP_elim (r := parse some { path := [], id := 1, code := ['\\', '\\'] })
    (p := fun ns => match ns with | [.symbol n] => n.value.isEmpty | _ => false) (by decide +kernel)
  match ns, h1, h2 with
  | [.symbol n], h1, h2 => exact ⟨n, h1, by simpa using h2⟩

theorem noBackslash_written (ws : List Written) (h : ∀ w ∈ ws, w.ok) (h' : ∀ w ∈ ws, w ≠ .esc '\\') :
    Ident (ws.flatMap Written.text) ∧ noBackslash (ws.flatMap Written.text) = ws.map Written.char := by
  induction ws with
  | nil => exact ⟨.nil, rfl⟩
  | cons w ws ih =>
    obtain ⟨h1, h2⟩ := ih (fun w hw => h w (by simp [hw])) (fun w hw => h' w (by simp [hw]))
    have hw := h w (by simp)
    have hw' := h' w (by simp)
    cases w with
    | plain c =>
      have hw : identChar c = true := hw
      refine ⟨.plain c _ hw h1, ?_⟩
      have hc : c ≠ '\\' := by
        rintro rfl; exact absurd hw (by decide)
      simp only [List.flatMap_cons, Written.text, List.cons_append, List.nil_append, List.map_cons, Written.char]
      rw [← h2]
      simp [noBackslash, hc]
    | esc c =>
      refine ⟨.esc c _ h1, ?_⟩
      have hc : c ≠ '\\' := by
        rintro rfl; exact hw' rfl
      simp only [List.flatMap_cons, Written.text, List.cons_append, List.nil_append, List.map_cons, Written.char]
      rw [← h2]
      simp [noBackslash, hc]

/-- C11 as far as it holds: an identifier written with plain characters and with
escaped characters other than the backslash reads as one symbol whose value is the
sequence of the characters meant.  Missing: escaped backslashes. -/
theorem C11_symbol_escapes_partial (u : Unescape) (path : Str) (id : Nat) (ws : List Written)
    (h : ∀ w ∈ ws, w.ok) (h' : ∀ w ∈ ws, w ≠ .esc '\\')
    (hs : Starts symbolStart (ws.flatMap Written.text)) :
    ∃ n : Node, parse u { path := path, id := id, code := ws.flatMap Written.text } = .ok [.symbol n] ∧
      n.value = ws.map Written.char := by
  obtain ⟨h1, h2⟩ := noBackslash_written ws h h'
  have ht := Tokens.token (b := { path := path, id := id, code := ws.flatMap Written.text }) [] 1 [] [] .symbol
    (ws.flatMap Written.text) (ws.flatMap Written.text) [] [] .eof
    (.blanks _ (by intro c hc; simp at hc)) (.symbol _ _ h1 hs trivial)
    (.eof _ _ _ ⟨[], [], .blanks _ (by intro c hc; simp at hc), Or.inl rfl⟩)
  exact ⟨_, (C09_accepts_exactly_grammar u _ _).2 ⟨[_], by simpa [TokensOf] using ht,
    .cons [_] _ [] [] (.symbol _ rfl) .nil⟩, h2⟩

theorem noBackslash_kept (ws : List Written) (h : ∀ w ∈ ws, w.ok) :
    Ident (ws.flatMap Written.text) ∧
      noBackslash (ws.flatMap Written.text) = (ws.filter (· ≠ .esc '\\')).map Written.char := by
  induction ws with
  | nil => exact ⟨.nil, rfl⟩
  | cons w ws ih =>
    obtain ⟨h1, h2⟩ := ih (fun w hw => h w (by simp [hw]))
    have hw := h w (by simp)
    cases w with
    | plain c =>
      have hw : identChar c = true := hw
      refine ⟨.plain c _ hw h1, ?_⟩
      have hc : c ≠ '\\' := by
        rintro rfl; exact absurd hw (by decide)
      simp only [List.flatMap_cons, Written.text, List.cons_append, List.nil_append]
      rw [List.filter_cons_of_pos (by simp), List.map_cons, ← h2]
      simp [noBackslash, hc, Written.char]
    | esc c =>
      refine ⟨.esc c _ h1, ?_⟩
      simp only [List.flatMap_cons, Written.text, List.cons_append, List.nil_append]
      by_cases hc : c = '\\'
      · subst hc
        rw [List.filter_cons_of_neg (by simp), ← h2]
        simp [noBackslash]
      · rw [List.filter_cons_of_pos (by simpa using hc), List.map_cons, ← h2]
        simp [noBackslash, hc, Written.char]

/-- C11, exactly: an identifier written with plain and escaped characters reads as
one symbol, whose value is the sequence of the characters meant without the escaped
backslashes; so the value is right exactly if no backslash is escaped. -/
theorem C11_exactly (u : Unescape) (path : Str) (id : Nat) (ws : List Written) (h : ∀ w ∈ ws, w.ok)
    (hs : Starts symbolStart (ws.flatMap Written.text)) :
    ∃ n : Node, parse u { path := path, id := id, code := ws.flatMap Written.text } = .ok [.symbol n] ∧
      n.value = (ws.filter (· ≠ .esc '\\')).map Written.char ∧
      (n.value = ws.map Written.char ↔ ∀ w ∈ ws, w ≠ .esc '\\') := by
  obtain ⟨h1, h2⟩ := noBackslash_kept ws h
  have ht := Tokens.token (b := { path := path, id := id, code := ws.flatMap Written.text }) [] 1 [] [] .symbol
    (ws.flatMap Written.text) (ws.flatMap Written.text) [] [] .eof
    (.blanks _ (by intro c hc; simp at hc)) (.symbol _ _ h1 hs trivial)
    (.eof _ _ _ ⟨[], [], .blanks _ (by intro c hc; simp at hc), Or.inl rfl⟩)
  refine ⟨_, (C09_accepts_exactly_grammar u _ _).2 ⟨[_], by simpa [TokensOf] using ht,
    .cons [_] _ [] [] (.symbol _ rfl) .nil⟩, h2, ?_⟩
  constructor
  · intro h3
    have h4 := congrArg List.length (h2.symm.trans h3)
    simp only [List.length_map] at h4
    have := List.length_filter_eq_length_iff.1 h4
    intro w hw
    simpa using this w hw
  · intro h3
    refine h2.trans ?_
    rw [List.filter_eq_self.2 (by simpa using h3)]

/-- `a\\b` is the symbol `ab`. -/
example : ∃ ws : List Written, (∀ w ∈ ws, w.ok) ∧ Starts symbolStart (ws.flatMap Written.text) ∧
    ws.flatMap Written.text = ['a', '\\', '\\', 'b'] ∧ (ws.filter (· ≠ .esc '\\')).map Written.char = ['a', 'b'] :=
  ⟨[.plain 'a', .esc '\\', .plain 'b'],
   by intro w hw; simp at hw; rcases hw with rfl | rfl | rfl <;> first | trivial | decide, rfl, rfl, rfl⟩

/-- In any source: the value of a symbol or number is its text without the
backslashes, so it is exactly the written text if there is no backslash in it. -/
theorem C11_plain_symbol (u : Unescape) (b : Buf) (ns : List PNode) (h : parse u b = .ok ns) (n : Node)
    (hn : Within (.symbol n) ns ∨ Within (.number n) ns) (text : Str) (hv : n.site.view = some text)
    (hb : '\\' ∉ text) : n.value = text := by
  have key : ∀ text, '\\' ∉ text → noBackslash text = text := by
    intro text hb
    unfold noBackslash
    rw [List.filter_eq_self]
    intro c hc
    simp only [bne_iff_ne, ne_eq]
    rintro rfl; exact hb hc
  rcases hn with hn | hn
  · obtain ⟨before, text', after, _, ho, hv', _⟩ := C01_site_selects_own_text u b ns h _ hn
    have : some text = some text' := by rw [← hv, ← hv']; rfl
    cases this
    obtain ⟨_, _, h3⟩ := ho
    rw [h3, key _ hb]
  · obtain ⟨before, text', after, _, ho, hv', _⟩ := C01_site_selects_own_text u b ns h _ hn
    have : some text = some text' := by rw [← hv, ← hv']; rfl
    cases this
    obtain ⟨_, _, h3⟩ := ho
    rw [h3, key _ hb]

/-- `a\ b\(` is the symbol `a b(`. -/
example : ∃ ws : List Written, (∀ w ∈ ws, w.ok) ∧ (∀ w ∈ ws, w ≠ .esc '\\') ∧
    Starts symbolStart (ws.flatMap Written.text) ∧ ws.flatMap Written.text = str! "a\\ b\\(" ∧
    ws.map Written.char = str! "a b(" :=
  ⟨[.plain 'a', .esc ' ', .plain 'b', .esc '('],
   by intro w hw; simp at hw; rcases hw with rfl | rfl | rfl | rfl <;> first | trivial | decide,
   by decide, rfl, rfl, rfl⟩

/-! ## C12 -/

/-- C12: a string literal ends at its first unescaped closing quotes, whatever
follows (`Body q` says that `q` does not start anywhere in the contents, except
after a backslash): the token has the contents as value and reading goes on right
behind the closing quotes. -/
theorem C12_string_ends_at_quote (l : Lex) (q body rest : Str) (hq : Opens q (q ++ body ++ q ++ rest))
    (hb : Body q body) (h : l.rest = q ++ body ++ q ++ rest) :
    ∃ t l', l.consume = .ok (t, l') ∧ t.kind = .string ∧ t.value = body ∧ l'.rest = rest := by
  have hl : Lexeme .string (q ++ body ++ q) body rest := .string q body rest hb hq
  have ht : Trivia [] [] := .blanks _ (by intro c hc; simp at hc)
  have h1 := consume_lexeme l.buf ht [] 1 hl
  have h2 : SameToken l.consume (stateAt l.buf [] 1 ([] ++ (q ++ body ++ q ++ rest))).consume :=
    consume_same (by rw [h]; rfl)
  rw [h1] at h2
  revert h2
  cases l.consume with
  | ok p =>
    obtain ⟨t, l'⟩ := p
    rintro ⟨g1, g2, _, g4⟩
    exact ⟨t, l', rfl, g1, g2, g4⟩
  | _ => intro h; exact h.elim

/-- C12: every text is read in this way: after opening quotes there is a first
unescaped closing quote, or none up to the end of the file. -/
theorem C12_closing_quote_found (q : Str) (hq : q = q1 ∨ q = q3) (s : Str) :
    (∃ body rest, Body q body ∧ s = body ++ q ++ rest) ∨ Unclosed q s := by
  rcases string_split hq s with ⟨body, rest, h1, h2⟩ | h
  · exact Or.inl ⟨body, rest, h1, by rw [h2]; simp⟩
  · exact Or.inr h

/-- C12: in any parsed program, the value of a string literal without backslash is
exactly the text between the quotes.  `u` is the unescaping of the crate `descape`,
which is assumed to leave texts without backslash alone. -/
theorem C12_plain_string (u : Unescape) (hu : ∀ s, '\\' ∉ s → u s = some s) (b : Buf) (ns : List PNode)
    (h : parse u b = .ok ns) (n : Node) (hn : Within (.string n) ns) (text : Str)
    (hv : n.site.view = some text) (hb : '\\' ∉ text) :
    ∃ q, (q = q1 ∨ q = q3) ∧ text = q ++ n.value ++ q := by
  obtain ⟨before, text', after, _, ho, hv', _⟩ := C01_site_selects_own_text u b ns h _ hn
  have : some text = some text' := by rw [← hv, ← hv']; rfl
  cases this
  obtain ⟨q, body, h1, h2, _, h4⟩ := ho
  rw [hu body (by rw [h2] at hb; simp at hb; exact hb.2.1)] at h4
  cases h4
  exact ⟨q, h1, h2⟩

example : ∃ ns n, parse some demo = .ok ns ∧ Within (.string n) ns ∧ n.site.view = some (str! "\"x\"") ∧
    n.value = str! "x" := by
  obtain ⟨ns, n, h1, h2, h3⟩ := exists_within (r := parse some demo)
    (fun n => match n with
      | .string n => decide (n.site.view = some (str! "\"x\"") ∧ n.value = str! "x")
      | _ => false) (by decide +kernel)
  match n, h2, h3 with
  | .string n, h2, h3 => exact ⟨ns, n, h1, h2, by simpa using h3⟩

end Seam
