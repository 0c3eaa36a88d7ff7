import Verif.Lemmas.Pre

/-!
# Programs that are cut off, and programs with a parenthesis overwritten
-/

namespace Seam
open Spec

/-- How many parentheses are opened and not closed. -/
def weight (t : Token) : Int := if t.kind = .lparen then 1 else if t.kind = .rparen then -1 else 0
def openDepth : List Token → Int
  | [] => 0
  | t :: ts => weight t + openDepth ts

theorem openDepth_append (a b : List Token) : openDepth (a ++ b) = openDepth a + openDepth b := by
  induction a with
  | nil => simp [openDepth]
  | cons t a ih => simp only [List.cons_append, openDepth, ih]; omega

mutual
theorem expr_depth {u : Unescape} : ∀ {ts : List Token} {n : PNode}, Expr u ts n → openDepth ts = 0 ∧ ∀ a b, ts = a ++ b → 0 ≤ openDepth a
  | _, _, .symbol t h => atom_depth (by simp [h]) (by simp [h])
  | _, _, .number t h => atom_depth (by simp [h]) (by simp [h])
  | _, _, .string t v h hv => atom_depth (by simp [h]) (by simp [h])
  | _, _, .list o c ts ns ho hc h => by
    obtain ⟨h1, h2⟩ := exprs_depth h
    have ho : weight o = 1 := by simp [weight, ho]
    have hc : weight c = -1 := by simp [weight, hc]
    refine ⟨by simp [openDepth, openDepth_append, ho, hc, h1], fun a b hab => ?_⟩
    cases a with
    | nil => simp [openDepth]
    | cons t a =>
      simp only [List.cons_append, List.cons.injEq] at hab
      obtain ⟨rfl, hab⟩ := hab
      rcases List.append_eq_append_iff.1 hab with ⟨d, rfl, hd⟩ | ⟨d, rfl, hd⟩
      · cases d with
        | nil => simp [openDepth, h1, ho]
        | cons x d =>
          simp only [List.cons_append, List.cons.injEq] at hd
          obtain ⟨rfl, hd⟩ := hd
          have : d = [] := by simp_all
          subst this
          simp [openDepth, openDepth_append, ho, hc, h1]
      · have := h2 _ _ rfl
        simp only [openDepth, ho]; omega
  | _, _, .attr k ts n hk h => by
    obtain ⟨h1, h2⟩ := expr_depth h
    have hk : weight k = 0 := by simp [weight, hk]
    refine ⟨by simp [openDepth, hk, h1], fun a b hab => ?_⟩
    cases a with
    | nil => simp [openDepth]
    | cons t a =>
      simp only [List.cons_append, List.cons.injEq] at hab
      obtain ⟨rfl, hab⟩ := hab
      have := h2 _ _ hab
      simp only [openDepth, hk]; omega
theorem exprs_depth {u : Unescape} : ∀ {ts : List Token} {ns : List PNode}, Exprs u ts ns → openDepth ts = 0 ∧ ∀ a b, ts = a ++ b → 0 ≤ openDepth a
  | _, _, .nil => ⟨rfl, fun a b h => by simp at h; simp [h.1, openDepth]⟩
  | _, _, .cons ts n ts' ns h h' => by
    obtain ⟨h1, h2⟩ := expr_depth h
    obtain ⟨h3, h4⟩ := exprs_depth h'
    refine ⟨by simp [openDepth_append, h1, h3], fun a b hab => ?_⟩
    rcases List.append_eq_append_iff.1 hab with ⟨d, rfl, hd⟩ | ⟨d, rfl, hd⟩
    · have := h4 _ _ hd
      simp only [openDepth_append, h1]; omega
    · exact h2 _ _ rfl
theorem atom_depth {t : Token} (h : t.kind ≠ .lparen) (h' : t.kind ≠ .rparen) :
    openDepth [t] = 0 ∧ ∀ a b, [t] = a ++ b → 0 ≤ openDepth a := by
  have hw : weight t = 0 := by simp [weight, h, h']
  refine ⟨by simp [openDepth, hw], fun a b hab => ?_⟩
  cases a with
  | nil => simp [openDepth]
  | cons x a =>
    simp only [List.cons_append, List.cons.injEq] at hab
    obtain ⟨rfl, hab⟩ := hab
    have : a = [] := by simp_all
    subst this
    simp [openDepth, hw]
end

/-! ## Cutting off -/

theorem blanks_endTrivia {w : Str} (h : Blanks w) : EndTrivia w := ⟨w, w, .blanks _ h, .inl rfl⟩

theorem blanks_left {a b : Str} (h : Blanks (a ++ b)) : Blanks a := fun c hc => h c (List.mem_append_left _ hc)

theorem trivia_cut {t lead : Str} (h : Trivia t lead) : ∀ x y, t = x ++ y → EndTrivia x := by
  induction h with
  | blanks w h => rintro x y rfl; exact blanks_endTrivia (blanks_left h)
  | comment w text r lead hw ht h ih =>
    intro x y hxy
    rw [List.append_assoc] at hxy
    rcases List.append_eq_append_iff.1 hxy with ⟨d, rfl, hd⟩ | ⟨d, rfl, hd⟩
    · cases d with
      | nil => simpa using blanks_endTrivia hw
      | cons c d =>
        simp only [List.cons_append, List.cons.injEq] at hd
        obtain ⟨rfl, hd⟩ := hd
        rcases List.append_eq_append_iff.1 hd with ⟨d', rfl, hd'⟩ | ⟨d', rfl, hd'⟩
        · cases d' with
          | nil => exact ⟨w, w, .blanks _ hw, .inr ⟨text, ht, by simp⟩⟩
          | cons c d' =>
            simp only [List.cons_append, List.cons.injEq] at hd'
            obtain ⟨rfl, hd'⟩ := hd'
            obtain ⟨t, l, h1, h2⟩ := ih ('\n' :: d') y (by simp [hd'])
            have h3 : ∃ r', t = '\n' :: r' := by
              rcases h2 with h2 | ⟨tx, _, h2⟩
              · exact ⟨_, h2.symm⟩
              · cases t with
                | nil => simp at h2
                | cons c t => simp at h2; exact ⟨t, by rw [h2.1]⟩
            obtain ⟨r', rfl⟩ := h3
            refine ⟨_, l, .comment w text r' l hw ht h1, ?_⟩
            rcases h2 with h2 | ⟨tx, h4, h2⟩
            · left; simp at h2; simp [h2]
            · right; refine ⟨tx, h4, ?_⟩; simp at h2; simp [h2]
        · exact ⟨w, w, .blanks _ hw, .inr ⟨d, fun hn => ht (List.mem_append_left _ hn), by simp⟩⟩
    · exact blanks_endTrivia (blanks_left hw)

theorem endTrivia_cut {x y : Str} (h : EndTrivia (x ++ y)) : EndTrivia x := by
  obtain ⟨t, l, ht, h | ⟨text, hn, h⟩⟩ := h
  · exact trivia_cut ht _ _ h.symm
  · rcases List.append_eq_append_iff.1 h with ⟨d, rfl, hd⟩ | ⟨d, rfl, hd⟩
    · exact trivia_cut ht _ _ rfl
    · cases d with
      | nil => exact ⟨t, l, ht, .inl (by simp)⟩
      | cons c d =>
        simp only [List.cons_append, List.cons.injEq] at hd
        obtain ⟨rfl, rfl⟩ := hd
        exact ⟨t, l, ht, .inr ⟨d, fun hm => hn (List.mem_append_left _ hm), rfl⟩⟩

/-- Part of an identifier is one, or ends in a backslash. -/
theorem ident_cut {s : Str} (h : Ident s) : ∀ x y, s = x ++ y → Ident x ∨ ∃ x', Ident x' ∧ x = x' ++ ['\\'] := by
  induction h with
  | nil => intro x y h; simp at h; left; rw [h.1]; exact .nil
  | plain c s hc _ ih =>
    intro x y h
    cases x with
    | nil => exact .inl .nil
    | cons d x =>
      simp only [List.cons_append, List.cons.injEq] at h
      obtain ⟨rfl, h⟩ := h
      rcases ih x y h with h | ⟨x', h', rfl⟩
      · exact .inl (.plain _ _ hc h)
      · exact .inr ⟨c :: x', .plain _ _ hc h', rfl⟩
  | esc c s _ ih =>
    intro x y h
    cases x with
    | nil => exact .inl .nil
    | cons d x =>
      simp only [List.cons_append, List.cons.injEq] at h
      obtain ⟨rfl, h⟩ := h
      cases x with
      | nil => exact .inr ⟨[], .nil, rfl⟩
      | cons d x =>
        simp only [List.cons_append, List.cons.injEq] at h
        obtain ⟨rfl, h⟩ := h
        rcases ih x y h with h | ⟨x', h', rfl⟩
        · exact .inl (.esc _ _ h)
        · exact .inr ⟨'\\' :: c :: x', .esc _ _ h', rfl⟩

theorem unclosed_cut {q s : Str} (h : Unclosed q s) : ∀ x y, s = x ++ y → Unclosed q x := by
  induction h with
  | nil => intro x y h; simp at h; rw [h.1]; exact .nil
  | plain c s hc hq _ ih =>
    intro x y h
    cases x with
    | nil => exact .nil
    | cons d x =>
      simp only [List.cons_append, List.cons.injEq] at h
      obtain ⟨rfl, rfl⟩ := h
      exact .plain _ _ hc (fun hp => hq (hp.trans ⟨y, by simp⟩)) (ih x y rfl)
  | esc c s _ ih =>
    intro x y h
    cases x with
    | nil => exact .nil
    | cons d x =>
      simp only [List.cons_append, List.cons.injEq] at h
      obtain ⟨rfl, h⟩ := h
      cases x with
      | nil => exact .escEnd
      | cons d x =>
        simp only [List.cons_append, List.cons.injEq] at h
        obtain ⟨rfl, h⟩ := h
        exact .esc _ _ (ih x y h)
  | escEnd =>
    intro x y h
    cases x with
    | nil => exact .nil
    | cons d x =>
      simp only [List.cons_append, List.cons.injEq] at h
      obtain ⟨rfl, h⟩ := h
      have : x = [] := by simp_all
      subst this
      exact .escEnd

/-- A string without the last of its quotes is not closed. -/
theorem body_cut {q s : Str} (hq : ∀ c ∈ q, c = '"') (h : Body q s) : ∀ x y, s ++ q = x ++ y → y ≠ [] → Unclosed q x := by
  induction h with
  | nil =>
    intro x y h hy
    simp only [List.nil_append] at h
    have hl : x.length < q.length := by rw [h]; cases y <;> simp_all
    have hx : ∀ c ∈ x, c = '"' := fun c hc => hq c (h ▸ List.mem_append_left _ hc)
    clear h hy y
    induction x with
    | nil => exact .nil
    | cons c x ih =>
      refine .plain _ _ (by rw [hx c (by simp)]; decide) (fun hp => ?_) (ih (by simp at hl; omega) fun c hc => hx c (by simp [hc]))
      have := hp.length_le
      omega
  | plain c s hc hp _ ih =>
    intro x y h hy
    cases x with
    | nil => exact .nil
    | cons d x =>
      simp only [List.cons_append, List.cons.injEq] at h hp
      obtain ⟨rfl, h⟩ := h
      exact .plain _ _ hc (fun hp' => hp (hp'.trans ⟨y, by simp [h]⟩)) (ih x y h hy)
  | esc c s _ ih =>
    intro x y h hy
    cases x with
    | nil => exact .nil
    | cons d x =>
      simp only [List.cons_append, List.cons.injEq] at h
      obtain ⟨rfl, h⟩ := h
      cases x with
      | nil => exact .escEnd
      | cons d x =>
        simp only [List.cons_append, List.cons.injEq] at h
        obtain ⟨rfl, h⟩ := h
        exact .esc _ _ (ih x y h hy)

/-- The text has tokens, and if they go on to the end of the text, so many parentheses are left open. -/
def Leaves (d : Int) (b : Buf) (before : Str) (line : Nat) (x : Str) : Prop :=
  ∃ toks e, Tokens b before line x toks e ∧ (e = .eof → openDepth toks = d)

theorem leaves_end {b : Buf} {before : Str} {line : Nat} {x : Str} (h : EndTrivia x) : Leaves 0 b before line x :=
  ⟨[], .eof, .eof _ _ _ h, fun _ => rfl⟩

theorem leaves_last {b : Buf} {before : Str} {line : Nat} {triv lead text value : Str} {kind : Kind} (ht : Trivia triv lead)
    (hl : Lexeme kind text value []) (h1 : kind ≠ .lparen) (h2 : kind ≠ .rparen) : Leaves 0 b before line (triv ++ text) := by
  refine ⟨[_], .eof, by simpa using Tokens.token before line triv lead kind text value [] [] .eof ht hl (.eof _ _ _ ⟨[], [], .blanks _ (by intro c hc; cases hc), .inl rfl⟩), fun _ => ?_⟩
  simp [openDepth, weight, h1, h2]

theorem leaves_ident {b : Buf} {before : Str} {line : Nat} {triv lead x y : Str} {c : Char} (ht : Trivia triv lead)
    (hi : Ident (c :: x ++ y)) (hs : symbolStart c = true ∨ numberStart c = true ∨ c = ':') : Leaves 0 b before line (triv ++ c :: x) := by
  rcases ident_cut hi (c :: x) y rfl with h | ⟨x', h, hx⟩
  · rcases hs with hs | hs | rfl
    · exact leaves_last ht (.symbol _ [] h hs trivial) (by simp) (by simp)
    · exact leaves_last ht (.number _ [] h hs trivial) (by simp) (by simp)
    · cases h with
      | plain _ _ _ h => exact leaves_last ht (.keyword _ [] h trivial) (by simp) (by simp)
  · rw [hx]
    refine ⟨[], .cut, .cut _ _ _ lead _ ht h ?_, fun h => by cases h⟩
    rw [← hx]
    rcases hs with hs | hs | rfl <;> simp [Starts, *]

theorem opens_quotes {q s : Str} (h : Opens q s) : q = q1 ∨ q = q3 := by
  rcases h with ⟨h, _⟩ | ⟨h, _⟩
  · exact .inr h
  · exact .inl h

/-- A string that is not closed, or closed only after the cut. -/
theorem leaves_string {b : Buf} {before : Str} {line : Nat} {triv lead q s x y : Str} (ht : Trivia triv lead) (ho : Opens q (q ++ s))
    (hx : x ≠ []) (h : q ++ s = x ++ y) (hu : ∀ x' y', s = x' ++ y' → x = q ++ x' → Unclosed q x') :
    Leaves 0 b before line (triv ++ x) := by
  rcases List.append_eq_append_iff.1 h with ⟨d, rfl, hd⟩ | ⟨d, hq, hd⟩
  · refine ⟨[], _, .unclosed _ _ _ lead _ _ ht ?_ (hu _ _ hd rfl), fun h => by cases h⟩
    rcases ho with ⟨rfl, ho⟩ | ⟨rfl, ho, hn⟩
    · exact .inl ⟨rfl, ⟨d, rfl⟩⟩
    · exact .inr ⟨rfl, ⟨d, rfl⟩, fun hp => hn (hp.trans ⟨y, by rw [hd]; simp⟩)⟩
  · rcases opens_quotes ho with rfl | rfl
    · cases x with
      | nil => exact absurd rfl hx
      | cons c x =>
        simp only [q1, List.cons_append, List.cons.injEq] at hq
        obtain ⟨rfl, hq⟩ := hq
        have : x = [] := (List.append_eq_nil_iff.1 hq.symm).1
        subst this
        exact ⟨[], _, .unclosed _ _ _ lead q1 [] ht (.inr ⟨rfl, ⟨[], rfl⟩, by decide⟩) .nil, fun h => by cases h⟩
    · cases x with
      | nil => exact absurd rfl hx
      | cons c x =>
        simp only [q3, List.cons_append, List.cons.injEq] at hq
        obtain ⟨rfl, hq⟩ := hq
        cases x with
        | nil => exact ⟨[], _, .unclosed _ _ _ lead q1 [] ht (.inr ⟨rfl, ⟨[], rfl⟩, by decide⟩) .nil, fun h => by cases h⟩
        | cons c x =>
          simp only [List.cons_append, List.cons.injEq] at hq
          obtain ⟨rfl, hq⟩ := hq
          cases x with
          | nil => exact leaves_last ht (.string q1 [] [] .nil (.inr ⟨rfl, ⟨['"'], rfl⟩, by decide⟩)) (by simp) (by simp)
          | cons c x =>
            simp only [List.cons_append, List.cons.injEq] at hq
            obtain ⟨rfl, hq⟩ := hq
            have : x = [] := (List.append_eq_nil_iff.1 hq.symm).1
            subst this
            exact ⟨[], _, .unclosed _ _ _ lead q3 [] ht (.inl ⟨rfl, ⟨[], rfl⟩⟩) .nil, fun h => by cases h⟩

theorem lexeme_cut {kind : Kind} {text value x y : Str} (h : Lexeme kind text value (x ++ y)) : Lexeme kind text value x := by
  have hs : ∀ {x y : Str}, Stop (x ++ y) → Stop x := fun {x y} h => by cases x <;> first | trivial | exact h
  cases h with
  | lparen => exact .lparen _
  | rparen => exact .rparen _
  | symbol _ _ h1 h2 h3 => exact .symbol _ _ h1 h2 (hs h3)
  | number _ _ h1 h2 h3 => exact .number _ _ h1 h2 (hs h3)
  | keyword _ _ h1 h2 => exact .keyword _ _ h1 (hs h2)
  | string q _ _ h1 h2 =>
    refine .string q value _ h1 ?_
    rcases h2 with ⟨rfl, _⟩ | ⟨rfl, h, hn⟩
    · exact .inl ⟨rfl, ⟨value ++ q3 ++ x, by simp⟩⟩
    · exact .inr ⟨rfl, ⟨value ++ q1 ++ x, by simp⟩, fun hp => hn (hp.trans ⟨y, by simp⟩)⟩

theorem lexeme_part {b : Buf} {before : Str} {line : Nat} {triv lead : Str} {kind : Kind} {text value rest x y : Str} (ht : Trivia triv lead)
    (h : Lexeme kind text value rest) (hx : x ≠ []) (hy : y ≠ []) (he : text = x ++ y) :
    kind ≠ .lparen ∧ kind ≠ .rparen ∧ Leaves 0 b before line (triv ++ x) := by
  have one : ∀ c : Char, [c] ≠ x ++ y := fun c h => by
    have := congrArg List.length h
    have := List.length_pos_iff.2 hx
    have := List.length_pos_iff.2 hy
    simp at *; omega
  cases h with
  | lparen => exact absurd he (one _)
  | rparen => exact absurd he (one _)
  | symbol _ _ h1 h2 h3 =>
    subst he
    cases x with
    | nil => exact absurd rfl hx
    | cons c x => exact ⟨by simp, by simp, leaves_ident ht h1 (.inl h2)⟩
  | number _ _ h1 h2 h3 =>
    subst he
    cases x with
    | nil => exact absurd rfl hx
    | cons c x => exact ⟨by simp, by simp, leaves_ident ht h1 (.inr (.inl h2))⟩
  | keyword _ _ h1 h2 =>
    cases x with
    | nil => exact absurd rfl hx
    | cons c x =>
      have he' := he
      simp only [List.cons_append, List.cons.injEq] at he
      obtain ⟨rfl, rfl⟩ := he
      exact ⟨by simp, by simp, leaves_ident ht (x := x) (y := y) (.plain _ _ (by decide) h1) (.inr (.inr rfl))⟩
  | string q _ _ h1 h2 =>
    have hq := opens_quotes h2
    refine ⟨by simp, by simp, leaves_string (q := q) (s := value ++ q) (x := x) (y := y) ht ?_ hx (by rw [← he]; simp) ?_⟩
    · rcases h2 with ⟨rfl, _⟩ | ⟨rfl, h, hn⟩
      · exact .inl ⟨rfl, ⟨value ++ q3, rfl⟩⟩
      · exact .inr ⟨rfl, ⟨value ++ q1, rfl⟩, fun hp => hn (hp.trans ⟨rest, by simp⟩)⟩
    · intro x' y' h3 h4
      subst h4
      have : y' = y := by
        rw [List.append_assoc, h3] at he
        simpa using he
      subst this
      refine body_cut ?_ h1 _ _ h3 hy
      rcases hq with rfl | rfl <;> simp [q1, q3]

theorem tokens_after {b : Buf} {before : Str} {line : Nat} {rest : Str} {toks : List Token} {e : Ending}
    (h : Tokens b before line rest toks e) : ∀ t ∈ toks, blen before ≤ t.site.off := by
  induction h with
  | eof => intro t h; cases h
  | unclosed => intro t h; cases h
  | cut => intro t h; cases h
  | token _ _ _ _ _ _ _ _ _ _ _ _ _ ih =>
    intro t h
    rcases List.mem_cons.1 h with rfl | h
    · simp [siteOf]
    · have := ih t h
      simp at this; omega

theorem leaves_token {d : Int} {b : Buf} {before : Str} {line : Nat} {triv lead : Str} {kind : Kind} {text value x : Str} (ht : Trivia triv lead)
    (hl : Lexeme kind text value x) (h : Leaves d b (before ++ triv ++ text) (line + newlines triv + 2 * newlines text) x) :
    Leaves ((if kind = .lparen then 1 else if kind = .rparen then -1 else 0) + d) b before line (triv ++ (text ++ x)) := by
  obtain ⟨toks, e, h1, h2⟩ := h
  refine ⟨_, e, .token _ _ _ _ _ _ _ _ _ _ ht hl h1, fun h => ?_⟩
  simp only [openDepth, weight, h2 h]

/-- The tokens of the beginning of a text: those that begin there, of which the last one may be cut off. -/
theorem tokens_cutoff {b b' : Buf} {before : Str} {line : Nat} {rest : Str} {toks : List Token} {e : Ending}
    (h : Tokens b before line rest toks e) : ∀ x y before' line', rest = x ++ y → ∃ t1 t2, toks = t1 ++ t2 ∧
      (∀ t ∈ t1, t.site.off < blen (before ++ x)) ∧ (∀ t ∈ t2, blen (before ++ x) ≤ t.site.off) ∧ Leaves (openDepth t1) b' before' line' x := by
  have none : ∀ {before x : Str} {before' line'}, Leaves 0 b' before' line' x → ∃ t1 t2 : List Token, [] = t1 ++ t2 ∧
      (∀ t ∈ t1, t.site.off < blen (before ++ x)) ∧ (∀ t ∈ t2, blen (before ++ x) ≤ t.site.off) ∧ Leaves (openDepth t1) b' before' line' x :=
    fun h => ⟨[], [], rfl, by simp, by simp, h⟩
  induction h with
  | eof before line rest h =>
    rintro x y before' line' rfl
    exact none (leaves_end (endTrivia_cut h))
  | unclosed before line triv lead q s ht ho hu =>
    intro x y before' line' h
    rcases List.append_eq_append_iff.1 h with ⟨d, rfl, hd⟩ | ⟨d, rfl, hd⟩
    · by_cases hx : d = []
      · subst hx; exact none (by simpa using leaves_end (trivia_cut ht triv [] (by simp)))
      · exact none (leaves_string ht ho hx hd fun x' y' h1 _ => unclosed_cut hu _ _ h1)
    · exact none (leaves_end (trivia_cut ht _ _ rfl))
  | cut before line triv lead text ht hi hs =>
    intro x y before' line' h
    rcases List.append_eq_append_iff.1 h with ⟨d, rfl, hd⟩ | ⟨d, rfl, hd⟩
    · cases d with
      | nil => exact none (by simpa using leaves_end (trivia_cut ht triv [] (by simp)))
      | cons c d =>
        have hs : symbolStart c = true ∨ numberStart c = true ∨ c = ':' := by
          rw [hd] at hs
          simpa [Starts, or_assoc] using hs
        rcases List.append_eq_append_iff.1 hd with ⟨f, hf, hy⟩ | ⟨f, hf, hy⟩
        · cases f with
          | nil =>
            have hi' : Ident (c :: d ++ []) := by rw [hf]; simpa using hi
            exact none (leaves_ident ht hi' hs)
          | cons g f =>
            simp only [List.cons_append, List.cons.injEq] at hy
            obtain ⟨rfl, hy⟩ := hy
            obtain ⟨rfl, rfl⟩ := List.append_eq_nil_iff.1 hy.symm
            rw [hf]
            exact none ⟨[], .cut, .cut _ _ _ _ _ ht hi (by rw [← hf]; simpa [Starts, or_assoc] using hs), fun h => by cases h⟩
        · rw [hf] at hi
          exact none (leaves_ident ht hi hs)
    · exact none (leaves_end (trivia_cut ht _ _ rfl))
  | token before line triv lead kind text value rest toks e ht hl hr ih =>
    intro x y before' line' h
    have later := tokens_after hr
    have all : ∀ {x : Str} {T : Token}, T.site.off = blen (before ++ triv) → blen x ≤ blen triv → EndTrivia x → ∃ t1 t2, T :: toks = t1 ++ t2 ∧
      (∀ t ∈ t1, t.site.off < blen (before ++ x)) ∧ (∀ t ∈ t2, blen (before ++ x) ≤ t.site.off) ∧ Leaves (openDepth t1) b' before' line' x := by
      intro x T hT hx he
      refine ⟨[], _, rfl, by simp, fun t ht => ?_, leaves_end he⟩
      rcases List.mem_cons.1 ht with rfl | ht
      · rw [hT]; simp; omega
      · have := later t ht
        simp at this ⊢; omega
    have size : ∀ {z : Str}, z ≠ [] → 0 < blen z := fun {z} hz => by
      cases z with
      | nil => exact absurd rfl hz
      | cons c z => simp; have := Char.utf8Size_pos c; omega
    have step : ∀ {t1 t2 : List Token} {f : Str}, (∀ t ∈ t1, t.site.off < blen (before ++ triv ++ text ++ f)) →
        (∀ t ∈ t2, blen (before ++ triv ++ text ++ f) ≤ t.site.off) → Lexeme kind text value f →
        Leaves (openDepth t1) b' (before' ++ triv ++ text) (line' + newlines triv + 2 * newlines text) f →
        ∃ s1 s2, { kind := kind, value := value, lw := lead, site := siteOf b (tokenLine kind line triv text) (before ++ triv) text } :: (t1 ++ t2) = s1 ++ s2 ∧
          (∀ t ∈ s1, t.site.off < blen (before ++ (triv ++ (text ++ f)))) ∧ (∀ t ∈ s2, blen (before ++ (triv ++ (text ++ f))) ≤ t.site.off) ∧
          Leaves (openDepth s1) b' before' line' (triv ++ (text ++ f)) := by
      intro t1 t2 f h1 h2 hl' h3
      refine ⟨_ :: t1, t2, rfl, fun t ht' => ?_, fun t ht' => ?_, leaves_token ht hl' h3⟩
      · rcases List.mem_cons.1 ht' with rfl | ht'
        · have := size (List.length_pos_iff.1 (lexeme_length hl))
          simp [siteOf]; omega
        · simpa using h1 t ht'
      · simpa using h2 t ht'
    rcases List.append_eq_append_iff.1 h with ⟨d, rfl, hd⟩ | ⟨d, rfl, hd⟩
    · rcases List.append_eq_append_iff.1 hd with ⟨f, rfl, hf⟩ | ⟨f, hf, hy⟩
      · obtain ⟨t1, t2, rfl, h1, h2, h3⟩ := ih f y (before' ++ triv ++ text) (line' + newlines triv + 2 * newlines text) hf
        subst hf
        exact step h1 h2 (lexeme_cut hl) h3
      · by_cases hx : d = []
        · subst hx
          simpa using all (x := triv) rfl (Nat.le_refl _) (trivia_cut ht triv [] (by simp))
        · by_cases hy' : f = []
          · subst hy'
            simp only [List.append_nil] at hf
            subst hf
            obtain ⟨t1, t2, rfl, h1, h2, h3⟩ := ih [] rest (before' ++ triv ++ text) (line' + newlines triv + 2 * newlines text) rfl
            simpa using step h1 h2 (lexeme_cut (x := []) hl) h3
          · obtain ⟨h1, h2, h3⟩ := lexeme_part (b := b') (before := before') (line := line') ht hl hx hy' hf
            refine ⟨[_], toks, rfl, fun t ht => ?_, fun t ht => ?_, ?_⟩
            · rcases List.mem_cons.1 ht with rfl | ht
              · have := size hx
                simp [siteOf]; omega
              · cases ht
            · have := later t ht
              rw [hf] at this
              simp at this ⊢; omega
            · simpa [openDepth, weight, h1, h2] using h3
    · exact all rfl (by simp) (trivia_cut ht _ _ rfl)

/-! ## Overwriting a parenthesis -/

theorem trivia_blank_more {t l y lead : Str} {c : Char} (hc : blank c = true) (ht : Trivia t l) (h : Trivia y lead) :
    ∃ lead', Trivia (t ++ c :: y) lead' := by
  induction ht with
  | blanks w hw =>
    induction w with
    | nil => exact trivia_cons_blank hc h
    | cons d w ih =>
      obtain ⟨l', h'⟩ := ih fun c hc => hw c (by simp [hc])
      exact trivia_cons_blank (hw d (by simp)) h'
  | comment w text r _ hw ht hr ih =>
    obtain ⟨lead', h1⟩ := ih
    exact ⟨lead', by simpa using Trivia.comment w text (r ++ c :: y) lead' hw ht (by simpa using h1)⟩

theorem lexeme_overwrite {kind : Kind} {text value x y : Str} {p c : Char} (hc : blank c = true)
    (h : Lexeme kind text value (x ++ p :: y)) : Lexeme kind text value (x ++ c :: y) := by
  have hs : ∀ {x y : Str}, Stop (x ++ p :: y) → Stop (x ++ c :: y) := fun {x y} h => by
    cases x with
    | nil => simp [Stop, stopChar, hc]
    | cons d x => exact h
  cases h with
  | lparen => exact .lparen _
  | rparen => exact .rparen _
  | symbol _ _ h1 h2 h3 => exact .symbol _ _ h1 h2 (hs h3)
  | number _ _ h1 h2 h3 => exact .number _ _ h1 h2 (hs h3)
  | keyword _ _ h1 h2 => exact .keyword _ _ h1 (hs h2)
  | string q _ _ h1 h2 =>
    refine .string q value _ h1 ?_
    rcases h2 with ⟨rfl, _⟩ | ⟨rfl, h, hn⟩
    · exact .inl ⟨rfl, ⟨value ++ q3 ++ (x ++ c :: y), by simp⟩⟩
    · refine .inr ⟨rfl, ⟨value ++ q1 ++ (x ++ c :: y), by simp⟩, fun hq => hn ?_⟩
      have key : ∀ (q z : Str), (∀ d ∈ q, d = '"') → q <+: z ++ c :: y → q <+: z := by
        intro q
        induction q with
        | nil => intro z _ _; exact ⟨z, rfl⟩
        | cons d q ih =>
          intro z hd hz
          obtain ⟨r, hz⟩ := hz
          cases z with
          | nil =>
            simp only [List.cons_append, List.nil_append, List.cons.injEq] at hz
            have := hd d (by simp)
            rw [← hz.1, this] at hc
            exact absurd hc (by decide)
          | cons g z =>
            simp only [List.cons_append, List.cons.injEq] at hz
            obtain ⟨rfl, hz⟩ := hz
            obtain ⟨r', h⟩ := ih z (fun d h => hd d (by simp [h])) ⟨r, hz⟩
            exact ⟨r', by simp [h]⟩
      have := key q3 (q1 ++ value ++ q1 ++ x) (by simp [q3]) (by simpa using hq)
      exact this.trans ⟨p :: y, by simp⟩

/-- The tokens of a text, at another place. -/
theorem tokens_elsewhere {b b' : Buf} {before : Str} {line : Nat} {rest : Str} {toks : List Token} {e : Ending}
    (h : Tokens b before line rest toks e) : ∀ before' line', ∃ toks' e', Tokens b' before' line' rest toks' e' ∧ openDepth toks' = openDepth toks ∧
      (e = .eof → e' = .eof) := by
  induction h with
  | eof _ _ _ h => exact fun _ _ => ⟨_, _, .eof _ _ _ h, rfl, id⟩
  | unclosed _ _ _ _ _ _ h1 h2 h3 => exact fun _ _ => ⟨_, _, .unclosed _ _ _ _ _ _ h1 h2 h3, rfl, fun h => by cases h⟩
  | cut _ _ _ _ _ h1 h2 h3 => exact fun _ _ => ⟨_, _, .cut _ _ _ _ _ h1 h2 h3, rfl, id⟩
  | token _ _ triv lead kind text value rest toks e ht hl _ ih =>
    intro before' line'
    obtain ⟨toks', e', h1, h2, h3⟩ := ih (before' ++ triv ++ text) (line' + newlines triv + 2 * newlines text)
    exact ⟨_, e', .token _ _ _ _ _ _ _ _ _ _ ht hl h1, by simp [openDepth, weight, h2], h3⟩

/-- Tokens with more blanks in front. -/
theorem tokens_blank_more {b b' : Buf} {before : Str} {line : Nat} {rest : Str} {toks : List Token} {t l : Str} {c : Char}
    (hc : blank c = true) (ht : Trivia t l) (h : Tokens b before line rest toks .eof) (before' : Str) (line' : Nat) :
    ∃ toks', Tokens b' before' line' (t ++ c :: rest) toks' .eof ∧ openDepth toks' = openDepth toks := by
  cases h with
  | eof _ _ _ h =>
    obtain ⟨y, lead, h1, h2⟩ := h
    obtain ⟨lead', h3⟩ := trivia_blank_more hc ht h1
    refine ⟨[], .eof _ _ _ ⟨_, lead', h3, ?_⟩, rfl⟩
    rcases h2 with rfl | ⟨text, hn, rfl⟩
    · exact .inl rfl
    · exact .inr ⟨text, hn, by simp⟩
  | token _ _ triv lead kind text value rest toks _ ht' hl h =>
    obtain ⟨lead', h3⟩ := trivia_blank_more hc ht ht'
    obtain ⟨toks', e', h1, h2, h4⟩ := tokens_elsewhere (b' := b') h (before' ++ (t ++ c :: triv) ++ text)
      (line' + newlines (t ++ c :: triv) + 2 * newlines text)
    have := Tokens.token before' line' _ _ _ _ _ _ _ _ h3 hl h1
    rw [h4 rfl] at this
    exact ⟨_, by simpa using this, by simp [openDepth, weight, h2]⟩

theorem tokens_overwrite {b b' : Buf} {c : Char} (hc : blank c = true) : ∀ {t1 : List Token} {before : Str} {line : Nat} {rest : Str}
    {t : Token} {t2 : List Token}, Tokens b before line rest (t1 ++ t :: t2) .eof → t.kind = .lparen ∨ t.kind = .rparen →
    ∃ x p y, rest = x ++ p :: y ∧ t.site.off = blen (before ++ x) ∧
      ∀ before' line', ∃ toks', Tokens b' before' line' (x ++ c :: y) toks' .eof ∧ openDepth toks' = openDepth t1 + openDepth t2
  | [], before, line, rest, t, t2, h, hk => by
    cases h with
    | token _ _ triv lead kind text value rest _ _ ht hl h =>
      obtain ⟨p, rfl⟩ : ∃ p, text = [p] := by
        cases hl with
        | lparen => exact ⟨_, rfl⟩
        | rparen => exact ⟨_, rfl⟩
        | _ => simp at hk
      refine ⟨triv, p, rest, rfl, by simp [siteOf], fun before' line' => ?_⟩
      obtain ⟨toks', h1, h2⟩ := tokens_blank_more (b' := b') hc ht h before' line'
      exact ⟨toks', h1, by simp [h2, openDepth]⟩
  | t0 :: t1, before, line, rest, t, t2, h, hk => by
    cases h with
    | token _ _ triv lead kind text value rest _ _ ht hl h =>
      obtain ⟨x, p, y, rfl, h1, h2⟩ := tokens_overwrite (b' := b') hc h hk
      refine ⟨triv ++ (text ++ x), p, y, by simp, by simpa using h1, fun before' line' => ?_⟩
      obtain ⟨toks', h3, h4⟩ := h2 (before' ++ triv ++ text) (line' + newlines triv + 2 * newlines text)
      have := Tokens.token before' line' _ _ _ _ _ _ _ _ ht (lexeme_overwrite hc hl) h3
      refine ⟨_, by simpa using this, ?_⟩
      simp only [openDepth, weight, h4]; omega

theorem prefix_blen_inj {x r x' r' : Str} (h : x ++ r = x' ++ r') (hl : blen x = blen x') : x = x' := by
  have zero : ∀ {d : Str}, blen d = 0 → d = [] := fun {d} hd => by
    cases d with
    | nil => rfl
    | cons c d => have := Char.utf8Size_pos c; simp at hd; omega
  rcases List.append_eq_append_iff.1 h with ⟨d, rfl, _⟩ | ⟨d, rfl, _⟩
  · simp at hl
    simp [zero hl]
  · simp at hl
    simp [zero hl]

end Seam
