import Verif.Spec.Nodes
import Verif.Lemmas.Reader
import Verif.Model.Assemble

namespace Seam
open Spec

/-! ## Reading back -/

theorem ident_of_plain : ∀ (s : Str), (∀ c ∈ s, identChar c = true) → Ident s
  | [], _ => .nil
  | c :: s, h => .plain c s (h c (by simp)) (ident_of_plain s (fun d hd => h d (by simp [hd])))

theorem noBackslash_plain (s : Str) (h : ∀ c ∈ s, identChar c = true) : noBackslash s = s := by
  unfold noBackslash
  rw [List.filter_eq_self]
  intro c hc
  have := h c hc
  simp only [bne_iff_ne, ne_eq]
  rintro rfl
  exact absurd this (by decide)

theorem trivia_of_blanks {w : Str} (h : Blanks w) : Trivia w w := .blanks w h

/-- What may stand behind the text of a node. -/
def FollowOk (dbg : Str → Str) (n : PNode) (rest : Str) : Prop :=
  (endsInWord n = true → Stop rest) ∧ (endsInEmptyString dbg n = true → rest.head? ≠ some '"')

theorem opens_q1 {body rest : Str} (hb : Body q1 body) (h : body = [] → rest.head? ≠ some '"') :
    Opens q1 (q1 ++ body ++ q1 ++ rest) := by
  right
  refine ⟨rfl, ⟨body ++ q1 ++ rest, by simp⟩, ?_⟩
  rintro ⟨t, ht⟩
  cases hb with
  | nil =>
    have := h rfl
    cases rest with
    | nil => simp [q1, q3] at ht
    | cons c rest => simp [q1, q3] at ht; simp at this; exact this ht.1.symm
  | plain c s h1 h2 h3 =>
    simp [q1, q3] at ht
    apply h2
    rw [← ht.1]
    exact ⟨s ++ q1, by simp [q1]⟩
  | esc c s h => simp [q1, q3] at ht

/-- Blanks are a `Stop`. -/
theorem stop_of_blanks {w rest : Str} (h : Blanks w) (hw : w ≠ []) : Stop (w ++ rest) := by
  cases w with
  | nil => exact absurd rfl hw
  | cons c w =>
    have := h c (by simp)
    simp [Stop, stopChar, this]

theorem head_blanks {w rest : Str} (h : Blanks w) (hw : w ≠ []) : (w ++ rest).head? ≠ some '"' := by
  cases w with
  | nil => exact absurd rfl hw
  | cons c w =>
    have := h c (by simp)
    simp only [List.cons_append, List.head?_cons, ne_eq, Option.some.injEq]
    rintro rfl
    exact absurd this (by decide)

theorem printable_lw {u : Unescape} {dbg : Str → Str} {n : PNode} (h : Printable u dbg n) : Blanks n.lw := by
  cases h <;> assumption

/-- The text of a node after its whitespace starts with `(` or `"` unless it is a word. -/
theorem sexp_split {u : Unescape} {dbg : Str → Str} {n : PNode} (h : Printable u dbg n) :
    ∃ c t, sexpNode dbg n = n.lw ++ c :: t ∧ (startsWithWord n = false → c = '(' ∨ c = '"') ∧
      (isStringLit n = false → c ≠ '"') := by
  cases h with
  | symbol n _ hw =>
    obtain ⟨hs, hi⟩ := hw
    cases hv : n.value with
    | nil => simp [hv, Starts] at hs
    | cons c t =>
      refine ⟨c, t, by simp [sexpNode, PNode.lw, hv], by simp [startsWithWord], ?_⟩
      intro _ hc
      have := hi c (by simp [hv])
      subst hc; exact absurd this (by decide)
  | number n _ hw =>
    obtain ⟨hs, hi⟩ := hw
    cases hv : n.value with
    | nil => simp [hv, Starts] at hs
    | cons c t =>
      refine ⟨c, t, by simp [sexpNode, PNode.lw, hv], by simp [startsWithWord], ?_⟩
      intro _ hc
      have := hi c (by simp [hv])
      subst hc; exact absurd this (by decide)
  | string n body _ hd _ _ => exact ⟨'"', body ++ ['"'], by simp [sexpNode, PNode.lw, hd], by simp, by simp [isStringLit]⟩
  | list ns s e w _ _ _ => exact ⟨'(', sexpNodes dbg ns ++ (e.lw ++ [')']), by simp [sexpNode, PNode.lw], by simp, by simp⟩
  | attr k n s w _ _ _ _ => exact ⟨':', k ++ sexpNode dbg n, by simp [sexpNode, PNode.lw], by simp [startsWithWord], by simp⟩

theorem follow_apart {u : Unescape} {dbg : Str → Str} {n m : PNode} (hm : Printable u dbg m) (h : Apart dbg n m)
    (rest : Str) : FollowOk dbg n (sexpNode dbg m ++ rest) := by
  obtain ⟨c, t, h1, h2, h3⟩ := sexp_split hm
  rw [h1]
  by_cases hl : m.lw = []
  · obtain ⟨g1, g2⟩ := h hl
    constructor
    · intro he
      have : startsWithWord m = false := by
        cases hs : startsWithWord m with
        | false => rfl
        | true => exact absurd ⟨he, hs⟩ g1
      rcases h2 this with rfl | rfl <;> simp [hl, Stop, stopChar]
    · intro he
      have : isStringLit m = false := by
        cases hs : isStringLit m with
        | false => rfl
        | true => exact absurd ⟨he, hs⟩ g2
      simp [hl, h3 this]
  · constructor
    · intro _; rw [List.append_assoc]; exact stop_of_blanks (printable_lw hm) hl
    · intro _; rw [List.append_assoc]; exact head_blanks (printable_lw hm) hl

/-- Reading the text `text` before `rest` gives the tokens `toks`. -/
def Yields (b : Buf) (before : Str) (line : Nat) (text rest : Str) (toks : List Token) : Prop :=
  ∃ before' line', ∀ toks' e, Tokens b before' line' rest toks' e → Tokens b before line (text ++ rest) (toks ++ toks') e

theorem yields_token (b : Buf) (before : Str) (line : Nat) {triv lead : Str} (ht : Trivia triv lead)
    {kind : Kind} {text value rest : Str} (hl : Lexeme kind text value rest) :
    ∃ t : Token, t.kind = kind ∧ t.value = value ∧ t.lw = lead ∧
      Yields b before line (triv ++ text) rest [t] :=
  ⟨_, rfl, rfl, rfl, _, _, fun toks' e h => by
    have := Tokens.token before line triv lead kind text value rest toks' e ht hl h
    rw [List.append_assoc]; exact this⟩

theorem yields_append {b : Buf} {before : Str} {line : Nat} {text text' rest : Str} {toks toks' : List Token}
    (h : Yields b before line text (text' ++ rest) toks)
    (h' : ∀ before line, Yields b before line text' rest toks') :
    Yields b before line (text ++ text') rest (toks ++ toks') := by
  obtain ⟨b1, l1, h1⟩ := h
  obtain ⟨b2, l2, h2⟩ := h' b1 l1
  refine ⟨b2, l2, fun ts e ht => ?_⟩
  have := h1 _ _ (h2 _ _ ht)
  simpa using this

mutual
theorem reads_node {u : Unescape} {dbg : Str → Str} (b : Buf) : ∀ {n : PNode}, Printable u dbg n →
    ∀ rest, FollowOk dbg n rest → ∀ before line, ∃ toks n', Expr u toks n' ∧ SameNode n n' ∧
      Yields b before line (sexpNode dbg n) rest toks
  | _, .symbol n hl hw, rest, hf, before, line => by
    obtain ⟨t, h1, h2, h3, h4⟩ := yields_token b before line (trivia_of_blanks hl)
      (Lexeme.symbol n.value rest (ident_of_plain _ hw.2) hw.1 (hf.1 rfl))
    exact ⟨[t], _, .symbol t h1, by simp [SameNode, h2, h3, noBackslash_plain _ hw.2], h4⟩
  | _, .number n hl hw, rest, hf, before, line => by
    obtain ⟨t, h1, h2, h3, h4⟩ := yields_token b before line (trivia_of_blanks hl)
      (Lexeme.number n.value rest (ident_of_plain _ hw.2) hw.1 (hf.1 rfl))
    exact ⟨[t], _, .number t h1, by simp [SameNode, h2, h3, noBackslash_plain _ hw.2], h4⟩
  | _, .string n body hl hd hb hu, rest, hf, before, line => by
    obtain ⟨t, h1, h2, h3, h4⟩ := yields_token b before line (trivia_of_blanks hl)
      (Lexeme.string q1 body rest hb (opens_q1 hb (by
        rintro rfl
        exact hf.2 (by simp [endsInEmptyString, hd]))))
    refine ⟨[t], _, .string t n.value h1 (by rw [h2, hu]), by simp [SameNode, h3], ?_⟩
    simpa [sexpNode, hd, q1] using h4
  | _, .list ns s e w hw he hs, rest, hf, before, line => by
    obtain ⟨o, o1, o2, o3, o4⟩ := yields_token b before line (trivia_of_blanks hw)
      (Lexeme.lparen (sexpNodes dbg ns ++ (e.lw ++ [')']) ++ rest))
    obtain ⟨ob, ol, o4⟩ := o4
    obtain ⟨ts, ns', x1, x2, x3⟩ := reads_nodes b hs (e.lw ++ [')'] ++ rest) (by
      intro m hm
      constructor
      · intro _
        cases hl : e.lw with
        | nil => simp [Stop, stopChar]
        | cons c l => rw [← hl, List.append_assoc]; exact stop_of_blanks he (by simp [hl])
      · intro _
        cases hl : e.lw with
        | nil => simp
        | cons c l => rw [← hl, List.append_assoc]; exact head_blanks he (by simp [hl])) ob ol
    obtain ⟨xb, xl, x3⟩ := x3
    obtain ⟨c, c1, c2, c3, c4⟩ := yields_token b xb xl (trivia_of_blanks he) (Lexeme.rparen rest)
    obtain ⟨cb, cl, c4⟩ := c4
    refine ⟨o :: (ts ++ [c]), _, .list o c ts ns' o1 c1 x1, by simp [SameNode, x2, c3, o3], cb, cl, ?_⟩
    intro toks' en ht
    have h1 := c4 _ _ ht
    have h2 := x3 _ _ h1
    have h3 := o4 _ _ (by simpa using h2)
    simpa [sexpNode] using h3
  | _, .attr k n s w hw hk hn ha, rest, hf, before, line => by
    have hstop : Stop (sexpNode dbg n ++ rest) := by
      obtain ⟨c, t, h1, h2, _⟩ := sexp_split hn
      rw [h1]
      by_cases hl : n.lw = []
      · rcases h2 (ha hl) with rfl | rfl <;> simp [hl, Stop, stopChar]
      · rw [List.append_assoc]; exact stop_of_blanks (printable_lw hn) hl
    obtain ⟨t, h1, h2, h3, tb, tl, h4⟩ := yields_token b before line (trivia_of_blanks hw)
      (Lexeme.keyword k (sexpNode dbg n ++ rest) (ident_of_plain _ hk) hstop)
    obtain ⟨ts, n', x1, x2, xb, xl, x3⟩ := reads_node b hn rest hf tb tl
    refine ⟨t :: ts, _, .attr t ts n' h1 x1, by simp [SameNode, h2, h3, x2], xb, xl, ?_⟩
    intro toks' e ht
    have h5 := h4 _ _ (x3 _ _ ht)
    simpa [sexpNode] using h5
theorem reads_nodes {u : Unescape} {dbg : Str → Str} (b : Buf) : ∀ {ns : List PNode}, Printables u dbg ns →
    ∀ rest, (∀ n ∈ ns.getLast?, FollowOk dbg n rest) → ∀ before line, ∃ toks ns', Exprs u toks ns' ∧
      SameNodes ns ns' ∧ Yields b before line (sexpNodes dbg ns) rest toks
  | _, .nil, rest, _, before, line => ⟨[], [], .nil, by simp [SameNodes], before, line, fun _ _ h => by simpa [sexpNodes] using h⟩
  | _, .one n hn, rest, hf, before, line => by
    obtain ⟨ts, n', x1, x2, x3⟩ := reads_node b hn rest (hf n (by simp)) before line
    refine ⟨ts, [n'], ?_, by simp [SameNodes, x2], by simpa [sexpNodes] using x3⟩
    simpa using Exprs.cons ts n' [] [] x1 .nil
  | _, .cons n m ns hn ha hs, rest, hf, before, line => by
    have hm : Printable u dbg m := by cases hs <;> assumption
    obtain ⟨ts, n', x1, x2, xb, xl, x3⟩ := reads_node b hn (sexpNodes dbg (m :: ns) ++ rest) (by
      simp only [sexpNodes, List.append_assoc]; exact follow_apart hm ha _) before line
    obtain ⟨ts', ns', y1, y2, yb, yl, y3⟩ := reads_nodes b hs rest (by
      intro k hk
      exact hf k (by simpa using hk)) xb xl
    refine ⟨ts ++ ts', n' :: ns', .cons ts n' ts' ns' x1 y1, ?_, yb, yl, ?_⟩
    · rw [SameNodes]; exact ⟨x2, y2⟩
    · intro toks' e ht
      have := x3 _ _ (y3 _ _ ht)
      simpa [sexpNodes] using this
end

/-! ## Reproducing the source -/

/-- How a token is printed. -/
def showTok (u : Unescape) (dbg : Str → Str) (t : Token) : Str :=
  match t.kind with
  | .lparen => ['(']
  | .rparen => [')']
  | .symbol | .number => noBackslash t.value
  | .string => dbg ((u t.value).getD [])
  | .keyword => ':' :: t.value

mutual
theorem sexp_expr {u : Unescape} {dbg : Str → Str} : ∀ {ts : List Token} {n : PNode}, Expr u ts n →
    sexpNode dbg n = ts.flatMap (fun t => t.lw ++ showTok u dbg t)
  | _, _, .symbol t h => by simp [sexpNode, showTok, h]
  | _, _, .number t h => by simp [sexpNode, showTok, h]
  | _, _, .string t v h hv => by simp [sexpNode, showTok, h, hv]
  | _, _, .list o c ts ns ho hc hs => by
    simp [sexpNode, showTok, ho, hc, sexps_exprs hs]
  | _, _, .attr k ts n hk hn => by simp [sexpNode, showTok, hk, sexp_expr hn]
theorem sexps_exprs {u : Unescape} {dbg : Str → Str} : ∀ {ts : List Token} {ns : List PNode}, Exprs u ts ns →
    sexpNodes dbg ns = ts.flatMap (fun t => t.lw ++ showTok u dbg t)
  | _, _, .nil => by simp [sexpNodes]
  | _, _, .cons ts n ts' ns hn hs => by simp [sexpNodes, sexp_expr hn, sexps_exprs hs]
end

mutual
theorem display_expr {u : Unescape} {dbg : Str → Str} : ∀ {ts : List Token} {n : PNode}, Expr u ts n →
    PNode.display dbg n = sexpNode dbg n
  | _, _, .symbol t h => by simp [sexpNode, PNode.display]
  | _, _, .number t h => by simp [sexpNode, PNode.display]
  | _, _, .string t v h hv => by simp [sexpNode, PNode.display]
  | _, _, .list o c ts ns ho hc hs => by simp [sexpNode, PNode.display, displays_exprs hs]
  | _, _, .attr k ts n hk hn => by simp [sexpNode, PNode.display, display_expr hn]
theorem displays_exprs {u : Unescape} {dbg : Str → Str} : ∀ {ts : List Token} {ns : List PNode}, Exprs u ts ns →
    PNode.displays dbg ns = sexpNodes dbg ns
  | _, _, .nil => by simp [sexpNodes, PNode.displays]
  | _, _, .cons ts n ts' ns hn hs => by simp [sexpNodes, PNode.displays, display_expr hn, displays_exprs hs]
end

theorem blen_pos_of_cons (c : Char) (s : Str) : 0 < blen (c :: s) := by
  have := Char.utf8Size_pos c
  simp [blen]; omega

/-- Prefixes of the same text with the same number of bytes are equal. -/
theorem prefix_unique : ∀ {a b c d : Str}, a ++ b = c ++ d → blen a = blen c → a = c ∧ b = d
  | [], b, [], d, h, _ => ⟨rfl, h⟩
  | [], b, c :: cs, d, _, hl => by have := blen_pos_of_cons c cs; simp [blen] at hl this; omega
  | x :: xs, b, [], d, _, hl => by have := blen_pos_of_cons x xs; simp [blen] at hl this; omega
  | x :: xs, b, c :: cs, d, h, hl => by
    simp only [List.cons_append, List.cons.injEq] at h
    obtain ⟨rfl, h⟩ := h
    obtain ⟨rfl, rfl⟩ := prefix_unique h (by simp [blen] at hl; exact hl)
    exact ⟨rfl, rfl⟩

theorem trivia_blanks_eq {t l : Str} (h : Trivia t l) (hb : Blanks t) : l = t := by
  cases h with
  | blanks => rfl
  | comment w text r lead _ _ _ =>
    have := hb ';' (by simp)
    exact absurd this (by decide)

theorem spaced_tokens {b : Buf} {before : Str} {line : Nat} {rest : Str} {toks : List Token} {e : Ending}
    (h : Tokens b before line rest toks e) (hc : b.code = before ++ rest) (he : e = .eof) (f : Token → Str)
    (hs : Spaced before rest (toks.map Token.site))
    (hf : ∀ t ∈ toks, ∀ text rest, Lexeme t.kind text t.value rest → t.site.view = some text → f t = text) :
    rest = toks.flatMap (fun t => t.lw ++ f t) := by
  induction h with
  | eof => cases hs; rfl
  | unclosed => cases he
  | cut => cases he
  | token before line triv lead kind text value rest toks e ht hl _ ih =>
    simp only [List.map_cons] at hs
    generalize hr : triv ++ (text ++ rest) = r at hs
    cases hs with
    | cons _ gap text' rest' _ _ hg ho hsp hs' =>
      obtain ⟨h1, h2⟩ := prefix_unique hr (by simp [siteOf, blen_append] at ho; exact ho)
      obtain ⟨h3, h4⟩ := prefix_unique h2 (by simpa [siteOf] using hsp)
      subst h1 h3 h4
      have := trivia_blanks_eq ht hg
      subst this
      rw [List.flatMap_cons, ← ih (by rw [hc]; simp) he hs' (fun t ht => hf t (by simp [ht]))]
      have := hf _ (List.mem_cons_self) text rest hl (siteOf_view b _ _ _ rest (by rw [hc]; simp))
      rw [this]; simp

/-! ## Equality and hashing -/

mutual
theorem eqv_iff : ∀ (a b : PNode), a.eqv b = true ↔ SameValue a b
  | .symbol a, b => by
    cases b <;> simp only [PNode.eqv, Bool.false_eq_true, false_iff, beq_iff_eq] <;> try (intro h; cases h; done)
    exact ⟨fun h => .symbol _ _ h, fun h => by cases h; assumption⟩
  | .number a, b => by
    cases b <;> simp only [PNode.eqv, Bool.false_eq_true, false_iff, beq_iff_eq] <;> try (intro h; cases h; done)
    exact ⟨fun h => .number _ _ h, fun h => by cases h; assumption⟩
  | .string a, b => by
    cases b <;> simp only [PNode.eqv, Bool.false_eq_true, false_iff, beq_iff_eq] <;> try (intro h; cases h; done)
    exact ⟨fun h => .string _ _ h, fun h => by cases h; assumption⟩
  | .raw a, b => by
    cases b <;> simp only [PNode.eqv, Bool.false_eq_true, false_iff, beq_iff_eq] <;> try (intro h; cases h; done)
    exact ⟨fun h => .raw _ _ h, fun h => by cases h; assumption⟩
  | .list as s e w, b => by
    cases b <;> simp only [PNode.eqv, Bool.false_eq_true, false_iff] <;> try (intro h; cases h)
    rw [eqvs_iff]
    exact ⟨fun h => .list _ _ _ _ _ _ _ _ h, fun h => by cases h; assumption⟩
  | .attr k a s w, b => by
    cases b <;> simp only [PNode.eqv, Bool.false_eq_true, false_iff] <;> try (intro h; cases h)
    rw [Bool.and_eq_true, eqv_iff, beq_iff_eq]
    exact ⟨fun h => by obtain ⟨rfl, h⟩ := h; exact .attr _ _ _ _ _ _ _ h, fun h => by cases h; exact ⟨rfl, by assumption⟩⟩
theorem eqvs_iff : ∀ (as bs : List PNode), PNode.eqvs as bs = true ↔ SameValues as bs
  | [], [] => by simp [PNode.eqvs]; exact .nil
  | [], b :: bs => by simp [PNode.eqvs]; intro h; cases h
  | a :: as, [] => by simp [PNode.eqvs]; intro h; cases h
  | a :: as, b :: bs => by
    simp only [PNode.eqvs, Bool.and_eq_true, eqv_iff, eqvs_iff]
    exact ⟨fun h => .cons _ _ _ _ h.1 h.2, fun h => by cases h; constructor <;> assumption⟩
end

mutual
theorem sameValue_refl : ∀ (a : PNode), SameValue a a
  | .symbol _ => .symbol _ _ rfl
  | .number _ => .number _ _ rfl
  | .string _ => .string _ _ rfl
  | .raw _ => .raw _ _ rfl
  | .list as _ _ _ => .list _ _ _ _ _ _ _ _ (sameValues_refl as)
  | .attr _ a _ _ => .attr _ _ _ _ _ _ _ (sameValue_refl a)
theorem sameValues_refl : ∀ (as : List PNode), SameValues as as
  | [] => .nil
  | a :: as => .cons _ _ _ _ (sameValue_refl a) (sameValues_refl as)
end

mutual
theorem sameValue_symm : ∀ {a b : PNode}, SameValue a b → SameValue b a
  | _, _, .symbol _ _ h => .symbol _ _ h.symm
  | _, _, .number _ _ h => .number _ _ h.symm
  | _, _, .string _ _ h => .string _ _ h.symm
  | _, _, .raw _ _ h => .raw _ _ h.symm
  | _, _, .list _ _ _ _ _ _ _ _ h => .list _ _ _ _ _ _ _ _ (sameValues_symm h)
  | _, _, .attr _ _ _ _ _ _ _ h => .attr _ _ _ _ _ _ _ (sameValue_symm h)
theorem sameValues_symm : ∀ {as bs : List PNode}, SameValues as bs → SameValues bs as
  | _, _, .nil => .nil
  | _, _, .cons _ _ _ _ h hs => .cons _ _ _ _ (sameValue_symm h) (sameValues_symm hs)
end

mutual
theorem sameValue_trans : ∀ {a b c : PNode}, SameValue a b → SameValue b c → SameValue a c
  | _, _, _, .symbol _ _ h, .symbol _ _ h' => .symbol _ _ (h.trans h')
  | _, _, _, .number _ _ h, .number _ _ h' => .number _ _ (h.trans h')
  | _, _, _, .string _ _ h, .string _ _ h' => .string _ _ (h.trans h')
  | _, _, _, .raw _ _ h, .raw _ _ h' => .raw _ _ (h.trans h')
  | _, _, _, .list _ _ _ _ _ _ _ _ h, .list _ _ _ _ _ _ _ _ h' => .list _ _ _ _ _ _ _ _ (sameValues_trans h h')
  | _, _, _, .attr _ _ _ _ _ _ _ h, .attr _ _ _ _ _ _ _ h' => .attr _ _ _ _ _ _ _ (sameValue_trans h h')
theorem sameValues_trans : ∀ {as bs cs : List PNode}, SameValues as bs → SameValues bs cs → SameValues as cs
  | _, _, _, .nil, .nil => .nil
  | _, _, _, .cons _ _ _ _ h hs, .cons _ _ _ _ h' hs' => .cons _ _ _ _ (sameValue_trans h h') (sameValues_trans hs hs')
end

theorem sameValues_length : ∀ {as bs : List PNode}, SameValues as bs → as.length = bs.length
  | _, _, .nil => rfl
  | _, _, .cons _ _ _ _ _ hs => by simp [sameValues_length hs]

mutual
theorem hash_same : ∀ {a b : PNode}, SameValue a b → a.hashOps = b.hashOps
  | _, _, .symbol _ _ h => by simp [PNode.hashOps, h]
  | _, _, .number _ _ h => by simp [PNode.hashOps, h]
  | _, _, .string _ _ h => by simp [PNode.hashOps, h]
  | _, _, .raw _ _ h => by simp [PNode.hashOps, h]
  | _, _, .list _ _ _ _ _ _ _ _ h => by simp [PNode.hashOps, hashs_same h, sameValues_length h]
  | _, _, .attr _ _ _ _ _ _ _ h => by simp [PNode.hashOps, hash_same h]
theorem hashs_same : ∀ {as bs : List PNode}, SameValues as bs → PNode.hashOpss as = PNode.hashOpss bs
  | _, _, .nil => rfl
  | _, _, .cons _ _ _ _ h hs => by simp [PNode.hashOpss, hash_same h, hashs_same hs]
end

mutual
/-- The other direction: the writes determine the value (the encoding is a prefix code). -/
theorem hash_inj : ∀ {a b : PNode} {r r' : List HashOp}, a.hashOps ++ r = b.hashOps ++ r' → SameValue a b ∧ r = r'
  | .symbol a, b, r, r', h => by
    cases b <;> simp [PNode.hashOps] at h
    exact ⟨.symbol _ _ h.1, h.2⟩
  | .number a, b, r, r', h => by
    cases b <;> simp [PNode.hashOps] at h
    exact ⟨.number _ _ h.1, h.2⟩
  | .string a, b, r, r', h => by
    cases b <;> simp [PNode.hashOps] at h
    exact ⟨.string _ _ h.1, h.2⟩
  | .raw a, b, r, r', h => by
    cases b <;> simp [PNode.hashOps] at h
    exact ⟨.raw _ _ h.1, h.2⟩
  | .list as _ _ _, b, r, r', h => by
    cases b <;> simp [PNode.hashOps] at h
    obtain ⟨hl, h⟩ := h
    have := hashs_inj hl h
    exact ⟨.list _ _ _ _ _ _ _ _ this.1, this.2⟩
  | .attr k a _ _, b, r, r', h => by
    cases b <;> simp [PNode.hashOps] at h
    obtain ⟨rfl, h⟩ := h
    have := hash_inj h
    exact ⟨.attr _ _ _ _ _ _ _ this.1, this.2⟩
theorem hashs_inj : ∀ {as bs : List PNode} {r r' : List HashOp}, as.length = bs.length →
    PNode.hashOpss as ++ r = PNode.hashOpss bs ++ r' → SameValues as bs ∧ r = r'
  | [], [], r, r', _, h => ⟨.nil, by simpa [PNode.hashOpss] using h⟩
  | [], _ :: _, _, _, hl, _ => by simp at hl
  | _ :: _, [], _, _, hl, _ => by simp at hl
  | a :: as, b :: bs, r, r', hl, h => by
    simp only [PNode.hashOpss, List.append_assoc] at h
    obtain ⟨h1, h2⟩ := hash_inj h
    obtain ⟨h3, h4⟩ := hashs_inj (by simpa using hl) h2
    exact ⟨.cons _ _ _ _ h1 h3, h4⟩
end

/-! ## Searching -/

theorem isA_iff (k k' : SearchType) : k.isA k' = true ↔ Admits k k' := by
  simp [SearchType.isA, Admits]

theorem isEqual_iff (ins : Bool) (v s : Str) : isEqual ins v s = true ↔ TextEq ins s v := by
  cases ins <;> simp [isEqual, TextEq, lower]

/-- What the node itself gives. -/
def hit? (kind : SearchType) (value : Str) (ins : Bool) : PNode → Option PNode
  | .list ns s e w => if headMatches kind value ins ns then some (.list ns s e w) else none
  | .symbol n => if kind.isA .symbol && isEqual ins value n.value then some (.symbol n) else none
  | .string n => if kind.isA .string && isEqual ins value n.value then some (.string n) else none
  | .raw n => if kind.isA .string && isEqual ins value n.value then some (.raw n) else none
  | .number n => if kind.isA .number && isEqual ins value n.value then some (.number n) else none
  | .attr k n _ _ => if kind.isA .attribute && isEqual ins value k then some n else none

theorem atomic_iff (h : PNode) (a : Node) : h.atomic? = some a ↔ (h = .symbol a ∨ h = .number a ∨ h = .string a ∨ h = .raw a) := by
  cases h <;> simp [PNode.atomic?]

theorem hit_iff (kind : SearchType) (value : Str) (ins : Bool) (n r : PNode) :
    hit? kind value ins n = some r ↔ Hit kind value ins n r := by
  cases n with
  | symbol n =>
    simp only [hit?, Option.ite_none_right_eq_some, Bool.and_eq_true, isA_iff, isEqual_iff, Option.some.injEq]
    exact ⟨fun ⟨⟨h1, h2⟩, h3⟩ => h3 ▸ .symbol n h1 h2, fun h => by cases h; exact ⟨⟨by assumption, by assumption⟩, rfl⟩⟩
  | number n =>
    simp only [hit?, Option.ite_none_right_eq_some, Bool.and_eq_true, isA_iff, isEqual_iff, Option.some.injEq]
    exact ⟨fun ⟨⟨h1, h2⟩, h3⟩ => h3 ▸ .number n h1 h2, fun h => by cases h; exact ⟨⟨by assumption, by assumption⟩, rfl⟩⟩
  | string n =>
    simp only [hit?, Option.ite_none_right_eq_some, Bool.and_eq_true, isA_iff, isEqual_iff, Option.some.injEq]
    exact ⟨fun ⟨⟨h1, h2⟩, h3⟩ => h3 ▸ .string n h1 h2, fun h => by cases h; exact ⟨⟨by assumption, by assumption⟩, rfl⟩⟩
  | raw n =>
    simp only [hit?, Option.ite_none_right_eq_some, Bool.and_eq_true, isA_iff, isEqual_iff, Option.some.injEq]
    exact ⟨fun ⟨⟨h1, h2⟩, h3⟩ => h3 ▸ .raw n h1 h2, fun h => by cases h; exact ⟨⟨by assumption, by assumption⟩, rfl⟩⟩
  | attr k n s w =>
    simp only [hit?, Option.ite_none_right_eq_some, Bool.and_eq_true, isA_iff, isEqual_iff, Option.some.injEq]
    exact ⟨fun ⟨⟨h1, h2⟩, h3⟩ => h3 ▸ .attr k n s w h1 h2, fun h => by cases h; exact ⟨⟨by assumption, by assumption⟩, rfl⟩⟩
  | list ns s e w =>
    rw [hit?, Option.ite_none_right_eq_some, Option.some.injEq]
    unfold headMatches
    rw [Bool.and_eq_true, isA_iff]
    constructor
    · rintro ⟨⟨h1, h2⟩, rfl⟩
      cases ns with
      | nil => simp at h2
      | cons h ns =>
        cases ha : h.atomic? with
        | none => simp [ha] at h2
        | some a =>
          simp [ha, isEqual_iff] at h2
          exact .list h a ns s e w h1 ((atomic_iff h a).1 ha) h2
    · intro hh
      cases hh with
      | list h a ns _ _ _ h1 h2 h3 =>
        have := (atomic_iff h a).2 h2
        exact ⟨⟨h1, by simp [this, isEqual_iff, h3]⟩, rfl⟩

mutual
theorem search_eq (kind : SearchType) (value : Str) (ins : Bool) : ∀ (level : Nat) (n : PNode),
    searchNode kind value ins n level = (downTo level n).findSome? (hit? kind value ins)
  | 0, n => by simp [searchNode, downTo]
  | l + 1, .list ns s e w => by
    simp only [searchNode, downTo, List.findSome?_cons, hit?]
    split
    · rfl
    · rw [searchs_eq kind value ins l ns]
  | l + 1, .attr k n s w => by
    simp only [searchNode, downTo, List.findSome?_cons, hit?]
    split
    · rfl
    · rw [search_eq kind value ins l n]
  | l + 1, .symbol n => by
    simp only [searchNode, downTo, List.findSome?_cons, hit?, List.findSome?_nil]
    split <;> rfl
  | l + 1, .number n => by
    simp only [searchNode, downTo, List.findSome?_cons, hit?, List.findSome?_nil]
    split <;> rfl
  | l + 1, .string n => by
    simp only [searchNode, downTo, List.findSome?_cons, hit?, List.findSome?_nil]
    split <;> rfl
  | l + 1, .raw n => by
    simp only [searchNode, downTo, List.findSome?_cons, hit?, List.findSome?_nil]
    split <;> rfl
theorem searchs_eq (kind : SearchType) (value : Str) (ins : Bool) : ∀ (level : Nat) (ns : List PNode),
    searchNodes kind value ins ns level = (downTos level ns).findSome? (hit? kind value ins)
  | 0, [] => by simp [searchNodes, downTos]
  | 0, n :: ns => by
    have : ∀ ms, downTos 0 ms = [] := by
      intro ms; induction ms with
      | nil => rfl
      | cons m ms ih => simp [downTos, downTo, ih]
    simp [searchNodes, this]
  | l + 1, [] => by simp [searchNodes, downTos]
  | l + 1, n :: ns => by
    simp only [searchNodes, downTos, List.findSome?_append, search_eq kind value ins (l + 1) n,
      searchs_eq kind value ins (l + 1) ns]
    cases (downTo (l + 1) n).findSome? (hit? kind value ins) <;> simp
end

end Seam

namespace Seam
open Spec

theorem within_sub {n : PNode} {ns ms : List PNode} (h : Within n ns) (hs : ∀ m ∈ ns, m ∈ ms) : Within n ms := by
  cases h with
  | here _ h => exact .here _ (hs _ h)
  | inList _ kids s e w h h' => exact .inList _ kids s e w (hs _ h) h'
  | inAttr _ k v s w h h' => exact .inAttr _ k v s w (hs _ h) h'

mutual
theorem string_token_expr {u : Unescape} : ∀ {ts : List Token} {n : PNode}, Expr u ts n → ∀ t ∈ ts, t.kind = .string →
    ∃ m : Node, Within (.string m) [n] ∧ m.site = t.site ∧ u t.value = some m.value
  | _, _, .symbol t h, t', ht, hk => by simp at ht; subst ht; rw [h] at hk; cases hk
  | _, _, .number t h, t', ht, hk => by simp at ht; subst ht; rw [h] at hk; cases hk
  | _, _, .string t v h hv, t', ht, hk => by
    simp at ht; subst ht
    exact ⟨_, .here _ (by simp; rfl), rfl, hv⟩
  | _, _, .list o c ts ns ho hc hs, t', ht, hk => by
    simp at ht
    rcases ht with rfl | ht | rfl
    · rw [ho] at hk; cases hk
    · obtain ⟨m, h1, h2⟩ := string_token_exprs hs t' ht hk
      exact ⟨m, .inList _ ns _ _ _ (by simp; exact ⟨rfl, rfl, rfl⟩) h1, h2⟩
    · rw [hc] at hk; cases hk
  | _, _, .attr k ts n hk' hn, t', ht, hk => by
    simp at ht
    rcases ht with rfl | ht
    · rw [hk'] at hk; cases hk
    · obtain ⟨m, h1, h2⟩ := string_token_expr hn t' ht hk
      exact ⟨m, .inAttr _ _ n _ _ (by simp; exact ⟨rfl, rfl, rfl⟩) h1, h2⟩
theorem string_token_exprs {u : Unescape} : ∀ {ts : List Token} {ns : List PNode}, Exprs u ts ns → ∀ t ∈ ts,
    t.kind = .string → ∃ m : Node, Within (.string m) ns ∧ m.site = t.site ∧ u t.value = some m.value
  | _, _, .nil, t', ht, hk => by simp at ht
  | _, _, .cons ts n ts' ns hn hs, t', ht, hk => by
    simp at ht
    rcases ht with ht | ht
    · obtain ⟨m, h1, h2⟩ := string_token_expr hn t' ht hk
      exact ⟨m, within_sub h1 (by simp), h2⟩
    · obtain ⟨m, h1, h2⟩ := string_token_exprs hs t' ht hk
      exact ⟨m, within_sub h1 (by intro m hm; simp [hm]), h2⟩
end

end Seam

namespace Seam
open Spec

mutual
/-- A parsed tree has no raw nodes, so that its plain text is its S-expression text
without quoting. -/
theorem text_sexp {u : Unescape} : ∀ {ts : List Token} {n : PNode}, Expr u ts n → textNode n = sexpNode id n
  | _, _, .symbol t h => by simp [textNode, sexpNode]
  | _, _, .number t h => by simp [textNode, sexpNode]
  | _, _, .string t v h hv => by simp [textNode, sexpNode]
  | _, _, .list o c ts ns ho hc hs => by simp [textNode, sexpNode, texts_sexps hs]
  | _, _, .attr k ts n hk hn => by simp [textNode, sexpNode, text_sexp hn]
theorem texts_sexps {u : Unescape} : ∀ {ts : List Token} {ns : List PNode}, Exprs u ts ns → textNodes ns = sexpNodes id ns
  | _, _, .nil => by simp [textNodes, sexpNodes]
  | _, _, .cons ts n ts' ns hn hs => by simp [textNodes, sexpNodes, text_sexp hn, texts_sexps hs]
end

end Seam
