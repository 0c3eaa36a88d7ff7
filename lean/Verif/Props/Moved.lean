import Verif.Lemmas.MovedDoc
import Verif.Lemmas.Lambda
import Verif.Props.Written
import Verif.Props.Expand

/-!
# Positions and comments do not matter (C81, C82)
-/

namespace Seam
open Spec

/-! ## C81 -/

/-- C81: expanding the same nodes at other positions, with the same definitions made at
other positions, has the same outcome up to positions: the same tree, or the same error
at the corresponding place, the same definitions and the same log.  `S` relates old
positions to new ones. -/
theorem C81_positions (ext : Ext) (S : Site → Site → Prop) (hS : ∀ p, S p p) (ns ms : List PNode) (s t s' : St)
    (r : Res (List PNode)) (hm : Moveds S ns ms) (hst : MovedSt S s t) (hk : ByKeys s.order)
    (h : NamedEvals ext ns s r s') :
    ∃ r' t', Evals ext ms t r' t' ∧ MovedRes S r r' ∧ MovedSt S s' t' := by
  obtain ⟨hd, fuel, h⟩ := h
  exact moved_of_sim (namedRun_sim (fun _ _ h => h) hS fuel) hm hst hk hd h

/-- C81: the runs of `C81_positions` are runs of the expander. -/
theorem C81_named (ext : Ext) (ns : List PNode) (s s' : St) (r : Res (List PNode)) (h : NamedEvals ext ns s r s') :
    Evals ext ns s r s' := named_evals h

/-- C81: with `%lambda` too, if the new positions give the same names to its macros. -/
theorem C81_lambda (ext : Ext) (S : Site → Site → Prop) (hS : ∀ p, S p p) (hu : ∀ p q, S p q → ext.uuid p = ext.uuid q)
    (ns ms : List PNode) (s t s' : St) (r : Res (List PNode)) (hm : Moveds S ns ms) (hst : MovedSt S s t)
    (hk : ByKeys s.order) (h : Evals ext ns s r s') :
    ∃ r' t', Evals ext ms t r' t' ∧ MovedRes S r r' ∧ MovedSt S s' t' := by
  obtain ⟨hd, fuel, h⟩ := h
  exact moved_of_sim (run_sim (fun _ _ h => h) hS hu fuel) hm hst hk hd h

/-- C81: trees that differ only in positions are those that are equal without them. -/
theorem C81_unplaced (a b : List PNode) : Moveds (fun _ _ => True) a b ↔ unplaceds a = unplaceds b :=
  ⟨moveds_unplaced, unplaceds_moved⟩

/-- C81: the output, too, is the same in every format (in HTML, if there is no `pre`
element). -/
theorem C81_output (ext : Ext) (quote : Str → Str) (ns ms out : List PNode) (s t s' : St) (hm : unplaceds ns = unplaceds ms)
    (hst : MovedSt (fun _ _ => True) s t) (hk : ByKeys s.order) (h : NamedEvals ext ns s (.ok out) s') :
    ∃ out' t', Evals ext ms t (.ok out') t' ∧
      (∀ x, cssGenerate quote out = .ok x ↔ cssGenerate quote out' = .ok x) ∧
      (∀ x, xmlGenerate out = .ok x ↔ xmlGenerate out' = .ok x) ∧
      textNodes out = textNodes out' ∧ sexpNodes quote out = sexpNodes quote out' ∧
      ((∀ h rest p e w, InLists (.list (.symbol h :: rest) p e w) out → h.value.map lowerChar ≠ str! "pre") → ∀ x, htmlGenerate quote out = .ok x ↔ htmlGenerate quote out' = .ok x) := by
  obtain ⟨r', t', h1, h2, _⟩ := C81_positions ext (fun _ _ => True) (fun _ => trivial) ns ms s t s' _ (unplaceds_moved hm) hst hk h
  cases h2 with
  | ok _ out' h2 =>
    have hu := moveds_unplaced h2
    exact ⟨out', t', h1, fun x => (C80_css quote _ _ hu x).1, fun x => (C80_xml _ _ hu x).1, (C80_text quote _ _ hu).1,
      (C80_text quote _ _ hu).2, fun hp x => (C80_html_partial quote _ _ hu hp x).1⟩

/-- `(%lambda x x)` at a given place. -/
def exLambdaAt (off : Nat) : PNode :=
  .list [exSym (str! "%lambda"), exSym ['x'], exSym ['x']] { (default : Site) with off := off } default []

/-- C81 is false with `%lambda`: the name of the macro it makes depends on where it
stands, whatever the hash of the position is. -/
theorem C81_lambda_false (ext : Ext) (s : St) : ∃ a b out out' t t', Moved (fun _ _ => True) a b ∧
    Evals ext [a] s (.ok out) t ∧ Evals ext [b] s (.ok out') t' ∧ textNodes out ≠ textNodes out' := by
  refine ⟨exLambdaAt 0, exLambdaAt 1, _, _, _, _, unplaced_moved rfl,
    lambda_ok (.mk _ _ _ _ _ rfl rfl) rfl (.one _) (by decide) (by decide) s,
    lambda_ok (.mk _ _ _ _ _ rfl rfl) rfl (.one _) (by decide) (by decide) s, fun h => ?_⟩
  simp only [textNodes, textNode, List.append_nil] at h
  have h := List.append_cancel_left h
  exact absurd (uuid_inj (List.append_cancel_left h)).2 (by decide)

/-- A definition and its use, the use on another line. -/
example : unplaceds [exDefX, exSym (str! "%x") [' ']] =
      unplaceds [exDefX, .symbol ⟨str! "%x", { (default : Site) with line := 7 }, [' ']⟩] ∧
    MovedSt (fun _ _ => True) exSt exSt ∧ ByKeys exSt.order ∧
    ∃ out t, NamedEvals exExt [exDefX, exSym (str! "%x") [' ']] exSt (.ok out) t ∧
      PNode.sames out [exList [exSym ['p'], exSym ['a'] [' ']] [' ']] = true := by
  refine ⟨rfl, movedSt_init _, byKeys_id, ?_⟩
  exact named_ok_of 9 (fun out _ => PNode.sames out [exList [exSym ['p'], exSym ['a'] [' ']] [' ']]) (by decide +kernel)

/-- Positions with the same names for `%lambda`: those on the same line with the same offset. -/
example : (∀ p, (fun p q : Site => p.line = q.line ∧ p.off = q.off) p p) ∧
    (∀ p q, (fun p q : Site => p.line = q.line ∧ p.off = q.off) p q → exExt.uuid p = exExt.uuid q) ∧
    ∃ t, Evals exExt [exLambdaAt 2] exSt (.ok [.symbol ⟨str! "__lambda0-2", { (default : Site) with off := 2 }, []⟩]) t := by
  refine ⟨fun _ => ⟨rfl, rfl⟩, fun p q ⟨h1, h2⟩ => ?_, evals_ok_at 9 (by decide +kernel)⟩
  show natStr p.line ++ _ = natStr q.line ++ _
  rw [h1, h2]

/-! ## C82 -/

/-- C82: two texts with the same tokens, apart from comments between them, are read
alike: to the same tree with the positions of the corresponding tokens, or to the same
error at the corresponding token. -/
theorem C82_reads (u : Unescape) (b b' : Buf) (h : SameSource b.code b'.code) :
    MovedTree (Corresponds b b') (parse u b) (parse u b') := by
  obtain ⟨toks, toks', e, e', t1, t2, hp, he⟩ := tokensOf_corresponds h
  exact parse_moved u t1 t2 hp he

/-- C82: the comments of any text can be left out, with a newline kept where a comment
stood. -/
theorem C82_removable (code : Str) : ∃ code', SameSource code code' ∧ Bare code' := by
  obtain ⟨toks, e, h⟩ := tokens_total { path := [], id := 0, code := code } [] 1 code
  obtain ⟨rest, h1, h2, _⟩ := tokens_bare h
  exact ⟨rest, h1, h2⟩

/-- C82: and they are expanded alike: to the same tree, or the same error at the
corresponding token, with the same definitions and the same log. -/
theorem C82_expands (ext : Ext) (order : Order) (hk : ByKeys order) (path code code' : Str) (h : SameSource code code')
    (ns : List PNode) (hp : parse ext.unescape { path := path, id := 1, code := code } = .ok ns) (r : Res (List PNode)) (s' : St)
    (he : NamedEvals ext ns (St.init order) r s') :
    ∃ ms r' t', parse ext.unescape { path := path, id := 1, code := code' } = .ok ms ∧ Evals ext ms (St.init order) r' t' ∧
      MovedRes (fun p q => p = q ∨ Corresponds { path := path, id := 1, code := code } { path := path, id := 1, code := code' } p q) r r' ∧
      MovedSt (fun p q => p = q ∨ Corresponds { path := path, id := 1, code := code } { path := path, id := 1, code := code' } p q) s' t' := by
  have hr := C82_reads ext.unescape { path := path, id := 1, code := code } { path := path, id := 1, code := code' } h
  rw [hp] at hr
  generalize parse ext.unescape { path := path, id := 1, code := code' } = x at hr ⊢
  cases hr with
  | done _ _ hr =>
    cases hr with
    | ok _ ms hm =>
      obtain ⟨r', t', h1, h2, h3⟩ := C81_positions ext
        (fun p q => p = q ∨ Corresponds { path := path, id := 1, code := code } { path := path, id := 1, code := code' } p q)
        (fun _ => .inl rfl) ns ms (St.init order) (St.init order) s' r (hm.mono fun _ _ => .inr) (movedSt_init order) hk he
      exact ⟨ms, r', t', rfl, h1, h2, h3⟩

/-- C82: so comments do not change the output of a program in any format (in HTML, if
there is no `pre` element). -/
theorem C82_output (ext : Ext) (order : Order) (hk : ByKeys order) (quote : Str → Str) (path code code' : Str)
    (h : SameSource code code') (ns out : List PNode)
    (hp : parse ext.unescape { path := path, id := 1, code := code } = .ok ns) (s' : St)
    (he : NamedEvals ext ns (St.init order) (.ok out) s') :
    ∃ ms out' t', parse ext.unescape { path := path, id := 1, code := code' } = .ok ms ∧
      Evals ext ms (St.init order) (.ok out') t' ∧
      (∀ x, cssGenerate quote out = .ok x ↔ cssGenerate quote out' = .ok x) ∧
      (∀ x, xmlGenerate out = .ok x ↔ xmlGenerate out' = .ok x) ∧
      textNodes out = textNodes out' ∧ sexpNodes quote out = sexpNodes quote out' ∧
      ((∀ h rest p e w, InLists (.list (.symbol h :: rest) p e w) out → h.value.map lowerChar ≠ str! "pre") → ∀ x, htmlGenerate quote out = .ok x ↔ htmlGenerate quote out' = .ok x) := by
  obtain ⟨ms, r', t', h1, h2, h3, _⟩ := C82_expands ext order hk path code code' h ns hp _ s' he
  cases h3 with
  | ok _ out' h3 =>
    have hu := moveds_unplaced h3
    exact ⟨ms, out', t', h1, h2, fun x => (C80_css quote _ _ hu x).1, fun x => (C80_xml _ _ hu x).1, (C80_text quote _ _ hu).1,
      (C80_text quote _ _ hu).2, fun hp x => (C80_html_partial quote _ _ hu hp x).1⟩

/-- Two texts with the same tokens, one with comments. -/
def exCommented : Str := str! "(%define x ; one\n 1); two\n%x ; three"
def exUncommented : Str := str! "(%define x\n 1)\n%x"

theorem exCommented_same : SameSource exCommented exUncommented := by
  have w0 : Trivia [] [] := trivia_all rfl
  have w1 : Trivia [' '] [' '] := trivia_all rfl
  refine .token [] [] [] .lparen ['('] ['('] ['('] _ _ w0 w0 (.lparen _) (.lparen _) ?_
  refine .token [] [] [] .symbol (str! "%define") (str! "%define") (str! "%define") _ _ w0 w0
    (.symbol _ _ (ident_all rfl) rfl rfl) (.symbol _ _ (ident_all rfl) rfl rfl) ?_
  refine .token [' '] [' '] [' '] .symbol ['x'] ['x'] ['x'] _ _ w1 w1
    (.symbol _ _ (ident_all rfl) rfl rfl) (.symbol _ _ (ident_all rfl) rfl rfl) ?_
  refine .token (str! " ; one\n ") (str! "\n ") (str! "\n ") .number ['1'] ['1'] ['1'] _ _
    (.comment [' '] (str! " one") [' '] _ (List.all_eq_true.1 rfl) (by decide) (trivia_all rfl)) (trivia_all rfl)
    (.number _ _ (ident_all rfl) rfl rfl) (.number _ _ (ident_all rfl) rfl rfl) ?_
  refine .token [] [] [] .rparen [')'] [')'] [')'] _ _ w0 w0 (.rparen _) (.rparen _) ?_
  refine .token (str! "; two\n") (str! "\n") (str! "\n") .symbol (str! "%x") (str! "%x") (str! "%x") _ _
    (.comment [] (str! " two") [] _ (List.all_eq_true.1 rfl) (by decide) (trivia_all rfl)) (trivia_all rfl)
    (.symbol _ _ (ident_all rfl) rfl rfl) (.symbol _ _ (ident_all rfl) rfl trivial) ?_
  exact .eof _ _ ⟨[' '], [' '], w1, .inr ⟨str! " three", by decide, rfl⟩⟩ ⟨[], [], w0, .inl rfl⟩

/-- The texts are read and expanded, and give a line break and a one. -/
example : SameSource exCommented exUncommented ∧ ∃ ns, parse exExt.unescape { path := ['f'], id := 1, code := exCommented } = .ok ns ∧
    ∃ out t, NamedEvals exExt ns (St.init fun _ l => l) (.ok out) t ∧ decide (textNodes out = str! "\n1") = true := by
  refine ⟨exCommented_same, ?_⟩
  have h : (parse exExt.unescape { path := ['f'], id := 1, code := exCommented }).okP (fun ns =>
      (expandNodes (namedRun exExt 9) ns (St.init fun _ l => l)).1.okP fun out => decide (textNodes out = str! "\n1")) = true := by
    decide +kernel
  obtain ⟨ns, h1, h2⟩ := Res.okP_elim h
  exact ⟨ns, h1, named_ok_of 9 (fun out _ => decide (textNodes out = str! "\n1")) h2⟩

end Seam
