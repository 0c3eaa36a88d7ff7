import Verif.Lemmas.Layout
import Verif.Lemmas.LaidDoc
import Verif.Props.Moved
import Verif.Props.Lists

/-! # The layout of a program (C86)

A program may be indented and broken into lines as its author likes: texts with the same
tokens are read, expanded and written alike, up to blanks.  Three macros look at the
layout: `%lambda` makes a name out of its position, `%string` and `%raw` keep the blanks
between their arguments. -/

namespace Seam
open Spec

/-- C86: two texts with the same tokens are read alike: as trees that differ only in
blanks and positions, or with the same error at the corresponding token. -/
theorem C86_reads (u : Unescape) (b b' : Buf) (h : SameTokens b.code b'.code) :
    LaidTree (Corresponds b b') BothBlank (parse u b) (parse u b') := by
  obtain ⟨toks, toks', e, e', t1, t2, hp, he⟩ := sameTokens_corresponds h
  exact parse_laid u t1 t2 hp he

/-- C86: every text can be laid out with a single space before every token. -/
theorem C86_spaced (code : Str) : ∃ code', SameTokens code code' ∧ SpacedText code' := by
  obtain ⟨toks, e, h⟩ := tokens_total { path := [], id := 0, code := code } [] 1 code
  obtain ⟨rest, h1, h2, _⟩ := tokens_spaced h
  exact ⟨rest, h1, h2⟩

/-- C86: trees that differ only in blanks and positions are expanded alike, if none of
`%lambda`, `%string` and `%raw` is called. -/
theorem C86_trees (ext : Ext) (S : Site → Site → Prop) (hS : ∀ p, S p p) (ns ms : List PNode) (s t s' : St)
    (r : Res (List PNode)) (hm : Laids S BothBlank ns ms) (hst : LaidSt S BothBlank s t) (hk : ByKeys s.order)
    (h : BlindEvals ext ns s r s') :
    ∃ r' t', Evals ext ms t r' t' ∧ LaidRes S BothBlank r r' ∧ LaidSt S BothBlank s' t' := by
  obtain ⟨hd, fuel, h⟩ := h
  exact laid_of_sim (blindRun_sim hS fuel) hm hst hk hd h

/-- C86: the runs of `C86_trees` are runs of the expander. -/
theorem C86_blind (ext : Ext) (ns : List PNode) (s s' : St) (r : Res (List PNode)) (h : BlindEvals ext ns s r s') :
    Evals ext ns s r s' := blind_evals h

/-- C86: and so are programs with the same tokens: to the same tree up to blanks, or with
the same error at the corresponding token, with the same definitions and the same log. -/
theorem C86_expands (ext : Ext) (order : Order) (hk : ByKeys order) (path code code' : Str) (h : SameTokens code code')
    (ns : List PNode) (hp : parse ext.unescape { path := path, id := 1, code := code } = .ok ns) (r : Res (List PNode)) (s' : St)
    (he : BlindEvals ext ns (St.init order) r s') :
    ∃ ms r' t', parse ext.unescape { path := path, id := 1, code := code' } = .ok ms ∧ Evals ext ms (St.init order) r' t' ∧
      LaidRes (fun p q => p = q ∨ Corresponds { path := path, id := 1, code := code } { path := path, id := 1, code := code' } p q)
        BothBlank r r' ∧
      LaidSt (fun p q => p = q ∨ Corresponds { path := path, id := 1, code := code } { path := path, id := 1, code := code' } p q)
        BothBlank s' t' := by
  have hr := C86_reads ext.unescape { path := path, id := 1, code := code } { path := path, id := 1, code := code' } h
  rw [hp] at hr
  generalize parse ext.unescape { path := path, id := 1, code := code' } = x at hr ⊢
  cases hr with
  | done _ _ hr =>
    cases hr with
    | ok _ ms hm =>
      obtain ⟨r', t', h1, h2, h3⟩ := C86_trees ext
        (fun p q => p = q ∨ Corresponds { path := path, id := 1, code := code } { path := path, id := 1, code := code' } p q)
        (fun _ => .inl rfl) ns ms _ _ s' r (hm.mono fun _ _ => .inr) (laidSt_init order) hk he
      exact ⟨ms, r', t', rfl, h1, h2, h3⟩

/-- C86: trees that differ only in blanks and positions give the same output without
blanks, in every format (in HTML, if there is no `pre` element). -/
theorem C86_written (S : Site → Site → Prop) (quote : Str → Str) (out out' : List PNode) (h : Laids S BothBlank out out') :
    SameOutput (cssGenerate quote out) (cssGenerate quote out') ∧ SameOutput (xmlGenerate out) (xmlGenerate out') ∧
      squeezed (textNodes out) = squeezed (textNodes out') ∧ squeezed (sexpNodes quote out) = squeezed (sexpNodes quote out') ∧
      ((∀ h rest p e w, InLists (.list (.symbol h :: rest) p e w) out → h.value.map lowerChar ≠ str! "pre") →
        SameOutput (htmlGenerate quote out) (htmlGenerate quote out')) := by
  have h := laids_any h
  have h' := laids_symm h
  exact ⟨sameOutput_of (cssGenerate_laid quote h) (cssGenerate_laid quote h'), sameOutput_of (xmlKids_laid .rest h) (xmlKids_laid .rest h'),
    textNodes_sq h, sexpNodes_sq quote h, fun hp => sameOutput_of (htmlKids_laid quote .rest h hp)
      (htmlKids_laid quote .rest h' fun a rest p e w hi => laids_noPre hi h hp a rest p e w rfl)⟩

/-- C86: the same for whatever the program prints for a target, as fragment or as document. -/
theorem C86_documents (S : Site → Site → Prop) (quote : Str → Str) (target : Str) (doc : Bool) (out out' : List PNode) (h : Laids S BothBlank out out')
    (hp : target = str! "html" →
      ∀ h rest p e w, InLists (.list (.symbol h :: rest) p e w) out → h.value.map lowerChar ≠ str! "pre") :
    (generate quote target doc out = none ∧ generate quote target doc out' = none) ∨
      ∃ x y, generate quote target doc out = some x ∧ generate quote target doc out' = some y ∧ SameOutput x y := by
  have h := laids_any h
  have g1 := generate_laid (keep := fun c => !blank c) quote target doc h hp
  have g2 := generate_laid (keep := fun c => !blank c) quote target doc (laids_symm h) fun ht a rest p e w hi =>
    laids_noPre hi h (hp ht) a rest p e w rfl
  revert g1 g2
  generalize generate quote target doc out = x
  generalize generate quote target doc out' = y
  intro g1 g2
  cases g1 with
  | none => exact .inl ⟨rfl, rfl⟩
  | some g1 =>
    cases g2 with
    | some g2 => exact .inr ⟨_, _, rfl, rfl, sameOutput_of g1 g2⟩

/-- C86: so the output of a program is the same, up to blanks, however it is laid out. -/
theorem C86_output (ext : Ext) (order : Order) (hk : ByKeys order) (quote : Str → Str) (path code code' : Str)
    (h : SameTokens code code') (ns out : List PNode)
    (hp : parse ext.unescape { path := path, id := 1, code := code } = .ok ns) (s' : St)
    (he : BlindEvals ext ns (St.init order) (.ok out) s') :
    ∃ ms out' t', parse ext.unescape { path := path, id := 1, code := code' } = .ok ms ∧
      Evals ext ms (St.init order) (.ok out') t' ∧
      SameOutput (cssGenerate quote out) (cssGenerate quote out') ∧ SameOutput (xmlGenerate out) (xmlGenerate out') ∧
      squeezed (textNodes out) = squeezed (textNodes out') ∧ squeezed (sexpNodes quote out) = squeezed (sexpNodes quote out') ∧
      ((∀ h rest p e w, InLists (.list (.symbol h :: rest) p e w) out → h.value.map lowerChar ≠ str! "pre") →
        SameOutput (htmlGenerate quote out) (htmlGenerate quote out')) := by
  obtain ⟨ms, r', t', h1, h2, h3, _⟩ := C86_expands ext order hk path code code' h ns hp _ s' he
  cases h3 with
  | ok _ out' h3 => exact ⟨ms, out', t', h1, h2, C86_written _ quote out out' h3⟩

/-- `(%string "a" "b")` with `w` before the second argument. -/
def exSpacedCall (w : Str) : PNode := exList [exSym (str! "%string"), exStr ['a'] [' '], exStr ['b'] w]

/-- C86: `%string` does look at the layout: with other blanks between its arguments it
gives another text. -/
theorem C86_string_false (ext : Ext) (s : St) : ∃ a b x y, Laid (fun _ _ => True) BothBlank a b ∧
    Evals ext [a] s (.ok [.string x]) s ∧ Evals ext [b] s (.ok [.string y]) s ∧ x.value ≠ y.value := by
  have hs : ∀ w, Evals ext [exSpacedCall w] s (.ok [.string ⟨['a'] ++ w ++ ['b'], default, []⟩]) s := by
    intro w
    have h := (C46_string ext (exSpacedCall w) [exStr ['a'], exStr ['b'] w] [exStr ['a'], exStr ['b'] w]
      [⟨['a'], default, []⟩, ⟨['b'], default, w⟩] s s ((evals_string ext _ s).cons (evals_string ext _ s))
      (.cons (.string _) (.cons (.string _) .nil))).1 (.mk _ _ _ _ _ rfl rfl)
    simpa [exSpacedCall, exList, PNode.site, PNode.lw] using h
  refine ⟨_, _, _, _, ?_, hs [], hs [' '], by simp⟩
  have hb : ∀ w v : Str, w.all blank = true → v.all blank = true → BothBlank w v := fun w v h h' =>
    ⟨List.all_eq_true.1 h, List.all_eq_true.1 h'⟩
  exact .list _ _ _ _ _ _ _ _ (.cons _ _ _ _ (.symbol _ _ ⟨rfl, hb _ _ rfl rfl, trivial⟩) (.cons _ _ _ _ (.string _ _ ⟨rfl, hb _ _ rfl rfl, trivial⟩)
    (.cons _ _ _ _ (.string _ _ ⟨rfl, hb _ _ rfl rfl, trivial⟩) .nil))) trivial (hb _ _ rfl rfl) trivial (hb _ _ rfl rfl)

/-- A definition and its use in one line and on several, with a comment. -/
def exManyLines : Str := str! "(%define x ; one\n  (p a))\n\n%x"
def exOneLine : Str := str! "(%define x(p a))%x"

theorem exManyLines_same : SameTokens exManyLines exOneLine := by
  have w0 : Trivia [] [] := trivia_all rfl
  have w1 : Trivia [' '] [' '] := trivia_all rfl
  refine .token [] [] [] [] .lparen ['('] ['('] ['('] _ _ w0 w0 (.lparen _) (.lparen _) ?_
  refine .token [] [] [] [] .symbol (str! "%define") (str! "%define") (str! "%define") _ _ w0 w0
    (.symbol _ _ (ident_all rfl) rfl rfl) (.symbol _ _ (ident_all rfl) rfl rfl) ?_
  refine .token [' '] [' '] [' '] [' '] .symbol ['x'] ['x'] ['x'] _ _ w1 w1
    (.symbol _ _ (ident_all rfl) rfl rfl) (.symbol _ _ (ident_all rfl) rfl rfl) ?_
  refine .token (str! " ; one\n  ") [] (str! "\n  ") [] .lparen ['('] ['('] ['('] _ _
    (.comment [' '] (str! " one") (str! "  ") _ (List.all_eq_true.1 rfl) (by decide) (trivia_all rfl)) w0 (.lparen _) (.lparen _) ?_
  refine .token [] [] [] [] .symbol ['p'] ['p'] ['p'] _ _ w0 w0
    (.symbol _ _ (ident_all rfl) rfl rfl) (.symbol _ _ (ident_all rfl) rfl rfl) ?_
  refine .token [' '] [' '] [' '] [' '] .symbol ['a'] ['a'] ['a'] _ _ w1 w1
    (.symbol _ _ (ident_all rfl) rfl rfl) (.symbol _ _ (ident_all rfl) rfl rfl) ?_
  refine .token [] [] [] [] .rparen [')'] [')'] [')'] _ _ w0 w0 (.rparen _) (.rparen _) ?_
  refine .token [] [] [] [] .rparen [')'] [')'] [')'] _ _ w0 w0 (.rparen _) (.rparen _) ?_
  refine .token (str! "\n\n") [] (str! "\n\n") [] .symbol (str! "%x") (str! "%x") (str! "%x") _ _ (trivia_all rfl) w0
    (.symbol _ _ (ident_all rfl) rfl trivial) (.symbol _ _ (ident_all rfl) rfl trivial) ?_
  exact .eof _ _ ⟨[], [], w0, .inl rfl⟩ ⟨[], [], w0, .inl rfl⟩

/-- The texts are read and expanded, to a paragraph. -/
example : SameTokens exManyLines exOneLine ∧ ∃ ns, parse exExt.unescape { path := ['f'], id := 1, code := exManyLines } = .ok ns ∧
    ∃ out t, BlindEvals exExt ns (St.init fun _ l => l) (.ok out) t ∧
      decide (xmlGenerate out = .ok (str! "\n\n<p>a</p>")) = true := by
  refine ⟨exManyLines_same, ?_⟩
  have h : (parse exExt.unescape { path := ['f'], id := 1, code := exManyLines }).okP (fun ns =>
      (expandNodes (blindRun exExt 9) ns (St.init fun _ l => l)).1.okP fun out =>
        decide (xmlGenerate out = .ok (str! "\n\n<p>a</p>"))) = true := by
    decide +kernel
  obtain ⟨ns, h1, h2⟩ := Res.okP_elim h
  exact ⟨ns, h1, blind_ok_of 9 (fun out _ => decide (xmlGenerate out = .ok (str! "\n\n<p>a</p>"))) h2⟩

end Seam
