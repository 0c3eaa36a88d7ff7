import Verif.Lemmas.Crlf
import Verif.Lemmas.LaidDoc
import Verif.Props.Layout
import Verif.Props.Report

/-! # Windows line ends (C105)

A source file in which every newline is preceded by a carriage return is read, expanded and
written like the file without them: the output differs at most in carriage returns, errors
have the same message and name the same line and column.  Only a newline inside a token
(a string over several lines) makes a difference. -/

namespace Seam
open Spec

/-- C105: a file with Windows line ends is read like the file without: as the same tree, up to
carriage returns between the nodes, with every node at the same line and column; or with the same
error at the same line and column. -/
theorem C105_reads (u : Unescape) (b : Buf) (h : LinewiseTokens b) :
    LaidTree (SameSpot b.path b.code) SameCr (parse u b) (parse u { b with code := crlf b.code }) := by
  obtain ⟨toks, e, ht, he, hv⟩ := h
  obtain ⟨toks', e', h1, h2, h3⟩ := tokens_crlf ht rfl he hv
  exact parse_laid u ht h1 h2 h3

/-- C105: and it is expanded alike, if none of `%lambda`, `%string` and `%raw` (which look at
positions and blanks) is called: the trees differ at most in carriage returns between the nodes. -/
theorem C105_expands (ext : Ext) (order : Order) (hk : ByKeys order) (path code : Str)
    (h : LinewiseTokens { path := path, id := 1, code := code })
    (ns : List PNode) (hp : parse ext.unescape { path := path, id := 1, code := code } = .ok ns) (r : Res (List PNode)) (s' : St)
    (he : BlindEvals ext ns (St.init order) r s') :
    ∃ ms r' t', parse ext.unescape { path := path, id := 1, code := crlf code } = .ok ms ∧ Evals ext ms (St.init order) r' t' ∧
      LaidRes (fun p q => p = q ∨ SameSpot path code p q) SameCr r r' ∧
      LaidSt (fun p q => p = q ∨ SameSpot path code p q) SameCr s' t' := by
  have hr := C105_reads ext.unescape { path := path, id := 1, code := code } h
  rw [hp] at hr
  simp only at hr
  generalize parse ext.unescape { path := path, id := 1, code := crlf code } = x at hr ⊢
  cases hr with
  | done _ _ hr =>
    cases hr with
    | ok _ ms hm =>
      obtain ⟨hd, fuel, he⟩ := he
      obtain ⟨r', t', h1, h2, h3⟩ := laid_of_sim (blindRun_sim (S := fun p q => p = q ∨ SameSpot path code p q) (W := SameCr)
        (fun _ => .inl rfl) fuel) (hm.mono fun _ _ => .inr) (laidSt_init order) hk hd he
      exact ⟨ms, r', t', rfl, h1, h2, h3⟩

/-- C105: trees that differ at most in carriage returns between the nodes are written alike in every format,
as fragment and as document (in HTML, if there is no `pre` element). -/
theorem C105_written (S : Site → Site → Prop) (quote : Str → Str) (target : Str) (doc : Bool) (out out' : List PNode) (h : Laids S SameCr out out')
    (hp : target = str! "html" →
      ∀ h rest p e w, InLists (.list (.symbol h :: rest) p e w) out → h.value.map lowerChar ≠ str! "pre") :
    (generate quote target doc out = none ∧ generate quote target doc out' = none) ∨
      ∃ x y, generate quote target doc out = some x ∧ generate quote target doc out' = some y ∧ SameLines S x y := by
  have g1 := generate_laid (keep := (· != '\r')) quote target doc h hp
  have h' : Laids anyS SameCr out' out := laids_flip (fun _ _ _ => trivial) (fun _ _ h => ⟨h.1.symm, h.2.symm⟩) h
  have g2 := generate_laid (keep := (· != '\r')) quote target doc h' fun ht a rest p e w hi => laids_noPre hi h (hp ht) a rest p e w rfl
  revert g1 g2
  generalize generate quote target doc out = x
  generalize generate quote target doc out' = y
  intro g1 g2
  cases g1 with
  | none => exact .inl ⟨rfl, rfl⟩
  | some g1 =>
    cases g2 with
    | some g2 => exact .inr ⟨_, _, rfl, rfl, sameLines_of g1 g2⟩

/-- C105: so the output of a program with Windows line ends is that of the program without, up to carriage
returns; or it is refused with the same message for the same line and column. -/
theorem C105_output (ext : Ext) (order : Order) (hk : ByKeys order) (quote : Str → Str) (path code : Str)
    (h : LinewiseTokens { path := path, id := 1, code := code }) (ns out : List PNode)
    (hp : parse ext.unescape { path := path, id := 1, code := code } = .ok ns) (s' : St)
    (he : BlindEvals ext ns (St.init order) (.ok out) s') (target : Str) (doc : Bool)
    (hpre : target = str! "html" →
      ∀ h rest p e w, InLists (.list (.symbol h :: rest) p e w) out → h.value.map lowerChar ≠ str! "pre")
    (x : Res Str) (hg : generate quote target doc out = some x) :
    ∃ ms out' t' y, parse ext.unescape { path := path, id := 1, code := crlf code } = .ok ms ∧
      Evals ext ms (St.init order) (.ok out') t' ∧ generate quote target doc out' = some y ∧
      SameLines (fun p q => p = q ∨ SameSpot path code p q) x y := by
  obtain ⟨ms, r', t', h1, h2, h3, _⟩ := C105_expands ext order hk path code h ns hp _ s' he
  cases h3 with
  | ok _ out' h3 =>
    rcases C105_written _ quote target doc out out' h3 hpre with ⟨g, _⟩ | ⟨x', y, g1, g2, g3⟩
    · rw [hg] at g; cases g
    · rw [hg] at g1
      cases g1
      exact ⟨ms, out', t', y, h1, h2, g2, g3⟩

/-- C105: an error at such a place is printed alike, up to carriage returns at the end of the line shown, and what `%log`
prints from there is the same. -/
theorem C105_reports (path code : Str) (p q : Site) (h : SameSpot path code p q) (width : Str → Nat) (hw : AsciiColumns width) (what msg : Str) :
    (∃ x y, report width what msg p = some x ∧ report width what msg q = some y ∧ noCr x = noCr y) ∧
      ∀ words, logLine width words p = logLine width words q := by
  obtain ⟨hl, _, above, left, text, rest, m1, m2⟩ := h
  refine ⟨⟨_, _, report_text m1 hw what msg, report_text m2 hw what msg, ?_⟩, fun words => ?_⟩
  · have := upToNewline_crlf text rest
    unfold errorText
    unfold noCr at this ⊢
    simp only [List.filter_append, this, hl]
  · rw [logLine_text m1 width words, logLine_text m2 width words, hl]

/-- Three lines with a comment, an attribute and an element over several lines. -/
def exLines : Str := str! "(%define x a) ; one\n(p :id b\n  %x)\n"

theorem exLines_linewise : LinewiseTokens { path := ['f'], id := 1, code := exLines } := by
  have w0 : Trivia [] [] := trivia_all rfl
  have w1 : Trivia [' '] [' '] := trivia_all rfl
  refine linewise_token (before := []) (line := 1) [] [] .lparen ['('] ['('] _ w0 (.lparen _) rfl ?_
  refine linewise_token [] [] .symbol (str! "%define") (str! "%define") (str! " x a) ; one\n(p :id b\n  %x)\n") w0 (.symbol _ _ (ident_all rfl) rfl rfl) rfl ?_
  refine linewise_token [' '] [' '] .symbol ['x'] ['x'] (str! " a) ; one\n(p :id b\n  %x)\n") w1 (.symbol _ _ (ident_all rfl) rfl rfl) rfl ?_
  refine linewise_token [' '] [' '] .symbol ['a'] ['a'] (str! ") ; one\n(p :id b\n  %x)\n") w1 (.symbol _ _ (ident_all rfl) rfl rfl) rfl ?_
  refine linewise_token [] [] .rparen [')'] [')'] (str! " ; one\n(p :id b\n  %x)\n") w0 (.rparen _) rfl ?_
  refine linewise_token (str! " ; one\n") ['\n'] .lparen ['('] ['('] (str! "p :id b\n  %x)\n")
    (.comment [' '] (str! " one") [] _ (List.all_eq_true.1 rfl) (by decide) (trivia_all rfl)) (.lparen _) rfl ?_
  refine linewise_token [] [] .symbol ['p'] ['p'] (str! " :id b\n  %x)\n") w0 (.symbol _ _ (ident_all rfl) rfl rfl) rfl ?_
  refine linewise_token [' '] [' '] .keyword (str! ":id") (str! "id") (str! " b\n  %x)\n") w1 (.keyword _ _ (ident_all rfl) rfl) rfl ?_
  refine linewise_token [' '] [' '] .symbol ['b'] ['b'] (str! "\n  %x)\n") w1 (.symbol _ _ (ident_all rfl) rfl rfl) rfl ?_
  refine linewise_token (str! "\n  ") (str! "\n  ") .symbol (str! "%x") (str! "%x") (str! ")\n") (trivia_all rfl) (.symbol _ _ (ident_all rfl) rfl rfl) rfl ?_
  refine linewise_token [] [] .rparen [')'] [')'] ['\n'] w0 (.rparen _) rfl ?_
  exact ⟨[], .eof, .eof _ _ _ ⟨['\n'], ['\n'], trivia_all rfl, .inl rfl⟩, by simp, by simp⟩

/-- The file is read and expanded, and with Windows line ends the output has carriage returns. -/
example : LinewiseTokens { path := ['f'], id := 1, code := exLines } ∧ ∃ ns,
    parse exExt.unescape { path := ['f'], id := 1, code := exLines } = .ok ns ∧
    ∃ out t, BlindEvals exExt ns (St.init fun _ l => l) (.ok out) t ∧
      decide (generate id (str! "xml") false out = some (.ok (str! "\n<p id=\"b\">\n  a\n</p>"))) = true := by
  refine ⟨exLines_linewise, ?_⟩
  have h : (parse exExt.unescape { path := ['f'], id := 1, code := exLines }).okP (fun ns =>
      (expandNodes (blindRun exExt 9) ns (St.init fun _ l => l)).1.okP fun out =>
        decide (generate id (str! "xml") false out = some (.ok (str! "\n<p id=\"b\">\n  a\n</p>")))) = true := by
    decide +kernel
  obtain ⟨ns, h1, h2⟩ := Res.okP_elim h
  exact ⟨ns, h1, blind_ok_of 9 (fun out _ => decide (generate id (str! "xml") false out = some (.ok (str! "\n<p id=\"b\">\n  a\n</p>")))) h2⟩

example : (parse exExt.unescape { path := ['f'], id := 1, code := crlf exLines }).okP (fun ns =>
      (expandNodes (blindRun exExt 9) ns (St.init fun _ l => l)).1.okP fun out =>
        decide (generate id (str! "xml") false out = some (.ok (str! "\n<p id=\"b\">\r\n  a\n</p>")))) = true := by
  decide +kernel

/-- C105: a newline inside a string is another matter: there the carriage return is part of the text. -/
theorem C105_strings_false : ¬ ∀ (u : Unescape) (b : Buf),
    LaidTree (fun _ _ => True) SameCr (parse u b) (parse u { b with code := crlf b.code }) := by
  intro h
  have := h some { path := [], id := 1, code := str! "\"a\nb\"" }
  obtain ⟨ns, h1, h2⟩ := Res.okP_elim (r := parse some { path := [], id := 1, code := str! "\"a\nb\"" })
    (p := fun ns => match ns with | [.string n] => n.value == str! "a\nb" | _ => false) (by decide +kernel)
  obtain ⟨ms, h3, h4⟩ := Res.okP_elim (r := parse some { path := [], id := 1, code := crlf (str! "\"a\nb\"") })
    (p := fun ns => match ns with | [.string n] => n.value == str! "a\r\nb" | _ => false) (by decide +kernel)
  simp only [h1, h3] at this
  cases this with
  | done _ _ this =>
    cases this with
    | ok _ _ this =>
      cases this with
      | nil => simp at h2
      | cons _ _ _ _ hn hs =>
        cases hn with
        | string a b hn =>
          cases hs with
          | nil =>
            simp only [beq_iff_eq] at h2 h4
            rw [hn.1, h4] at h2
            exact absurd h2 (by decide)
          | cons => simp at h2
        | _ => simp at h2

end Seam
