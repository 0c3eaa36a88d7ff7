import Verif.Lemmas.Solo
import Verif.Props.Joined
import Verif.Props.Moved
import Verif.Props.Layout
import Verif.Props.More

/-!
# Programs one after the other (C90)

Joining the texts of two programs gives the program that does the one after the other.
-/

namespace Seam
open Spec

/-- C90: the joined text is expanded as the first text, and then the second with the definitions
of the first: to the same trees and the same log, or the same error, at the corresponding places,
if `%lambda` is not called.  (`w` are the blanks before the first node of the second text, see
C89.) -/
theorem C90_in_turn (ext : Ext) (order : Order) (hk : ByKeys order) (a b c : Buf) (hc : c.code = a.code ++ '\n' :: b.code)
    (ns ms : List PNode) (ha : parse ext.unescape a = .ok ns) (hb : parse ext.unescape b = .ok ms) :
    ∃ all w lines, parse ext.unescape c = .ok all ∧ newlines a.code < lines ∧ (∀ m ∈ ms.head?, AfterBreak m.lw w) ∧
      ∀ as s r t, NamedEvals ext ns (St.init order) (.ok as) s → NamedEvals ext (firstSpaced w ms) s r t →
        ∃ r' t', Evals ext all (St.init order) r' t' ∧ MovedRes (JoinedAt c lines (blen a.code + 1)) (addBefore as r) r' ∧
          MovedSt (JoinedAt c lines (blen a.code + 1)) t t' := by
  obtain ⟨ns', w, ms', lines, h1, h2, h3, h4, h5⟩ := C89_reads ext.unescape a b c hc ns ms ha hb
  refine ⟨_, w, lines, h1, h4, h5, fun as s r t hn hm => ?_⟩
  obtain ⟨r1, s', g1, g2, g3⟩ := C81_positions ext (JoinedAt c lines (blen a.code + 1)) (fun _ => .inl rfl) ns ns' _ _ s _
    (laids_moved (h2.mono fun _ _ h => .inr (.inl h))) (movedSt_init order) hk hn
  cases g2 with
  | ok _ as' g2 =>
    have hk' : ByKeys s.order := by
      rw [(evals_keeps advances_rel (named_evals hn)).2.2.2]; exact hk
    obtain ⟨r2, t', f1, f2, f3⟩ := C81_positions ext (JoinedAt c lines (blen a.code + 1)) (fun _ => .inl rfl) _ ms' s s' t r
      (laids_moved (h3.mono fun _ _ h => .inr (.inr h))) g3 hk' hm
    exact ⟨_, t', g1.before f1, addBefore_moved g2 f2, f3⟩

/-- C90: if the first text is in error, so is the joined text, in the same way. -/
theorem C90_first_fails (ext : Ext) (order : Order) (hk : ByKeys order) (a b c : Buf) (hc : c.code = a.code ++ '\n' :: b.code)
    (ns ms : List PNode) (ha : parse ext.unescape a = .ok ns) (hb : parse ext.unescape b = .ok ms) (x : Err) (s : St)
    (h : NamedEvals ext ns (St.init order) (.err x) s) :
    ∃ all x' s' lines, parse ext.unescape c = .ok all ∧ Evals ext all (St.init order) (.err x') s' ∧
      MovedErr (JoinedAt c lines (blen a.code + 1)) x x' := by
  obtain ⟨ns', w, ms', lines, h1, h2, h3, h4, h5⟩ := C89_reads ext.unescape a b c hc ns ms ha hb
  obtain ⟨r1, s', g1, g2, g3⟩ := C81_positions ext (JoinedAt c lines (blen a.code + 1)) (fun _ => .inl rfl) ns ns' _ _ s _
    (laids_moved (h2.mono fun _ _ h => .inr (.inl h))) (movedSt_init order) hk h
  cases g2 with
  | err _ x' g2 => exact ⟨_, x', s', lines, h1, g1.fail_left (by simp), g2⟩

/-- C90: if moreover the macros that look at the layout are not called, then up to blanks it does
not matter how the second text is attached. -/
theorem C90_blanks (ext : Ext) (order : Order) (hk : ByKeys order) (a b c : Buf) (hc : c.code = a.code ++ '\n' :: b.code)
    (ns ms as : List PNode) (ha : parse ext.unescape a = .ok ns) (hb : parse ext.unescape b = .ok ms) (s t : St)
    (r : Res (List PNode)) (hn : BlindEvals ext ns (St.init order) (.ok as) s) (hm : BlindEvals ext ms s r t) :
    ∃ all r' t' lines, parse ext.unescape c = .ok all ∧ Evals ext all (St.init order) r' t' ∧
      LaidRes (JoinedAt c lines (blen a.code + 1)) BothBlank (addBefore as r) r' ∧
      LaidSt (JoinedAt c lines (blen a.code + 1)) BothBlank t t' := by
  obtain ⟨ns', w, ms', lines, h1, h2, h3, h4, h5⟩ := C89_reads ext.unescape a b c hc ns ms ha hb
  have h2 := laids_blank (parse_blank ha) h2
  have h3 := laids_joined (parse_blank hb) h5 h3
  obtain ⟨r1, s', g1, g2, g3⟩ := C86_trees ext (JoinedAt c lines (blen a.code + 1)) (fun _ => .inl rfl) ns ns' _ _ s _
    (h2.mono fun _ _ h => .inr (.inl h)) (laidSt_init order) hk hn
  cases g2 with
  | ok _ as' g2 =>
    have hk' : ByKeys s.order := by
      rw [(evals_keeps advances_rel (blind_evals hn)).2.2.2]; exact hk
    obtain ⟨r2, t', f1, f2, f3⟩ := C86_trees ext (JoinedAt c lines (blen a.code + 1)) (fun _ => .inl rfl) ms ms' s s' t r
      (h3.mono fun _ _ h => .inr (.inr h)) g3 hk' hm
    exact ⟨_, _, t', lines, h1, g1.before f1, addBefore_laid g2 f2, f3⟩

/-- C90: so if both programs work on their own, and the second does not ask what is undefined, the
joined program gives what the first gives, followed by what the second gives, whatever names the
first defines and whatever files it reads.  (The first must not iterate over hash maps, which
would change the numbers of the maps of the second.) -/
theorem C90_own (ext : Ext) (order : Order) (hk : ByKeys order) (a b c : Buf) (hc : c.code = a.code ++ '\n' :: b.code)
    (ns ms as bs : List PNode) (ha : parse ext.unescape a = .ok ns) (hb : parse ext.unescape b = .ok ms) (s t : St)
    (hn : BlindEvals ext ns (St.init order) (.ok as) s) (hh : s.hashes = (St.init order).hashes)
    (hm : SoloEvals ext ms (St.init order) (.ok bs) t) :
    ∃ all out t' lines, parse ext.unescape c = .ok all ∧ Evals ext all (St.init order) (.ok out) t' ∧
      Laids (JoinedAt c lines (blen a.code + 1)) BothBlank (as ++ bs) out ∧
      Pairs (MovedLine (JoinedAt c lines (blen a.code + 1))) (s.log ++ t.log) t'.log := by
  obtain ⟨ns', w, ms', lines, h1, h2, h3, h4, h5⟩ := C89_reads ext.unescape a b c hc ns ms ha hb
  have h2 := laids_blank (parse_blank ha) h2
  have h3 := laids_joined (parse_blank hb) h5 h3
  have hS : ∀ p q, Reread p q → JoinedAt c lines (blen a.code + 1) p q := fun _ _ h => .inl h
  obtain ⟨r1, s', g1, g2, g3⟩ := C86_trees ext (JoinedAt c lines (blen a.code + 1)) (fun _ => .inl rfl) ns ns' _ _ s _
    (h2.mono fun _ _ h => .inr (.inl h)) (laidSt_init order) hk hn
  have ho : s.order = order := (evals_keeps advances_rel (blind_evals hn)).2.2.2
  have hmore : More s.log (St.init order) { s with fresh := (St.init order).fresh } :=
    ⟨fun _ _ h => by simp [St.init, Scope.empty] at h, by simp [St.init], rfl, hh, ho⟩
  obtain ⟨u, k1, k2⟩ := solo_more (by simp) hm hmore
  cases g2 with
  | ok _ as' g2 =>
    have g3' : LaidSt (JoinedAt c lines (blen a.code + 1)) BothBlank { s with fresh := (St.init order).fresh } s' :=
      ⟨g3.defined, g3.scope, .inr hS, g3.log, g3.hashes, g3.order⟩
    obtain ⟨r2, t', f1, f2, f3⟩ := C86_trees ext (JoinedAt c lines (blen a.code + 1)) (fun _ => .inl rfl) ms ms' _ s' u _
      (h3.mono fun _ _ h => .inr (.inr h)) g3' (by rw [show ({ s with fresh := (St.init order).fresh } : St).order = order from ho]; exact hk)
      (solo_blind k1)
    cases f2 with
    | ok _ bs' f2 => exact ⟨_, _, t', lines, h1, g1.append f1, g2.append f2, k2.log ▸ f3.log⟩

/-- C90: and in every format its output is, up to blanks, the output of the first followed by the
output of the second (in HTML, without `pre` elements). -/
theorem C90_output (ext : Ext) (order : Order) (hk : ByKeys order) (quote : Str → Str) (a b c : Buf)
    (hc : c.code = a.code ++ '\n' :: b.code) (ns ms as bs : List PNode) (ha : parse ext.unescape a = .ok ns)
    (hb : parse ext.unescape b = .ok ms) (s t : St) (hn : BlindEvals ext ns (St.init order) (.ok as) s)
    (hh : s.hashes = (St.init order).hashes)
    (hm : SoloEvals ext ms (St.init order) (.ok bs) t) :
    ∃ all out t', parse ext.unescape c = .ok all ∧ Evals ext all (St.init order) (.ok out) t' ∧
      (∀ x y, cssGenerate quote as = .ok x → cssGenerate quote bs = .ok y →
        ∃ z, cssGenerate quote out = .ok z ∧ squeezed z = squeezed x ++ squeezed y) ∧
      (∀ x y, xmlGenerate as = .ok x → xmlGenerate bs = .ok y →
        ∃ z, xmlGenerate out = .ok z ∧ squeezed z = squeezed x ++ squeezed y) ∧
      squeezed (textNodes out) = squeezed (textNodes as) ++ squeezed (textNodes bs) ∧
      squeezed (sexpNodes quote out) = squeezed (sexpNodes quote as) ++ squeezed (sexpNodes quote bs) ∧
      ((∀ h rest p e w, InLists (.list (.symbol h :: rest) p e w) (as ++ bs) → h.value.map lowerChar ≠ str! "pre") →
        ∀ x y, htmlGenerate quote as = .ok x → htmlGenerate quote bs = .ok y →
          ∃ z, htmlGenerate quote out = .ok z ∧ squeezed z = squeezed x ++ squeezed y) := by
  obtain ⟨all, out, t', lines, h1, h2, h3, _⟩ := C90_own ext order hk a b c hc ns ms as bs ha hb s t hn hh hm
  obtain ⟨w1, w2, w3, w4, w5⟩ := C86_written _ quote _ _ h3
  have key : ∀ {x y : Str} {r : Res Str}, SameOutput (.ok (x ++ y)) r → ∃ z, r = .ok z ∧ squeezed z = squeezed x ++ squeezed y := by
    intro x y r h
    cases h with
    | ok _ z h => exact ⟨z, rfl, by rw [← h, squeezed_append]⟩
  refine ⟨all, out, t', h1, h2, fun x y hx hy => key ?_, fun x y hx hy => key ?_, ?_, ?_, fun hp x y hx hy => key ?_⟩
  · rw [(C79_css quote as bs _).2 ⟨x, y, hx, hy, rfl⟩] at w1; exact w1
  · rw [(C79_xml as bs _).2 ⟨x, y, hx, hy, rfl⟩] at w2; exact w2
  · rw [← w3, C79_text, squeezed_append]
  · rw [← w4, C79_sexp, squeezed_append]
  · have := w5 hp
    rw [(C79_html quote as bs _).2 ⟨x, y, hx, hy, rfl⟩] at this; exact this

/-- Two programs that define the same name, and the two joined. -/
def exOne : Buf := { path := ['a'], id := 1, code := str! "(%define x (p a))\n%x ; one" }
def exTwo : Buf := { path := ['b'], id := 1, code := str! "(%define x q)(b %x)" }
def exOneTwo : Buf := { path := ['c'], id := 1, code := str! "(%define x (p a))\n%x ; one\n(%define x q)(b %x)" }

/-- They meet the hypotheses of `C90_output`. -/
example : ByKeys (fun _ l => l) ∧ exOneTwo.code = exOne.code ++ '\n' :: exTwo.code ∧
    (∃ ns, parse exExt.unescape exOne = .ok ns ∧ ∃ as s, BlindEvals exExt ns exSt (.ok as) s ∧
      (decide (xmlGenerate as = .ok (str! "\n<p>a</p>")) && decide (s.hashes = exSt.hashes)) = true) ∧
    ∃ ms, parse exExt.unescape exTwo = .ok ms ∧ ∃ bs t, SoloEvals exExt ms exSt (.ok bs) t ∧
      decide (xmlGenerate bs = .ok (str! "<b>q</b>")) = true := by
  refine ⟨byKeys_id, by decide, ?_, ?_⟩
  · have h : (parse exExt.unescape exOne).okP (fun ns => (expandNodes (blindRun exExt 9) ns exSt).1.okP fun out =>
        decide (xmlGenerate out = .ok (str! "\n<p>a</p>")) &&
          decide ((expandNodes (blindRun exExt 9) ns exSt).2.hashes = exSt.hashes)) = true := by
      decide +kernel
    obtain ⟨ns, h1, h2⟩ := Res.okP_elim h
    exact ⟨ns, h1, blind_ok_of 9 (fun as s => decide (xmlGenerate as = .ok (str! "\n<p>a</p>")) &&
      decide (s.hashes = exSt.hashes)) h2⟩
  · have h : (parse exExt.unescape exTwo).okP (fun ns => (expandNodes (soloRun exExt 9) ns exSt).1.okP fun out =>
        decide (xmlGenerate out = .ok (str! "<b>q</b>"))) = true := by
      decide +kernel
    obtain ⟨ns, h1, h2⟩ := Res.okP_elim h
    exact ⟨ns, h1, solo_ok_of 9 (fun out _ => decide (xmlGenerate out = .ok (str! "<b>q</b>"))) h2⟩

/-- And the first is in error if its name is misspelled. -/
example : ∃ ns, parse exExt.unescape { exOne with code := str! "%y" } = .ok ns ∧
    ∃ x, (expandNodes (namedRun exExt 9) ns exSt).1 = .err x := by
  have h : (parse exExt.unescape { exOne with code := str! "%y" }).okP (fun ns =>
      (expandNodes (namedRun exExt 9) ns exSt).1.errP fun _ => true) = true := by
    decide +kernel
  obtain ⟨ns, h1, h2⟩ := Res.okP_elim h
  obtain ⟨x, h3, _⟩ := Res.errP_elim h2
  exact ⟨ns, h1, x, h3⟩

end Seam
