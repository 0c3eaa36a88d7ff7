import Verif.Lemmas.Split
import Verif.Props.Laws

/-! C96: loops can be taken apart. -/

namespace Seam
open Spec

/-- C96: a loop over two lists, one after the other, is the loop over the first followed by the loop over the second, for a body
that defines nothing: with the same result, error or crash, log and definitions. -/
theorem C96_for_split (ext : Ext) (c c1 c2 : PNode) (a b b1 b2 : Node) (args args1 args2 xs ys rest rest1 rest2 : List PNode)
    (si si1 si2 : Site) (e e1 e2 : Token) (w w1 w2 : Str) (s t : St) (r : Res (List PNode)) (hf : Fair s.order)
    (hc : IsCall (str! "for") args c) (hp : positional args = .symbol a :: .symbol b :: .list (xs ++ ys) si e w :: rest)
    (hc1 : IsCall (str! "for") args1 c1) (hp1 : positional args1 = .symbol a :: .symbol b1 :: .list xs si1 e1 w1 :: rest1)
    (hc2 : IsCall (str! "for") args2 c2) (hp2 : positional args2 = .symbol a :: .symbol b2 :: .list ys si2 e2 w2 :: rest2)
    (hb : b.value = str! "in" ∧ b1.value = str! "in" ∧ b2.value = str! "in")
    (hbody : dropPositional 3 args1 = dropPositional 3 args ∧ dropPositional 3 args2 = dropPositional 3 args)
    (hx : MacrosFree xs) (hy : MacrosFree ys)
    (hq : ∀ (u v : St) as, Fair u.order → Evals ext (dropPositional 3 args) u (.ok as) v → v.scope = u.scope) :
    Evals ext [c] s r t ↔ Evals ext [c1, c2] s r t := by
  rw [for_free hc hf hp hb.1 (macrosFree_append hx hy)]
  constructor
  · rintro ⟨t', h, rfl⟩
    rcases loops_append.1 h with ⟨as, u, r', h1, h2, rfl⟩ | ⟨h1, h2⟩
    · obtain ⟨k1, k2⟩ := loops_quiet hq hf h1
      have g1 := (for_free hc1 hf hp1 hb.2.1 hx).2 ⟨u, hbody.1 ▸ h1, rfl⟩
      obtain ⟨t'', h3, h4⟩ := loops_restart (sc := s.scope) h2 k1
      have g2 := (for_free hc2 (s := { u with scope := s.scope }) k2 hp2 hb.2.2 hy).2 ⟨t'', hbody.2 ▸ h3, rfl⟩
      have h4 := h4 s.scope
      rw [show ({ t'' with scope := ({ u with scope := s.scope } : St).scope } : St) = { t' with scope := s.scope } from h4] at g2
      cases r' with
      | ok bs => exact g1.cons g2
      | _ => exact g1.cons_fail g2 (by simp [addBefore])
    · exact ((for_free hc1 hf hp1 hb.2.1 hx).2 ⟨t', hbody.1 ▸ h1, rfl⟩).fail_left (ms := [c2]) h2
  · intro h
    rcases Evals.append_inv (ns := [c1]) (ms := [c2]) h with ⟨as, v, r', h1, h2, rfl⟩ | ⟨h1, h2⟩
    · obtain ⟨u, h0, rfl⟩ := (for_free hc1 hf hp1 hb.2.1 hx).1 h1
      have h1 := h0
      rw [hbody.1] at h1
      obtain ⟨k1, k2⟩ := loops_quiet hq hf h1
      obtain ⟨t', h3, rfl⟩ := (for_free hc2 (s := { u with scope := s.scope }) k2 hp2 hb.2.2 hy).1 h2
      rw [hbody.2] at h3
      obtain ⟨t'', h5, h6⟩ := loops_restart (sc := u.scope) h3 (fun y hy => (k1 y hy).symm)
      exact ⟨t'', loops_append.2 (.inl ⟨as, u, r', h1, h5, rfl⟩), (h6 s.scope).symm⟩
    · obtain ⟨t', h0, rfl⟩ := (for_free hc1 hf hp1 hb.2.1 hx).1 h1
      have h1 := h0
      rw [hbody.1] at h1
      exact ⟨t', loops_append.2 (.inr ⟨h1, h2⟩), rfl⟩

/-- `(%for x in (xs...) (%for y in (1 2) %x))`. -/
def exSplitBody : PNode := exList [exSym (str! "%for"), exSym ['y'], exSym (str! "in"), exList [exNum ['1'], exNum ['2']], exSym (str! "%x")]
def exSplitFor (xs : List PNode) (body : PNode) : PNode := exList [exSym (str! "%for"), exSym ['x'], exSym (str! "in"), exList xs, body]

/-- A body that defines nothing, and what it gives. -/
example (u v : St) (as : List PNode) (hf : Fair u.order) (h : Evals exExt [exSplitBody] u (.ok as) v) : v.scope = u.scope := by
  obtain ⟨t', _, rfl⟩ := (for_free (a := ⟨['y'], _, []⟩) (.mk _ _ _ _ _ rfl rfl) hf rfl rfl
    (.cons _ _ (.number _) (.cons _ _ (.number _) .nil))).1 h
  rfl
example : ∃ t, Evals exExt [exSplitFor [exNum ['3'], exNum ['4']] exSplitBody] exSt
    (.ok [exNum ['3'], exNum ['3'], exNum ['4'], exNum ['4']]) t := evals_ok_at 20 (by decide +kernel)

/-- C96: with a body that defines something it is not so: what it defines is still there for the next item of the loop, but not
in the next loop. -/
theorem C96_for_split_false : (∃ t, Evals exExt [exSplitFor [exNum ['1'], exNum ['2']] exLawBody] exSt (.ok [exNum ['2']]) t) ∧
    ∃ t, Evals exExt [exSplitFor [exNum ['1']] exLawBody, exSplitFor [exNum ['2']] exLawBody] exSt (.ok []) t :=
  ⟨evals_ok_at 20 (by decide +kernel), evals_ok_at 20 (by decide +kernel)⟩

end Seam
