import Verif.Lemmas.More
import Verif.Props.Include
import Verif.Props.Scope

/-!
# More definitions (C88)

See Spec/More for runs that do not ask whether something is undefined.
-/

namespace Seam
open Spec

/-- C88: what works with some definitions does the same with more definitions: it has the same
result, logs the same lines and makes the same definitions.  (`r` is any outcome but an error.) -/
theorem C88_more (ext : Ext) (pre : List LogLine) (ns : List PNode) (s s' t : St) (r : Res (List PNode)) (hr : ∀ e, r ≠ .err e)
    (h : SureEvals ext ns s r s') (hm : More pre s t) : ∃ t', Evals ext ns t r t' ∧ More pre s' t' := by
  obtain ⟨t', h1, h2⟩ := sure_more hr h hm
  exact ⟨t', sure_evals h1, h2⟩

/-- C88: the runs of `C88_more` are runs of the expander. -/
theorem C88_sure (ext : Ext) (ns : List PNode) (s s' : St) (r : Res (List PNode)) (h : SureEvals ext ns s r s') :
    Evals ext ns s r s' := sure_evals h

/-- C88: so a program that works on its own gives the same after any other program, whatever
that one defines. -/
theorem C88_after (ext : Ext) (before prog as out : List PNode) (s t s' : St) (hb : Evals ext before s (.ok as) t)
    (hp : SureEvals ext prog { t with scope := Scope.empty, log := [] } (.ok out) s') :
    ∃ t', Evals ext (before ++ prog) s (.ok (as ++ out)) t' ∧ t'.log = t.log ++ s'.log ∧
      ∀ name m, s'.scope name = some m → t'.scope name = some m := by
  have hm : More t.log { t with scope := Scope.empty, log := [] } t :=
    ⟨fun _ _ h => by simp [Scope.empty] at h, by simp, rfl, rfl, rfl⟩
  obtain ⟨t', h1, h2⟩ := C88_more ext _ prog _ s' t _ (by simp) hp hm
  exact ⟨t', hb.append h1, h2.log, h2.scope⟩

/-- C88: and a file that works on its own gives the same wherever it is included. -/
theorem C88_include (ext : Ext) (c n : PNode) (args tree out : List PNode) (a : Node) (file code : Str) (s u s' : St)
    (hc : IsCall (str! "include") args c) (ha : Evals ext args s (.ok [n]) u) (hn : Literal n a)
    (hf : FirstRead ext (includeFiles ext a.value) file code)
    (hp : parse ext.unescape { path := file, id := u.fresh, code := code } = .ok tree)
    (ht : SureEvals ext tree { u with scope := Scope.empty, log := [], fresh := u.fresh + 1 } (.ok out) s') :
    ∃ t, Evals ext [c] s (.ok (firstSpaced c.lw out)) t ∧ t.log = u.log ++ s'.log ∧
      ∀ name m, s'.scope name = some m → t.scope name = some m := by
  have hm : More u.log { u with scope := Scope.empty, log := [], fresh := u.fresh + 1 } { u with fresh := u.fresh + 1 } :=
    ⟨fun _ _ h => by simp [Scope.empty] at h, by simp, rfl, rfl, rfl⟩
  obtain ⟨t, h1, h2⟩ := C88_more ext _ tree _ s' _ _ (by simp) ht hm
  exact ⟨t, (C52_include ext c n args tree a file code s u t _ hc ha hn hf hp).2 ⟨_, h1, rfl⟩, h2.log, h2.scope⟩

/-- A state in which `x` is defined as `v`. -/
def exWith (x : Str) (v : PNode) (s : St) : St := { s with scope := s.scope.insert x (Macro.var [v]) }

theorem more_with {x : Str} (v : PNode) {s : St} (h : s.scope x = none) : More [] s (exWith x v s) where
  scope name m hn := by
    have : name ≠ x := by rintro rfl; rw [h] at hn; simp at hn
    simpa [exWith, Scope.insert, this] using hn
  log := by simp [exWith]
  fresh := rfl
  hashes := rfl
  order := rfl

/-- C88: `%ifdef` for a name that is not defined can tell the difference, of course. -/
theorem C88_ifdef_false : ∃ s t t' u', More [] s t ∧ Evals exExt [exIfdef] t (.ok [exSym (str! "yes")]) t' ∧
    ∃ e, Evals exExt [exIfdef] s (.err e) u' := by
  obtain ⟨t', h, _⟩ := evals_ok_of (ext := exExt) (ns := [exIfdef]) (s := exWith ['x'] (exSym ['1']) exSt)
    (out := [exSym (str! "yes")]) 10 (fun _ => true) (by decide +kernel)
  obtain ⟨e, u', h', _⟩ := evals_err_of (ext := exExt) (ns := [exIfdef]) (s := exSt) 10 (fun _ => true) (by decide +kernel)
  exact ⟨exSt, _, t', u', more_with _ rfl, h, e, h'⟩

/-- `(%namespace a) %a/b`. -/
def exSpaceUse : List PNode := [exList [exSym (str! "%namespace"), exSym ['a']], exSym (str! "%a/b")]

/-- C88: and so can `%namespace`, which also exports what is defined outside of it: here
`%a/b` is `1`, but `2` if `b` was defined as `2` before. -/
theorem C88_namespace_false : ∃ s t s' t', More [] s t ∧ Evals exExt exSpaceUse s (.ok [exNum ['1']]) s' ∧
    Evals exExt exSpaceUse t (.ok [exNum ['2']]) t' := by
  obtain ⟨s', h, _⟩ := evals_ok_of (ext := exExt) (ns := exSpaceUse) (s := exWith (str! "a/b") (exNum ['1']) exSt)
    (out := [exNum ['1']]) 10 (fun _ => true) (by decide +kernel)
  obtain ⟨t', h', _⟩ := evals_ok_of (ext := exExt) (ns := exSpaceUse) (s := exWith ['b'] (exNum ['2']) (exWith (str! "a/b") (exNum ['1']) exSt))
    (out := [exNum ['2']]) 10 (fun _ => true) (by decide +kernel)
  exact ⟨_, _, s', t', more_with _ (by decide +kernel), h, h'⟩

/-- The program of `exUserDoc` works on its own: it defines the macro `f` and calls it. -/
example : ∃ out t, SureEvals exExt exUserDoc exSt (.ok out) t ∧ (out.length == 1) = true :=
  sure_ok_of 10 (fun out _ => out.length == 1) (by decide +kernel)

/-- And after another program that defines `f` and `x`. -/
example : ∃ t, Evals exExt [exDefX, exList [exSym (str! "%define"), exSym ['f'] [' '], exSym ['q']]] exSt (.ok []) t ∧
    (t.scope ['f']).isSome = true :=
  evals_ok_of 10 (fun t => (t.scope ['f']).isSome) (by decide +kernel)

/-- `%ifdef` for a name that is defined is no question about what is undefined. -/
example : ∃ out t, SureEvals exExt [exDefX, exIfdef] exSt (.ok out) t ∧ PNode.sames out [exSym (str! "yes")] = true :=
  sure_ok_of 10 (fun out _ => PNode.sames out [exSym (str! "yes")]) (by decide +kernel)

example : More [] exSt (exWith ['x'] (exSym ['1']) exSt) := more_with _ rfl

end Seam
