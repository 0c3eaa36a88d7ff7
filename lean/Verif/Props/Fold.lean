import Verif.Lemmas.Fold
import Verif.Lemmas.EvalCheck
import Verif.Props.Expand
import Verif.Props.Markup
import Verif.Lemmas.Out
import Verif.Lemmas.Looks

/-! C117: parts can be worked out beforehand, and named constants can be written out. -/

namespace Seam
open Spec

/-- C117: watching does not change anything. -/
theorem C117_watched (ext : Ext) (fine : PNode → St → Bool) (ns : List PNode) (s t : St) (r : Res (List PNode))
    (h : Watched ext fine ns s r t) : Evals ext ns s r t := watched_evals h

/-- C117: let `K n vs` say that the part `n` was worked out to be `vs`, which is free of macros.  If, whenever such a part is
expanded in a run of the program, the result is `vs` and nothing is changed, then the program with `vs` in place of `n`,
wherever one likes, has the same outcome and prints the same. -/
theorem C117_worked_out (ext : Ext) (fine : PNode → St → Bool) (K : PNode → List PNode → Prop)
    (hm : ∀ n vs, K n vs → MacrosFree vs) (hK : ∀ n vs s, K n vs → fine n s = true → Evals ext [n] s (.ok vs) s)
    (ns ms : List PNode) (h : Exchanged (fun as bs => ∃ n, as = [n] ∧ K n bs) ns ms) (s t : St) (r : Res (List PNode))
    (hr : Watched ext fine ns s r t) : ∃ t', Evals ext ms s r t' ∧ t'.log = t.log := by
  obtain ⟨t', h1, h2⟩ := fold_evals hm hK h (.refl s) hr
  exact ⟨t', h1, h2.log⟩

/-- C117: named constants can be written out.  If `x` has the value `vs`, free of macros, whenever `%x` is expanded in a run of
the program, then the program in which `vs` is written in place of `%x`, at any number of places, has the same outcome and
prints the same. -/
theorem C117_constant (ext : Ext) (fine : PNode → St → Bool) (x : Str) (vs : List PNode) (hv : MacrosFree vs)
    (hf : ∀ u s, u.value = '%' :: x → fine (.symbol u) s = true → s.scope x = some { params := [], body := vs })
    (ns ms : List PNode) (h : Exchanged (WrittenOut x vs) ns ms) (s t : St) (r : Res (List PNode))
    (hr : Watched ext fine ns s r t) : ∃ t', Evals ext ms s r t' ∧ t'.log = t.log := by
  have he : WrittenOut x vs = fun as bs => ∃ n, as = [n] ∧ ∃ u : Node, u.value = '%' :: x ∧ n = .symbol u ∧ bs = firstSpaced u.lw vs := by
    funext as bs
    refine propext ⟨?_, ?_⟩
    · rintro ⟨u, h1, h2, h3⟩
      exact ⟨_, h2, u, h1, rfl, h3⟩
    · rintro ⟨n, h2, u, h1, rfl, h3⟩
      exact ⟨u, h1, h2, h3⟩
  rw [he] at h
  refine C117_worked_out ext fine (fun n bs => ∃ u : Node, u.value = '%' :: x ∧ n = .symbol u ∧ bs = firstSpaced u.lw vs) ?_ ?_ ns ms h s t r hr
  · rintro n _ ⟨u, _, _, rfl⟩
    cases hv with
    | nil => exact .nil
    | cons n ns h1 h2 => exact .cons _ _ (free_setLw h1 _) h2
  · rintro n _ s' ⟨u, h1, rfl, rfl⟩ h2
    exact C35_use ext u x vs vs s' s' h1 (hf u s' h1 h2) (macrosFree_evals ext vs hv s')

/-- C117: and if nothing looks up `x` any more, the definition can be dropped. -/
theorem C117_dropped (ext : Ext) (fine : PNode → St → Bool) (allowed : Str → Bool) (c : PNode) (x : Node) (vs : List PNode)
    (hc : IsCall (str! "define") (.symbol x :: vs) c) (hv : MacrosFree vs) (hx : allowed x.value = false)
    (hf : ∀ u s, u.value = '%' :: x.value → fine (.symbol u) s = true → s.scope x.value = some { params := [], body := vs })
    (ns ms : List PNode) (h : Exchanged (WrittenOut x.value vs) ns ms) (s t t' : St) (r r' : Res (List PNode))
    (hr : Watched ext fine (c :: ns) s r t) (hl : LookEvals ext allowed ms s r' t') : r' = r ∧ t'.log = t.log := by
  obtain ⟨t1, h1, h2⟩ := C117_constant ext fine x.value vs hv hf (c :: ns) (c :: ms) (.append [c] [c] _ _ (.same _) h) s t r hr
  have hd := evals_define hc (macrosFree_evals ext vs hv s)
  have ha : AgreeOn allowed [] s { s with scope := s.scope.insert x.value (Macro.var vs) } := by
    refine ⟨fun y hy => ?_, rfl, rfl, rfl, rfl⟩
    have : y ≠ x.value := by rintro rfl; rw [hx] at hy; cases hy
    simp [Scope.insert, this]
  obtain ⟨t2, k1, k2, _⟩ := look_frame hl ha
  have hcat : Evals ext (c :: ms) s r' t2 := by
    cases r' with
    | ok out => exact hd.cons (look_evals k1)
    | _ => exact hd.cons_fail (look_evals k1) (by simp)
  obtain ⟨rfl, rfl⟩ := h1.unique hcat
  exact ⟨rfl, by rw [← h2, k2.log]; rfl⟩

/-! ## Examples -/

/-- `(%define x 1)`. -/
def exUnit : PNode := exList [exSym (str! "%define"), exSym ['x'], exNum ['1']]

/-- Is `x` the number 1, if this is `%x`? -/
def exFine (n : PNode) (s : St) : Bool :=
  match n with
  | .symbol u => if u.value = str! "%x" then
      (match s.scope ['x'] with
      | some ⟨[], vs⟩ => PNode.sames vs [exNum ['1']]
      | _ => false) else true
  | _ => true

theorem exFine_sound (u : Node) (s : St) (hu : u.value = '%' :: ['x']) (h : exFine (.symbol u) s = true) :
    s.scope ['x'] = some { params := [], body := [exNum ['1']] } := by
  simp only [exFine] at h
  rw [if_pos hu] at h
  split at h
  · next vs heq => rw [heq, PNode.sames_sound _ _ h]
  · cases h

/-- `(%define (f y) (p %x %y)) (%f 2)`, with `n` for `%x`. -/
def exUnitUse (n : PNode) : List PNode :=
  [exList [exSym (str! "%define"), exList [exSym ['f'], exSym ['y']], exList [exSym ['p'], n, exSym (str! "%y")]],
    exList [exSym (str! "%f"), exNum ['2']]]

/-- In the program `(%define x 1) (%define (f y) (p %x %y)) (%f 2)` the use of `%x` can be written out. -/
example : Exchanged (WrittenOut ['x'] [exNum ['1']]) (exUnitUse (exSym (str! "%x"))) (exUnitUse (exNum ['1'])) ∧
    ∃ t, Watched exExt exFine (exUnit :: exUnitUse (exSym (str! "%x"))) exSt
      (.ok [exList [exSym ['p'], exNum ['1'], exNum ['2']]]) t := by
  refine ⟨.append [_] [_] _ _ (.function _ _ [_] [_] default default [] _ _ (.mk _ _ _ _ _ rfl rfl) (.mk _ _ _ _ _ rfl rfl)
      (.mk _ _ _ _ _) (.list _ _ _ _ _ ?_ ?_ (.append [_] [_] _ _ (.same _) (.append [_] [_] _ _ (.swap _ _ ⟨⟨str! "%x", default, []⟩, rfl, rfl, rfl⟩)
        (.same _))))) (.same _), ?_⟩
  · rintro a t name ⟨⟩
    simp
  · rintro a t name ⟨⟩
    simp
  · have h : ((expandNodes (guardRun exExt exFine 8) (exUnit :: exUnitUse (exSym (str! "%x"))) exSt).1.okP
        (PNode.sames · [exList [exSym ['p'], exNum ['1'], exNum ['2']]])) = true := by decide +kernel
    obtain ⟨a, h1, h2⟩ := Res.okP_elim h
    obtain rfl := PNode.sames_sound _ _ h2
    exact ⟨_, by simp, 8, Prod.ext h1 rfl⟩

/-- After that `x` is not looked up any more. -/
example : ∃ out t, LookEvals exExt (fun y => y != ['x']) (exUnitUse (exNum ['1'])) exSt (.ok out) t ∧
    PNode.sames out [exList [exSym ['p'], exNum ['1'], exNum ['2']]] = true :=
  look_ok_of 8 (fun out _ => PNode.sames out [exList [exSym ['p'], exNum ['1'], exNum ['2']]]) (by decide +kernel)

/-- C117: if `x` means something else where `%x` is expanded, it cannot be written out: in
`(%define x 1) (%define (f x) %x) (%f 2)` the parameter is meant. -/
theorem C117_shadowed_false : ∃ prog : PNode → List PNode,
    Exchanged (WrittenOut ['x'] [exNum ['1']]) (prog (exSym (str! "%x"))) (prog (exNum ['1'])) ∧
    (∃ t, Evals exExt (exUnit :: prog (exSym (str! "%x"))) exSt (.ok [exNum ['2']]) t) ∧
    ∃ t, Evals exExt (exUnit :: prog (exNum ['1'])) exSt (.ok [exNum ['1']]) t :=
  ⟨fun n => [exList [exSym (str! "%define"), exList [exSym ['f'], exSym ['x']], n], exList [exSym (str! "%f"), exNum ['2']]],
    .append [_] [_] _ _ (.function _ _ [_] [_] default default [] _ _ (.mk _ _ _ _ _ rfl rfl) (.mk _ _ _ _ _ rfl rfl)
      (.mk _ _ _ _ _) (.swap _ _ ⟨⟨str! "%x", default, []⟩, rfl, rfl, rfl⟩)) (.same _),
    evals_ok_at 8 (by decide +kernel), evals_ok_at 8 (by decide +kernel)⟩

end Seam
