import Verif.Props.Fold
import Verif.Props.Exchange

/-! C116: parts that do the same in the states in which they are expanded; branches that are not taken. -/

namespace Seam
open Spec

theorem where_swaps {ext : Ext} {fine : PNode → St → Bool} {K : PNode → List PNode → Prop}
    (hK : ∀ n bs s t, K n bs → fine n s = true → AlikeSt (fun as bs => ∃ n, as = [n] ∧ K n bs) s t →
      ∀ r t', Evals ext [n] t r t' → Evals ext bs t r t') :
    KeptSwaps .eq ext (guardRun ext fine) (fun as bs => ∃ n, as = [n] ∧ K n bs) := by
  rintro g hR _ bs ⟨n, rfl, hn⟩ s t hst
  by_cases hd : (expandNodes (guardRun ext fine g) [n] s).1 = .diverge
  · exact .inl (LogRel.idle hd)
  · have hf := (watch_fine g).resolve_left hd
    rcases expandNodes_kept hR [n] s t hst with h | ⟨t', h1, h2⟩
    · exact .inl h
    · exact .inr ⟨t', h1, (hK n bs s t hn hf (alikeLog_eq.1 hst) _ t' (.of_ev hd h2)).ev⟩

/-- C116: it is enough that the parts do the same in the states in which they are expanded in the run of the program, and in states
that are alike but for exchanged parts in bodies of macros. -/
theorem C116_where (ext : Ext) (fine : PNode → St → Bool) (K : PNode → List PNode → Prop)
    (hK : ∀ n bs s t, K n bs → fine n s = true → AlikeSt (fun as bs => ∃ n, as = [n] ∧ K n bs) s t →
      ∀ r t', Evals ext [n] t r t' → Evals ext bs t r t')
    (ns ms : List PNode) (h : Exchanged (fun as bs => ∃ n, as = [n] ∧ K n bs) ns ms) (s t : St) (r : Res (List PNode))
    (hr : Watched ext fine ns s r t) : ∃ t', Evals ext ms s r t' ∧ t'.log = t.log := by
  obtain ⟨hd, f, hf⟩ := hr
  rcases (run_kept (watch_below ext fine) (where_swaps hK) f).2.1 ns ms h s s (.refl s) with h1 | ⟨t', h1, h2⟩
  · rw [hf] at h1; exact absurd (LogRel.of_idle rfl h1) hd
  · rw [hf] at h1 h2
    exact ⟨t', .of_ev hd h2, h1.log⟩

theorem alike_some {E : List PNode → List PNode → Prop} {s t : St} (h : AlikeSt E s t) (x : Str) : (t.scope x).isSome = (s.scope x).isSome := by
  have := h.scope x
  revert this
  generalize s.scope x = a
  generalize t.scope x = b
  intro this
  cases this <;> rfl

/-- C116: if `x` is defined whenever `(%ifdef x yes no)` is expanded in a run of the program, then the branch `no` can be anything, or
left out. -/
theorem C116_defined_branch (ext : Ext) (fine : PNode → St → Bool) (x : Str)
    (hf : ∀ c cond a rest s, IsCall (str! "ifdef") (cond :: rest) c → Literal cond a → a.value = x → fine c s = true → (s.scope x).isSome)
    (ns ms : List PNode)
    (h : Exchanged (fun as bs => ∃ c, as = [c] ∧ ∃ c' cond yes no no', ∃ a : Node, bs = [c'] ∧ AtOneSpot c c' ∧ Literal cond a ∧
      a.value = x ∧ no.length ≤ 1 ∧ no'.length ≤ 1 ∧ IsCall (str! "ifdef") (cond :: yes :: no) c ∧
      IsCall (str! "ifdef") (cond :: yes :: no') c') ns ms)
    (s t : St) (r : Res (List PNode)) (hr : Watched ext fine ns s r t) : ∃ t', Evals ext ms s r t' ∧ t'.log = t.log := by
  refine C116_where ext fine _ ?_ ns ms h s t r hr
  rintro c _ s t ⟨c', cond, yes, no, no', a, rfl, hs, ha, rfl, hl, hl', hc, hc'⟩ hfine hst r t' h1
  have hx := hf c cond a _ s hc ha rfl hfine
  rw [← alike_some hst] at hx
  have hw : c'.lw = c.lw := by cases hs; rfl
  rw [C42_defined ext c' cond yes a no' t t' r hl' hc' ha hx, hw]
  exact (C42_defined ext c cond yes a no t t' r hl hc ha hx).1 h1

/-- C116: if `x` is not defined whenever `(%ifdef x yes no)` is expanded in a run of the program, then the branch `yes` can be
anything. -/
theorem C116_undefined_branch (ext : Ext) (fine : PNode → St → Bool) (x : Str)
    (hf : ∀ c cond a rest s, IsCall (str! "ifdef") (cond :: rest) c → Literal cond a → a.value = x → fine c s = true → s.scope x = none)
    (ns ms : List PNode)
    (h : Exchanged (fun as bs => ∃ c, as = [c] ∧ ∃ c' cond yes yes' no, ∃ a : Node, bs = [c'] ∧ AtOneSpot c c' ∧ Literal cond a ∧
      a.value = x ∧ IsCall (str! "ifdef") [cond, yes, no] c ∧ IsCall (str! "ifdef") [cond, yes', no] c') ns ms)
    (s t : St) (r : Res (List PNode)) (hr : Watched ext fine ns s r t) : ∃ t', Evals ext ms s r t' ∧ t'.log = t.log := by
  refine C116_where ext fine _ ?_ ns ms h s t r hr
  rintro c _ s t ⟨c', cond, yes, yes', no, a, rfl, hs, ha, rfl, hc, hc'⟩ hfine hst r t' h1
  have hx := hf c cond a _ s hc ha rfl hfine
  have hx' : t.scope a.value = none := by
    have := alike_some hst a.value
    rw [hx] at this
    exact Option.isSome_eq_false_iff.1 this |> Option.isNone_iff_eq_none.1
  have hw : c'.lw = c.lw := by cases hs; rfl
  rw [C42_undefined ext c' cond yes' no a t t' r hc' ha hx', hw]
  exact (C42_undefined ext c cond yes no a t t' r hc ha hx').1 h1

/-! ## Examples -/

/-- Is `x` defined (or not), if this is a call of `%ifdef`? -/
def exFineIf (b : Bool) (n : PNode) (s : St) : Bool :=
  match n with
  | .list (.symbol u :: _) _ _ _ => if u.value = str! "%ifdef" then (s.scope ['x']).isSome == b else true
  | _ => true

theorem exFineIf_sound (b : Bool) (c cond : PNode) (rest : List PNode) (s : St) (hc : IsCall (str! "ifdef") (cond :: rest) c)
    (h : exFineIf b c s = true) : (s.scope ['x']).isSome = b := by
  obtain ⟨hd, t, si, e, w, h1, _⟩ := hc
  simp only [exFineIf] at h
  rw [if_pos h1] at h
  exact eq_of_beq h

/-- `(%define (f) (%ifdef x A B)) (p (%f))`. -/
def exBranches (bs : List PNode) : List PNode :=
  [exList [exSym (str! "%define"), exList [exSym ['f']], exList (exSym (str! "%ifdef") :: exSym ['x'] :: bs)],
    exList [exSym ['p'], exList [exSym (str! "%f")]]]

/-- In `(%define x 1) (%define (f) (%ifdef x a (%nothing))) (p (%f))` the second branch can be left out. -/
example : Exchanged (fun as bs => ∃ c, as = [c] ∧ ∃ c' cond yes no no', ∃ a : Node, bs = [c'] ∧ AtOneSpot c c' ∧ Literal cond a ∧
      a.value = ['x'] ∧ no.length ≤ 1 ∧ no'.length ≤ 1 ∧ IsCall (str! "ifdef") (cond :: yes :: no) c ∧
      IsCall (str! "ifdef") (cond :: yes :: no') c')
      (exUnit :: exBranches [exSym ['a'], exList [exSym (str! "%nothing")]]) (exUnit :: exBranches [exSym ['a']]) ∧
    (∃ t, Watched exExt (exFineIf true) (exUnit :: exBranches [exSym ['a'], exList [exSym (str! "%nothing")]]) exSt
      (.ok [exList [exSym ['p'], exSym ['a']]]) t) := by
  refine ⟨.append [_] [_] _ _ (.same _) (.append [_] [_] _ _ (.function _ [] [_] [_] default default [] _ _
    (.mk _ _ _ _ _ rfl rfl) (.mk _ _ _ _ _ rfl rfl) (.mk _ _ _ _ _)
    (.swap _ _ ⟨_, rfl, _, exSym ['x'], exSym ['a'], [_], [], ⟨['x'], default, []⟩, rfl, .mk _ _ _ _ _, .symbol _, rfl, by simp, by simp,
      .mk _ _ _ _ _ rfl rfl, .mk _ _ _ _ _ rfl rfl⟩)) (.same _)), ?_⟩
  have h : ((expandNodes (guardRun exExt (exFineIf true) 9) (exUnit :: exBranches [exSym ['a'], exList [exSym (str! "%nothing")]]) exSt).1.okP
      (PNode.sames · [exList [exSym ['p'], exSym ['a']]])) = true := by decide +kernel
  obtain ⟨a, h1, h2⟩ := Res.okP_elim h
  obtain rfl := PNode.sames_sound _ _ h2
  exact ⟨_, by simp, 9, Prod.ext h1 rfl⟩

/-- In `(%define (f) (%ifdef x (%nothing) b)) (p (%f))` the first branch can be `y`. -/
example : Exchanged (fun as bs => ∃ c, as = [c] ∧ ∃ c' cond yes yes' no, ∃ a : Node, bs = [c'] ∧ AtOneSpot c c' ∧ Literal cond a ∧
      a.value = ['x'] ∧ IsCall (str! "ifdef") [cond, yes, no] c ∧ IsCall (str! "ifdef") [cond, yes', no] c')
      (exBranches [exList [exSym (str! "%nothing")], exSym ['b']]) (exBranches [exSym ['y'], exSym ['b']]) ∧
    (∃ t, Watched exExt (exFineIf false) (exBranches [exList [exSym (str! "%nothing")], exSym ['b']]) exSt
      (.ok [exList [exSym ['p'], exSym ['b']]]) t) := by
  refine ⟨.append [_] [_] _ _ (.function _ [] [_] [_] default default [] _ _
    (.mk _ _ _ _ _ rfl rfl) (.mk _ _ _ _ _ rfl rfl) (.mk _ _ _ _ _)
    (.swap _ _ ⟨_, rfl, _, exSym ['x'], _, exSym ['y'], exSym ['b'], ⟨['x'], default, []⟩, rfl, .mk _ _ _ _ _, .symbol _, rfl,
      .mk _ _ _ _ _ rfl rfl, .mk _ _ _ _ _ rfl rfl⟩)) (.same _), ?_⟩
  have h : ((expandNodes (guardRun exExt (exFineIf false) 9) (exBranches [exList [exSym (str! "%nothing")], exSym ['b']]) exSt).1.okP
      (PNode.sames · [exList [exSym ['p'], exSym ['b']]])) = true := by decide +kernel
  obtain ⟨a, h1, h2⟩ := Res.okP_elim h
  obtain rfl := PNode.sames_sound _ _ h2
  exact ⟨_, by simp, 9, Prod.ext h1 rfl⟩

end Seam
