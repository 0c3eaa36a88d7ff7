import Verif.Props.Refine
import Verif.Props.Laws

/-! C116: laws of strings, anywhere in a program. -/

namespace Seam
open Spec

/-- If a call of one of these macros has a result, so have its arguments. -/
theorem eager_result {x : Str × List Entry × Option ArgType} (hx : x ∈ eagerMacros) {ext : Ext} {args out : List PNode} {c : PNode}
    (hc : IsCall x.1 args c) {s t : St} (h : Evals ext [c] s (.ok out) t) : ∃ vs u, Evals ext args s (.ok vs) u := by
  obtain ⟨b, hb, hH⟩ := eager_shape x hx
  obtain ⟨H, hH⟩ := hH ext c args
  rw [evals_builtin_iff hc hb] at h
  obtain ⟨_, f, hf⟩ := h
  dsimp only at hf
  rw [hH] at hf
  rcases M.bind_cases hf with ⟨a, u, h1, _⟩ | ⟨e, _, h1⟩ | ⟨_, h1⟩ | ⟨_, h1⟩
  · exact ⟨a, u, by simp, f, h1⟩
  · cases h1
  · cases h1
  · cases h1

/-- A call of `%concat` that has a result. -/
theorem concat_result {ext : Ext} {args out : List PNode} {c : PNode} (hc : IsCall (str! "concat") args c) {s t : St}
    (h : Evals ext [c] s (.ok out) t) : ∃ vs xs, Evals ext args s (.ok vs) t ∧ Values vs xs ∧ out = [stringAt c xs.flatten] := by
  obtain ⟨vs, u, h1⟩ := eager_result concat_mem hc h
  by_cases hl : ∀ n ∈ vs, ∃ a, Literal n a
  · obtain ⟨xs, hx⟩ := values_of hl
    obtain ⟨h2, rfl⟩ := h.unique (C46_concat ext c args vs xs s u hc h1 hx)
    exact ⟨vs, xs, h1, hx, Res.ok.inj h2⟩
  · obtain ⟨e, h2⟩ := C46_concat_rejects ext c args vs s u hc h1 hl
    cases (h.unique h2).1

/-- C116: in a program that has a result, `(%concat (%concat ...) ...)` can be replaced by one `%concat`, in all of these places at
once. -/
theorem C116_concat (ext : Ext) (ns ms out : List PNode)
    (h : Exchanged (fun xs ys => ∃ c c' d as bs, xs = [c] ∧ ys = [c'] ∧ AtOneSpot c c' ∧ IsCall (str! "concat") (d :: bs) c ∧
      IsCall (str! "concat") as d ∧ IsCall (str! "concat") (as ++ bs) c') ns ms) (s t : St) (hr : Evals ext ns s (.ok out) t) :
    ∃ t', Evals ext ms s (.ok out) t' ∧ t'.log = t.log := by
  refine C116_refined ext _ ?_ ns ms out h s t hr
  rintro _ _ ⟨c, c', d, as, bs, rfl, rfl, hs, hc, hd, hc'⟩ s vs t h1
  obtain ⟨ws, xs, h2, h3, rfl⟩ := concat_result hc h1
  rcases Evals.append_inv (ns := [d]) (ms := bs) h2 with ⟨ds, u, r', h4, h5, h6⟩ | ⟨_, h4⟩
  · obtain ⟨vs, ys, h7, h8, rfl⟩ := concat_result hd h4
    cases r' with
    | ok zs =>
      simp only [addBefore, Res.ok.injEq] at h6
      subst h6
      cases h3 with
      | cons hz hzs =>
        have := (C96_concat_nested ext c c' d as bs vs zs ys _ s u t hc hd hc' h7 h5 h8 hzs)
        obtain ⟨k1, _⟩ := h1.unique this.1
        rw [k1]
        have hcc : ∀ x, stringAt c' x = stringAt c x := by cases hs; exact fun _ => rfl
        rw [← hcc]
        exact this.2
    | _ => simp [addBefore] at h6
  · exact absurd rfl (h4 _)

/-- C116: in a program that has a result, `(%concat ...)` can be replaced by `(%join "" ...)`, in all of these places at once. -/
theorem C116_concat_join (ext : Ext) (ns ms out : List PNode)
    (h : Exchanged (fun xs ys => ∃ c j args, ∃ a : Node, xs = [c] ∧ ys = [j] ∧ AtOneSpot c j ∧ IsCall (str! "concat") args c ∧
      IsCall (str! "join") (.string a :: args) j ∧ a.value = []) ns ms) (s t : St) (hr : Evals ext ns s (.ok out) t) :
    ∃ t', Evals ext ms s (.ok out) t' ∧ t'.log = t.log := by
  refine C116_refined ext _ ?_ ns ms out h s t hr
  rintro _ _ ⟨c, j, args, a, rfl, rfl, hs, hc, hj, ha⟩ s vs t h1
  obtain ⟨ws, xs, h2, h3, _⟩ := concat_result hc h1
  exact (C46_concat_join ext c j a args ws vs s t t hc hj ha (by cases hs; exact ⟨rfl, rfl⟩) h2 (values_literal h3)).1 h1

/-- In `(%define (f x) (%concat (%concat a b) %x)) (p (%f 2))` the inner call is dropped; the program has a result. -/
example : Exchanged (fun xs ys => ∃ c c' d as bs, xs = [c] ∧ ys = [c'] ∧ AtOneSpot c c' ∧ IsCall (str! "concat") (d :: bs) c ∧
      IsCall (str! "concat") as d ∧ IsCall (str! "concat") (as ++ bs) c')
      [exList [exSym (str! "%define"), exList [exSym ['f'], exSym ['x']],
        exList [exSym (str! "%concat"), exList [exSym (str! "%concat"), exSym ['a'], exSym ['b']], exSym (str! "%x")]],
        exList [exSym ['p'], exList [exSym (str! "%f"), exNum ['2']]]]
      [exList [exSym (str! "%define"), exList [exSym ['f'], exSym ['x']],
        exList [exSym (str! "%concat"), exSym ['a'], exSym ['b'], exSym (str! "%x")]],
        exList [exSym ['p'], exList [exSym (str! "%f"), exNum ['2']]]] ∧
    ∃ t, Evals exExt [exList [exSym (str! "%define"), exList [exSym ['f'], exSym ['x']],
        exList [exSym (str! "%concat"), exList [exSym (str! "%concat"), exSym ['a'], exSym ['b']], exSym (str! "%x")]],
        exList [exSym ['p'], exList [exSym (str! "%f"), exNum ['2']]]] exSt (.ok [exList [exSym ['p'], exStr (str! "ab2")]]) t :=
  ⟨.append [_] [_] _ _ (.function _ _ [_] [_] default default [] _ _ (.mk _ _ _ _ _ rfl rfl) (.mk _ _ _ _ _ rfl rfl)
      (.mk _ _ _ _ _) (.swap _ _ ⟨_, _, _, [exSym ['a'], exSym ['b']], [exSym (str! "%x")], rfl, rfl, .mk _ _ _ _ _, .mk _ _ _ _ _ rfl rfl, .mk _ _ _ _ _ rfl rfl,
        .mk _ _ _ _ _ rfl rfl⟩)) (.same _), evals_ok_at 9 (by decide +kernel)⟩

/-- In `(p (%concat a 1))` the call is replaced. -/
example : Exchanged (fun xs ys => ∃ c j args, ∃ a : Node, xs = [c] ∧ ys = [j] ∧ AtOneSpot c j ∧ IsCall (str! "concat") args c ∧
      IsCall (str! "join") (.string a :: args) j ∧ a.value = [])
      [exList [exSym (str! "%concat"), exSym ['a'], exNum ['1']]] [exList [exSym (str! "%join"), exStr [], exSym ['a'], exNum ['1']]] ∧
    ∃ t, Evals exExt [exList [exSym (str! "%concat"), exSym ['a'], exNum ['1']]] exSt (.ok [exStr (str! "a1")]) t :=
  ⟨.swap _ _ ⟨_, _, [exSym ['a'], exNum ['1']], ⟨[], default, []⟩, rfl, rfl, .mk _ _ _ _ _, .mk _ _ _ _ _ rfl rfl, .mk _ _ _ _ _ rfl rfl, rfl⟩,
    evals_ok_at 6 (by decide +kernel)⟩

/-- C116: in a program that has a result, `(%reverse (%reverse ...))` can be replaced by what it reverses, in all of these places at
once. -/
theorem C116_reverse (ext : Ext) (ns ms out : List PNode)
    (h : Exchanged (fun xs ys => ∃ c d, xs = [c] ∧ IsCall (str! "reverse") [d] c ∧ IsCall (str! "reverse") ys d) ns ms) (s t : St)
    (hr : Evals ext ns s (.ok out) t) : ∃ t', Evals ext ms s (.ok out) t' ∧ t'.log = t.log := by
  refine C116_refined ext _ ?_ ns ms out h s t hr
  rintro _ args ⟨c, d, rfl, hc, hd⟩ s vs t h1
  obtain ⟨ds, u, h2⟩ := eager_result reverse_mem hc h1
  obtain ⟨ws, u', h3⟩ := eager_result reverse_mem hd h2
  by_cases hl : ∃ ns si e w, ws = [.list ns si e w]
  · obtain ⟨ns, si, e, w, rfl⟩ := hl
    obtain ⟨h4, rfl⟩ := h1.unique (C44_twice ext d c args ns si e w s u' hd hc h3)
    rw [h4]
    exact h3
  · obtain ⟨e, h4⟩ := C44_rejects ext d args ws s u' hd h3 hl
    cases (h2.unique h4).1

/-- In `(p (%reverse (%reverse (a b))))` the calls are dropped; the program has a result. -/
example : Exchanged (fun xs ys => ∃ c d, xs = [c] ∧ IsCall (str! "reverse") [d] c ∧ IsCall (str! "reverse") ys d)
      [exList [exSym ['p'], exList [exSym (str! "%reverse"), exList [exSym (str! "%reverse"), exList [exSym ['a'], exSym ['b'] [' ']]]]]]
      [exList [exSym ['p'], exList [exSym ['a'], exSym ['b'] [' ']]]] ∧
    ∃ t, Evals exExt [exList [exSym ['p'], exList [exSym (str! "%reverse"), exList [exSym (str! "%reverse"), exList [exSym ['a'], exSym ['b'] [' ']]]]]] exSt
      (.ok [exList [exSym ['p'], exList [exSym ['a'], exSym ['b'] [' ']]]]) t :=
  ⟨.list _ _ _ _ _ (by rintro a t name ⟨⟩; simp) (by rintro a t name ⟨⟩; simp) (.append [_] [_] _ _ (.same _)
    (.swap _ _ ⟨_, _, rfl, .mk _ _ _ _ _ rfl rfl, .mk _ _ _ _ _ rfl rfl⟩)), evals_ok_at 9 (by decide +kernel)⟩

end Seam
