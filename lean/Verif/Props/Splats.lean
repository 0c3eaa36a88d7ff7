import Verif.Props.Exchange
import Verif.Props.Lists
import Verif.Props.Apply

/-! C116: `%splat` of `%list`, and `%apply`, anywhere in a program. -/

namespace Seam
open Spec

/-- C116: `(%splat (%list ...))`, in which `(%list` is on the line of `(%splat`, can be replaced by `(%strip ...)`, in all of these places at
once. -/
theorem C116_splat_list (ext : Ext) (ns ms : List PNode)
    (h : Exchanged (fun as bs => ∃ c l d args, as = [c] ∧ bs = [d] ∧ '\n' ∉ l.lw ∧ IsCall (str! "splat") [l] c ∧ IsCall (str! "list") args l ∧
      IsCall (str! "strip") args d) ns ms)
    (s t : St) (r : Res (List PNode)) (hr : Evals ext ns s r t) : ∃ t', Evals ext ms s r t' ∧ t'.log = t.log := by
  obtain ⟨t', h1, h2⟩ := exchanged_evals (fun as bs => by
    rintro ⟨c, l, d, args, rfl, rfl, hn, hc, hl, hd⟩ s r t
    have hw : l.lw = [] := by
      obtain ⟨_, tl, _, _, _, _, h⟩ := hc
      cases tl with
      | nil => cases h
      | cons a tl => 
        obtain ⟨rfl, _⟩ := List.cons.inj h
        by_cases ha : '\n' ∈ a.lw
        · simp [ha] at hn
        · rw [if_neg ha]; cases a <;> rfl
    rw [C51_splat_list ext c l args s t r hc hl, hw, ← C51_strip ext d args s t r hd]) h (.refl s) hr
  exact ⟨t', h1, h2.log⟩

/-- C116: `(%strip (%splat (%list ...)))` can be replaced by `(%strip ...)`, in all of these places at once. -/
theorem C116_strip_splat (ext : Ext) (ns ms : List PNode)
    (h : Exchanged (fun as bs => ∃ b c l d args, as = [b] ∧ bs = [d] ∧ IsCall (str! "strip") [c] b ∧ IsCall (str! "splat") [l] c ∧
      IsCall (str! "list") args l ∧ IsCall (str! "strip") args d) ns ms)
    (s t : St) (r : Res (List PNode)) (hr : Evals ext ns s r t) : ∃ t', Evals ext ms s r t' ∧ t'.log = t.log := by
  obtain ⟨t', h1, h2⟩ := exchanged_evals (fun as bs => by
    rintro ⟨b, c, l, d, args, rfl, rfl, hb, hc, hl, hd⟩ s r t
    rw [C51_strip ext b [c] s t r hb, C51_strip ext d args s t r hd]
    have key : ∀ r0 : Res (List PNode), spacedRes [] (spacedRes l.lw r0) = spacedRes [] r0 := by
      rintro (vs | _ | _ | _) <;> try rfl
      cases vs with
      | nil => rfl
      | cons v vs => cases v <;> rfl
    constructor
    · rintro ⟨r0, h1, rfl⟩
      obtain ⟨r1, h2, rfl⟩ := (C51_splat_list ext c l args s t r0 hc hl).1 h1
      exact ⟨r1, h2, key r1⟩
    · rintro ⟨r0, h1, rfl⟩
      exact ⟨_, (C51_splat_list ext c l args s t _ hc hl).2 ⟨r0, h1, rfl⟩, (key r0).symm⟩) h (.refl s) hr
  exact ⟨t', h1, h2.log⟩

/-- In `(p (%splat (%list a b)))` the calls are replaced. -/
example : Exchanged (fun as bs => ∃ c l d args, as = [c] ∧ bs = [d] ∧ '\n' ∉ l.lw ∧ IsCall (str! "splat") [l] c ∧ IsCall (str! "list") args l ∧
      IsCall (str! "strip") args d)
      [exList [exSym ['p'], exList [exSym (str! "%splat"), exList [exSym (str! "%list"), exSym ['a'], exSym ['b'] [' ']]]]]
      [exList [exSym ['p'], exList [exSym (str! "%strip"), exSym ['a'], exSym ['b'] [' ']]]] ∧
    ∃ t, Evals exExt [exList [exSym ['p'], exList [exSym (str! "%splat"), exList [exSym (str! "%list"), exSym ['a'], exSym ['b'] [' ']]]]] exSt
      (.ok [exList [exSym ['p'], exSym ['a'], exSym ['b'] [' ']]]) t :=
  ⟨.list _ _ _ _ _ (by rintro a t name ⟨⟩; simp) (by rintro a t name ⟨⟩; simp) (.append [_] [_] _ _ (.same _)
    (.swap _ _ ⟨_, _, _, _, rfl, rfl, by decide, .mk _ _ _ _ _ rfl rfl, .mk _ _ _ _ _ rfl rfl, .mk _ _ _ _ _ rfl rfl⟩)),
    evals_ok_at 9 (by decide +kernel)⟩

/-- In `(p (%strip (%splat (%list a b))))`, with a new line before `(%list`, the calls are replaced. -/
example : Exchanged (fun as bs => ∃ b c l d args, as = [b] ∧ bs = [d] ∧ IsCall (str! "strip") [c] b ∧ IsCall (str! "splat") [l] c ∧
      IsCall (str! "list") args l ∧ IsCall (str! "strip") args d)
      [exList [exSym ['p'], exList [exSym (str! "%strip"), exList [exSym (str! "%splat"),
        .list [exSym (str! "%list"), exSym ['a'], exSym ['b'] [' ']] default default ['\n']]]]]
      [exList [exSym ['p'], exList [exSym (str! "%strip"), exSym ['a'], exSym ['b'] [' ']]]] ∧
    ∃ t, Evals exExt [exList [exSym ['p'], exList [exSym (str! "%strip"), exList [exSym (str! "%splat"),
        .list [exSym (str! "%list"), exSym ['a'], exSym ['b'] [' ']] default default ['\n']]]]] exSt
      (.ok [exList [exSym ['p'], exSym ['a'], exSym ['b'] [' ']]]) t :=
  ⟨.list _ _ _ _ _ (by rintro a t name ⟨⟩; simp) (by rintro a t name ⟨⟩; simp) (.append [_] [_] _ _ (.same _)
    (.swap _ _ ⟨_, _, _, _, _, rfl, rfl, .mk _ _ _ _ _ rfl rfl, .mk _ _ _ _ _ rfl rfl, .mk _ _ _ _ _ rfl rfl, .mk _ _ _ _ _ rfl rfl⟩)),
    evals_ok_at 9 (by decide +kernel)⟩

/-- C116: `(%apply f ...)` can be replaced by `(%f ...)` at the same spot if there are no macros in the arguments, in all of these
places at once. -/
theorem C116_apply (ext : Ext) (ns ms : List PNode)
    (h : Exchanged (fun as bs => ∃ ks ks' ws si e w, ∃ f : Node, as = [.list ks si e w] ∧ bs = [.list ks' si e w] ∧
      IsCall (str! "apply") (.symbol f :: ws) (.list ks si e w) ∧ IsCall f.value ws (.list ks' si e w) ∧
      (∀ name, f.value ≠ '%' :: name) ∧ MacrosFree ws) ns ms)
    (s t : St) (r : Res (List PNode)) (hr : Evals ext ns s r t) : ∃ t', Evals ext ms s r t' ∧ t'.log = t.log := by
  obtain ⟨t', h1, h2⟩ := exchanged_evals (fun as bs => by
    rintro ⟨ks, ks', ws, si, e, w, f, rfl, rfl, hc, hc', hf, hw⟩ s r t
    exact C50_apply_plain ext ws ks ks' f si e w s t r hc hc' hf hw) h (.refl s) hr
  exact ⟨t', h1, h2.log⟩

/-- In `(p (%apply concat a b))` the call is replaced by `(%concat a b)`. -/
example : Exchanged (fun as bs => ∃ ks ks' ws si e w, ∃ f : Node, as = [.list ks si e w] ∧ bs = [.list ks' si e w] ∧
      IsCall (str! "apply") (.symbol f :: ws) (.list ks si e w) ∧ IsCall f.value ws (.list ks' si e w) ∧
      (∀ name, f.value ≠ '%' :: name) ∧ MacrosFree ws)
      [exList [exSym ['p'], exList [exSym (str! "%apply"), exSym (str! "concat"), exSym ['a'], exSym ['b']]]]
      [exList [exSym ['p'], exList [exSym (str! "%concat"), exSym ['a'], exSym ['b']]]] ∧
    ∃ t, Evals exExt [exList [exSym ['p'], exList [exSym (str! "%apply"), exSym (str! "concat"), exSym ['a'], exSym ['b']]]] exSt
      (.ok [exList [exSym ['p'], exStr (str! "ab")]]) t :=
  ⟨.list _ _ _ _ _ (by rintro a t name ⟨⟩; simp) (by rintro a t name ⟨⟩; simp) (.append [_] [_] _ _ (.same _)
    (.swap _ _ ⟨_, _, [exSym ['a'], exSym ['b']], _, _, _, ⟨str! "concat", default, []⟩, rfl, rfl, .mk _ _ _ _ _ rfl rfl, .mk _ _ _ _ _ rfl rfl,
      by intro n; simp, .cons _ _ (.symbol _ (by intro n; simp)) (.cons _ _ (.symbol _ (by intro n; simp)) .nil)⟩)),
    evals_ok_at 9 (by decide +kernel)⟩

end Seam
