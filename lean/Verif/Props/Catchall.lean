import Verif.Props.Exchange

/-! C116: the clauses of `%match` after a name. -/

namespace Seam
open Spec

theorem catchall_loop {ext : Ext} (e : PNode) (p : Node) (hp : ∀ name, p.value ≠ '%' :: name) (body later later' : List PNode) (si : Site)
    (en : Token) (w : Str) (f : Nat) : ∀ before : List PNode, matchLoop (run ext f) e (before ++ .list (.symbol p :: body) si en w :: later) =
      matchLoop (run ext f) e (before ++ .list (.symbol p :: body) si en w :: later')
  | [] => by
    simp only [List.nil_append]
    unfold matchLoop
    cases f with
    | zero => rfl
    | succ f =>
      have h : run ext (f + 1) (.node (.symbol p)) = pure [.symbol p] := by
        show expandNode (run ext f) (.symbol p) = _
        simp only [expandNode, macroName?_none hp]
      dsimp only
      rw [h]
      rfl
  | cl :: before => by
    have ih := catchall_loop (ext := ext) e p hp body later later' si en w f before
    simp only [List.cons_append]
    unfold matchLoop
    rw [ih]

/-- After a clause whose pattern is a name, the clauses of `%match` play no role. -/
theorem evals_catchall {ext : Ext} {c c' x : PNode} {p : Node} (hp : ∀ name, p.value ≠ '%' :: name) {before body later later' : List PNode}
    {si : Site} {en : Token} {w : Str} (hc : IsCall (str! "match") (x :: (before ++ .list (.symbol p :: body) si en w :: later)) c)
    (hc' : IsCall (str! "match") (x :: (before ++ .list (.symbol p :: body) si en w :: later')) c') : Equivalent ext [c] [c'] := by
  intro s r t
  rw [evals_builtin_iff hc (b := .match_) rfl, evals_builtin_iff hc' (b := .match_) rfl]
  have h : ∀ f, runBuiltin ext (run ext f) .match_ c (x :: (before ++ .list (.symbol p :: body) si en w :: later)) =
      runBuiltin ext (run ext f) .match_ c' (x :: (before ++ .list (.symbol p :: body) si en w :: later')) := by
    intro f
    simp only [runBuiltin, matchMacro, catchall_loop _ p hp body later later' si en w f before]
  simp only [Runs, h]

/-- C116: after a clause of `%match` whose pattern is a name, which matches everything, the other clauses can be replaced by anything, or
left out, in all of these places at once. -/
theorem C116_catch_all (ext : Ext) (ns ms : List PNode)
    (h : Exchanged (fun xs ys => ∃ c c' x before body later later' si en w, ∃ p : Node, xs = [c] ∧ ys = [c'] ∧
      (∀ name, p.value ≠ '%' :: name) ∧ IsCall (str! "match") (x :: (before ++ .list (.symbol p :: body) si en w :: later)) c ∧
      IsCall (str! "match") (x :: (before ++ .list (.symbol p :: body) si en w :: later')) c') ns ms)
    (s t : St) (r : Res (List PNode)) (hr : Evals ext ns s r t) : ∃ t', Evals ext ms s r t' ∧ t'.log = t.log := by
  obtain ⟨t', h1, h2⟩ := exchanged_evals (fun as bs => by
    rintro ⟨c, c', x, before, body, later, later', si, en, w, p, rfl, rfl, hp, hc, hc'⟩
    exact evals_catchall hp hc hc') h (.refl s) hr
  exact ⟨t', h1, h2.log⟩

/-- In `(p (%match 2 (1 a) (y (%y)) (3 c)))` the last clause can be left out. -/
example : Exchanged (fun xs ys => ∃ c c' x before body later later' si en w, ∃ p : Node, xs = [c] ∧ ys = [c'] ∧
      (∀ name, p.value ≠ '%' :: name) ∧ IsCall (str! "match") (x :: (before ++ .list (.symbol p :: body) si en w :: later)) c ∧
      IsCall (str! "match") (x :: (before ++ .list (.symbol p :: body) si en w :: later')) c')
      [exList [exSym ['p'], exList [exSym (str! "%match"), exNum ['2'], exList [exNum ['1'], exSym ['a']], exList [exSym ['y'], exSym (str! "%y")],
        exList [exNum ['3'], exSym ['c']]]]]
      [exList [exSym ['p'], exList [exSym (str! "%match"), exNum ['2'], exList [exNum ['1'], exSym ['a']], exList [exSym ['y'], exSym (str! "%y")]]]] ∧
    ∃ t, Evals exExt [exList [exSym ['p'], exList [exSym (str! "%match"), exNum ['2'], exList [exNum ['1'], exSym ['a']],
        exList [exSym ['y'], exSym (str! "%y")], exList [exNum ['3'], exSym ['c']]]]] exSt (.ok [exList [exSym ['p'], exNum ['2']]]) t :=
  ⟨.list _ _ _ _ _ (by rintro a t name ⟨⟩; simp) (by rintro a t name ⟨⟩; simp) (.append [_] [_] _ _ (.same _)
    (.swap _ _ ⟨_, _, exNum ['2'], [exList [exNum ['1'], exSym ['a']]], [exSym (str! "%y")], [_], [], default, default, [], ⟨['y'], default, []⟩, rfl, rfl,
      by intro n; simp, .mk _ _ _ _ _ rfl rfl, .mk _ _ _ _ _ rfl rfl⟩)), evals_ok_at 9 (by decide +kernel)⟩

end Seam
