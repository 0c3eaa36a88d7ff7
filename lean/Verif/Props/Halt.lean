import Verif.Lemmas.Halt
import Verif.Props.Expand

/-! Expansion is complete (C73), and finishes if there is no recursion (C74). -/

namespace Seam
open Spec

/-! ## C73 -/

/-- C73: a successful expansion leaves no macro call and no macro variable anywhere in the
result, provided that no call of `%symbol` on the way makes a symbol that starts with `%`. -/
theorem C73_no_macro_left_partial (ext : Ext) (he : PlainToml ext) (ns out : List PNode) (s t : St)
    (h : PlainEvals ext ns s (.ok out) t) : MacrosFree out := plainEvals_free he h

/-- C73: so expanding the result once more, whatever is defined by then, returns it unchanged
and has no effect. -/
theorem C73_again_partial (ext : Ext) (he : PlainToml ext) (ns out : List PNode) (s t : St)
    (h : PlainEvals ext ns s (.ok out) t) : ∀ u, Evals ext out u (.ok out) u :=
  fun u => macrosFree_evals ext out (plainEvals_free he h) u

/-- C73: the condition on `%symbol` is only a restriction on the run: the outcome is the one
that the expander has. -/
theorem C73_same_run (ext : Ext) (ns : List PNode) (s t : St) (r : Res (List PNode)) (h : PlainEvals ext ns s r t) :
    Evals ext ns s r t := plainEvals_evals h

/-- C73: without the condition it is false: `(%symbol "%x")` leaves the macro variable `%x`
in the result, and expanding that again is an error if `x` is not defined, and otherwise the
value of `x`. -/
theorem C73_symbol_false (ext : Ext) (s : St) : ∃ a : Node,
    Evals ext [exList [exSym (str! "%symbol"), exStr (str! "%x")]] s (.ok [.symbol a]) s ∧
    ¬ MacrosFree [.symbol a] ∧ (s.scope ['x'] = none → ∃ e, Evals ext [.symbol a] s (.err e) s) := by
  refine ⟨⟨str! "%x", default, []⟩, ⟨by simp, 9, rfl⟩, ?_, fun hx => ?_⟩
  · intro h
    cases h with
    | cons _ _ h _ =>
      cases h with
      | symbol _ h => exact h _ rfl
  · obtain ⟨e, h, _⟩ := C35_undefined ext ⟨str! "%x", default, []⟩ ['x'] s rfl hx
    exact ⟨e, h⟩

/-- `(%define (f x) (p %x)) (%f (%symbol "a"))`: a definition, a call, a variable and a call
of `%symbol`. -/
def exPlainDoc : List PNode := [
  exList [exSym (str! "%define"), exList [exSym ['f'], exSym ['x']], exList [exSym ['p'], exSym (str! "%x") [' ']]],
  exList [exSym (str! "%f"), exList [exSym (str! "%symbol"), exStr ['a']]]]

example : ∃ t, PlainEvals exExt exPlainDoc exSt (.ok [exList [exSym ['p'], exSym ['a'] [' ']]]) t := by
  have h : (expandNodes (plainRun exExt 10) exPlainDoc exSt).1.okP (PNode.sames · [exList [exSym ['p'], exSym ['a'] [' ']]]) = true := by
    decide +kernel
  obtain ⟨a, h1, h2⟩ := Res.okP_elim h
  rw [PNode.sames_sound _ _ h2] at h1
  exact ⟨_, by simp, 10, Prod.ext h1 rfl⟩

theorem exExt_plain : PlainToml exExt := by
  intro text table h
  cases h

example (out : List PNode) (t : St) (h : PlainEvals exExt exPlainDoc exSt (.ok out) t) : MacrosFree out ∧ ∀ u, Evals exExt out u (.ok out) u :=
  ⟨C73_no_macro_left_partial exExt exExt_plain _ _ _ _ h, C73_again_partial exExt exExt_plain _ _ _ _ h⟩

/-! ## C74 -/

/-- C74: a document in which every macro uses only names of smaller rank is always expanded to
an end, in a state in which the same is true of everything defined so far.  The result
contains no macros, and what is defined afterwards is again of this kind, unless there is a
panic. -/
theorem C74_finishes (ext : Ext) (he : PlainToml ext) (rank : Str → Nat) (k : Nat) (ns : List PNode) (s : St)
    (hn : Tames ext rank k ns) (hs : Ranked ext rank s.scope) (ho : Fair s.order) :
    ∃ r t, Evals ext ns s r t ∧ (∀ out, r = .ok out → MacrosFree out) ∧ (r ≠ .panic → Ranked ext rank t.scope) := by
  obtain ⟨⟨r, t⟩, hf, hev⟩ := (finishes he k ns hn s ⟨ho, hs⟩).2 trivial
  refine ⟨r, t, .of_ev ?_ hev, ?_, ?_⟩
  · rintro rfl
    exact hf trivial
  · rintro out rfl
    exact free_iff.2 hf.1
  · intro hp
    cases r with
    | ok out => exact hf.2.2
    | err e => exact hf.2
    | panic => exact absurd rfl hp
    | diverge => exact absurd trivial hf

/-- C74: in particular from the start, when nothing is defined. -/
theorem C74_document (ext : Ext) (he : PlainToml ext) (rank : Str → Nat) (k : Nat) (ns : List PNode) (order : Order)
    (ho : Fair order) (hn : Tames ext rank k ns) : ∃ r t, Evals ext ns (St.init order) r t := by
  obtain ⟨r, t, h, _⟩ := C74_finishes ext he rank k ns (St.init order) hn (fun _ _ h => by cases h) ho
  exact ⟨r, t, h⟩

/-- `x` and `y` are variables, `f` calls no macro, `g` calls `f`. -/
def exRank : Str → Nat := fun name => if name = ['f'] then 1 else if name = ['g'] then 2 else 0

/-- `(%define (f x) (p %x)) (%define (g &y) (%map f %y) (%f (%join "-" %y))) (%for z in (a b) (%g %z c))`. -/
def exRanked : List PNode := [
  exList [exSym (str! "%define"), exList [exSym ['f'], exSym ['x']], exList [exSym ['p'], exSym (str! "%x")]],
  exList [exSym (str! "%define"), exList [exSym ['g'], exSym (str! "&y")],
    exList [exSym (str! "%map"), exSym ['f'], exSym (str! "%y")],
    exList [exSym (str! "%f"), exList [exSym (str! "%join"), exStr ['-'], exSym (str! "%y")]]],
  exList [exSym (str! "%for"), exSym ['z'], exSym (str! "in"), exList [exSym ['a'], exSym ['b']],
    exList [exSym (str! "%g"), exSym (str! "%z"), exSym ['c']]]]

/-- A word without a macro. -/
theorem exWord (v : Str) (h : v.head? ≠ some '%') : ∀ name, (⟨v, default, []⟩ : Node).value ≠ '%' :: name := by
  rintro name rfl
  exact h rfl

theorem exRanked_tames : Tames exExt exRank 3 exRanked := by
  refine .cons _ _ _ (.function _ _ ⟨['f'], default, []⟩ _ _ _ _ _ (.mk _ _ _ _ _ rfl rfl) ?_ ?_) (.cons _ _ _ (.function _ _ ⟨['g'], default, []⟩ _ _ _ _ _
    (.mk _ _ _ _ _ rfl rfl) ?_ ?_) (.cons _ _ _ (.for_ _ _ _ _ _ _ _ _ _ _ (.mk _ _ _ _ _ rfl rfl) rfl rfl ?_ ?_ ?_) (.nil _)))
  · exact .cons _ _ (.symbol _ (exWord _ (by decide))) .nil
  · exact .cons _ _ _ (.list _ _ _ _ _ (fun a t h => by cases h; exact exWord _ (by decide))
      (.cons _ _ _ (.word _ _ (exWord _ (by decide))) (.cons _ _ _ (.variable _ _ ['x'] rfl (by decide)) (.nil _)))) (.nil _)
  · exact .cons _ _ (.symbol _ (exWord _ (by decide))) .nil
  · refine .cons _ _ _ (.applied _ _ _ _ _ (.mk _ _ _ _ _ rfl rfl) (Or.inr (Or.inl rfl))
      (.name _ ⟨['f'], default, []⟩ (exWord _ (by decide)) (Or.inl ⟨rfl, by decide⟩)) (.cons _ _ _ (.variable _ _ ['y'] rfl (by decide)) (.nil _)))
      (.cons _ _ _ (.call _ _ ['f'] _ (.mk _ _ _ _ _ rfl rfl) (Or.inl ⟨rfl, by decide⟩) (.cons _ _ _ (.call _ _ (str! "join") _
        (.mk _ _ _ _ _ rfl rfl) (Or.inr ⟨.join, by simp [selfContained], rfl⟩) (.cons _ _ _ (.string _ _) (.cons _ _ _
          (.variable _ _ ['y'] rfl (by decide)) (.nil _)))) (.nil _))) (.nil _))
  · exact .symbol _ (exWord _ (by decide))
  · exact .cons _ _ _ (.word _ _ (exWord _ (by decide))) (.cons _ _ _ (.word _ _ (exWord _ (by decide))) (.nil _))
  · exact .cons _ _ _ (.call _ _ ['g'] _ (.mk _ _ _ _ _ rfl rfl) (Or.inl ⟨rfl, by decide⟩) (.cons _ _ _ (.variable _ _ ['z'] rfl (by decide))
      (.cons _ _ _ (.word _ _ (exWord _ (by decide))) (.nil _)))) (.nil _)

/-- So its expansion finishes. -/
example : ∃ r t, Evals exExt exRanked exSt r t := C74_document exExt exExt_plain exRank 3 exRanked _ exSt_fair exRanked_tames

/-- C74: no definition of a macro by itself has a rank; `(%define (f) (%f)) (%f)` does not end. -/
theorem C74_recursion (ext : Ext) (s : St) : ∀ r t, ¬ Evals ext
    [exList [exSym (str! "%define"), exList [exSym ['f']], exList [exSym (str! "%f")]], exList [exSym (str! "%f")]] s r t := by
  have hloop : ∀ fuel (s : St), s.scope ['f'] = some { params := [], body := [exList [exSym (str! "%f")]] } →
      (run ext fuel (.node (exList [exSym (str! "%f")])) s).1 = .diverge := by
    intro fuel
    induction fuel using Nat.strongRecOn with
    | ind fuel ih =>
      intro s hs
      match fuel, ih with
      | 0, _ => rfl
      | 1, _ => rfl
      | g + 2, ih =>
        have h1 : run ext (g + 2) (.node (exList [exSym (str! "%f")])) s =
            M.inner (expandNodes (run ext g) [exList [exSym (str! "%f")]]) s := by
          show (M.lookup ['f'] >>= fun d => match d with
            | none => M.fail "Macro not found." _
            | some m => M.inner do
              bindList _ m.params []
              expandNodes (run ext g) m.body) s = _
          rw [M.bind_ok (M.lookup_def ['f'] s), hs]
          rfl
        rw [h1, expandNodes_one, M.inner_def]
        exact ih g (by omega) s hs
  rintro r t ⟨hr, fuel, hf⟩
  refine hr ?_
  have : (expandNodes (run ext fuel) [exList [exSym (str! "%define"), exList [exSym ['f']], exList [exSym (str! "%f")]],
      exList [exSym (str! "%f")]] s).1 = .diverge := by
    match fuel with
    | 0 => rfl
    | 1 => rfl
    | g + 2 =>
      have h1 : run ext (g + 2) (.node (exList [exSym (str! "%define"), exList [exSym ['f']], exList [exSym (str! "%f")]])) s =
          (.ok [], { s with scope := s.scope.insert ['f'] { params := [], body := [exList [exSym (str! "%f")]] } }) := rfl
      have h2 := hloop (g + 2) { s with scope := s.scope.insert ['f'] { params := [], body := [exList [exSym (str! "%f")]] } } rfl
      rw [show ∀ a b, [a, b] = [a] ++ [b] from fun _ _ => rfl, expandNodes_append, M.bind_ok (by rw [expandNodes_one]; exact h1)]
      rw [M.bind_def, expandNodes_one]
      generalize run ext (g + 2) _ _ = x at h2
      rcases x with ⟨y, z⟩
      cases h2
      rfl
  rw [hf] at this
  exact this

/-- `(%apply %x %x)`. -/
def exSelf : PNode := exList [exSym (str! "%apply"), exSym (str! "%x") [' '], exSym (str! "%x") [' ']]

/-- C74: a macro need not mention itself: `(%define (w x) (%apply %x %x)) (%apply w w)` does
not end, although `w` uses only `x` and `%apply`. -/
theorem C74_self_application (ext : Ext) (s : St) : ∀ r t, ¬ Evals ext
    [exList [exSym (str! "%define"), exList [exSym ['w'], exSym ['x']], exSelf],
      exList [exSym (str! "%apply"), exSym ['w'], exSym ['w']]] s r t := by
  have hloop : ∀ fuel (s : St) (call : PNode) (a : Node), a.value = ['w'] →
      s.scope ['w'] = some { params := [exSym ['x']], body := [exSelf] } →
      (run ext fuel (.invoke ['w'] call [.symbol a]) s).1 = .diverge := by
    intro fuel
    induction fuel using Nat.strongRecOn with
    | ind fuel ih =>
      intro s call a ha hs
      have hfree : MacroFree (.symbol a) := .symbol _ (by rw [ha]; simp)
      cases fuel with
      | zero => rfl
      | succ g =>
        show ((expandNodes (run ext g) [.symbol a] >>= fun vs => M.lookup ['w'] >>= fun d => match d with
            | none => M.fail "Macro not found." call.site
            | some m => M.inner (bindList call m.params vs >>= fun _ => expandNodes (run ext g) m.body)) s).1 = .diverge
        rcases known_or_diverges (macrosFree_evals ext [.symbol a] (.cons _ _ hfree .nil) s) g with h | h
        · exact bind_diverges h
        rw [M.bind_ok h, M.bind_ok (M.lookup_def ['w'] s), hs]
        show ((bindList call [exSym ['x']] [.symbol a] >>= fun _ => expandNodes (run ext g) [exSelf]) s).1 = .diverge
        have hb : bindList call [exSym ['x']] [.symbol a] s = (.ok (), { s with scope := s.scope.insert ['x'] (Macro.var [.symbol a]) }) := rfl
        rw [M.bind_ok hb, expandNodes_one]
        match g, ih with
        | 0, _ => rfl
        | 1, _ => rfl
        | g + 2, ih =>
          let s' : St := { s with scope := s.scope.insert ['x'] (Macro.var [.symbol a]) }
          show ((expandNodes (run ext g) [exSym (str! "%x"), exSym (str! "%x") [' ']] >>= fun vs =>
            arguments [mandatory 1 (.symbol [])] (some (.any [])) exSelf vs >>= fun p =>
            M.lift (p.posNode exSelf 1) >>= fun f => run ext g (.invoke f.value exSelf p.trailing)) s').1 = .diverge
          have hv : ∀ w, Evals ext [exSym (str! "%x") w] s' (.ok [.symbol { a with lw := w }]) s' := fun w =>
            evals_var (name := ['x']) (body := [.symbol a]) rfl rfl (macrosFree_evals ext [.symbol a] (.cons _ _ hfree .nil) s')
          rcases known_or_diverges ((hv []).cons (hv [' '])) g with h | h
          · exact bind_diverges h
          · rw [M.bind_ok h]
            have hg := ih g (by omega) s' exSelf { a with lw := [' '] } ha hs
            rw [← ha] at hg
            exact hg
  rintro r t ⟨hr, fuel, hf⟩
  refine hr ?_
  have : (expandNodes (run ext fuel) [exList [exSym (str! "%define"), exList [exSym ['w'], exSym ['x']], exSelf],
      exList [exSym (str! "%apply"), exSym ['w'], exSym ['w']]] s).1 = .diverge := by
    match fuel with
    | 0 => rfl
    | 1 => rfl
    | 2 => rfl
    | g + 3 =>
      have h1 : run ext (g + 3) (.node (exList [exSym (str! "%define"), exList [exSym ['w'], exSym ['x']], exSelf])) s =
          (.ok [], { s with scope := s.scope.insert ['w'] { params := [exSym ['x']], body := [exSelf] } }) := rfl
      have h2 := hloop (g + 1) { s with scope := s.scope.insert ['w'] { params := [exSym ['x']], body := [exSelf] } }
        (exList [exSym (str! "%apply"), exSym ['w'], exSym ['w']]) ⟨['w'], default, []⟩ rfl rfl
      rw [show ∀ a b, [a, b] = [a] ++ [b] from fun _ _ => rfl, expandNodes_append, M.bind_ok (by rw [expandNodes_one]; exact h1), expandNodes_one]
      exact bind_diverges h2
  rw [hf] at this
  exact this

end Seam
