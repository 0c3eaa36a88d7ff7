import Verif.Lemmas.Looks
import Verif.Lemmas.Get
import Verif.Props.Apply
import Verif.Props.More

/-!
# Which definitions make a difference (C98)

See Spec/Looks for runs that look up only certain names.
-/

namespace Seam
open Spec

/-- C98: the runs that look up allowed names only are runs of the expander. -/
theorem C98_same_run (ext : Ext) (allowed : Str → Bool) (ns : List PNode) (s t : St) (r : Res (List PNode))
    (h : LookEvals ext allowed ns s r t) : Evals ext ns s r t := look_evals h

/-- C98: an expansion depends on the definitions that it looks up only.  For every run there is a set of
names that it defines; from every other state with the same definitions for the names that are looked up
it has the same result, error or crash and logs the same lines, it gives the names it defines the same
meaning, and it leaves all other names as they are. -/
theorem C98_makes (ext : Ext) (allowed : Str → Bool) (ns : List PNode) (s s' : St) (r : Res (List PNode))
    (h : LookEvals ext allowed ns s r s') : ∃ defs, Makes ext allowed ns s r s' defs ∧
      ∀ x, allowed x = true → (defs x ↔ s'.scope x ≠ s.scope x) := look_makes h

/-- C98: every expansion that finishes without calling `%namespace` looks up finitely many names. -/
theorem C98_finite (ext : Ext) (ns : List PNode) (s t : St) (r : Res (List PNode)) (h : LookEvals ext (fun _ => true) ns s r t) :
    ∃ names : List Str, LookEvals ext (fun x => decide (x ∈ names)) ns s r t := look_finite h

/-- C98: the definition of a function that is not looked up can be deleted: without it the outcome and the
log are the same, and so are all definitions but that of the function. -/
theorem C98_unused (ext : Ext) (allowed : Str → Bool) (c : PNode) (f : Node) (ps body ns : List PNode) (si : Site) (e : Token) (w : Str)
    (s t : St) (r : Res (List PNode)) (hc : IsCall (str! "define") (.list (.symbol f :: ps) si e w :: body) c)
    (h1 : (restNames ps).length ≤ 1) (h2 : (kwRestNames ps).length ≤ 1) (hf : allowed f.value = false)
    (h : LookEvals ext allowed ns s r t) :
    ∃ m, Evals ext (c :: ns) s r { t with scope := fun x => if x = f.value then m else t.scope x } := by
  have hd := (C50_define_function ext c f ps body si e w s hc).1 ⟨h1, h2⟩
  have ha : AgreeOn allowed [] s { s with scope := s.scope.insert f.value { params := ps, body := body } } := by
    refine ⟨fun x hx => ?_, rfl, rfl, rfl, rfl⟩
    have : x ≠ f.value := by rintro rfl; rw [hf] at hx; cases hx
    simp [Scope.insert, this]
  obtain ⟨t', k1, k2, k3⟩ := look_frame h ha
  have hst : t' = { t with scope := fun x => if x = f.value then t'.scope f.value else t.scope x } := by
    rcases t' with ⟨sc, fr, lg, hs, od⟩
    obtain ⟨_, e1, e2, e3, e4⟩ := k2
    dsimp only at e1 e2 e3 e4 k3 ⊢
    subst e1 e2 e3 e4
    congr 1
    funext x
    by_cases hx : x = f.value
    · rw [if_pos hx, hx]
    · rw [if_neg hx]
      rcases k3 x with k | ⟨k, k'⟩
      · exact k
      · rw [k', k]; simp [Scope.insert, hx]
  refine ⟨t'.scope f.value, hst ▸ ?_⟩
  cases r with
  | ok out => exact hd.cons (look_evals k1)
  | _ => exact hd.cons_fail (look_evals k1) (by simp)

/-- C98: the definition of a function looks up nothing, and makes that definition only. -/
theorem C98_define (ext : Ext) (allowed : Str → Bool) (c : PNode) (f : Node) (ps body : List PNode) (si : Site) (e : Token) (w : Str)
    (s : St) (hc : IsCall (str! "define") (.list (.symbol f :: ps) si e w :: body) c)
    (h1 : (restNames ps).length ≤ 1) (h2 : (kwRestNames ps).length ≤ 1) :
    let t : St := { s with scope := s.scope.insert f.value { params := ps, body := body } }
    LookEvals ext allowed [c] s (.ok []) t ∧ Makes ext allowed [c] s (.ok []) t (· = f.value) := by
  refine ⟨look_define hc h1 h2 s, fun pre u hu => ⟨_, look_define hc h1 h2 u, ⟨fun x hx => ?_, hu.log, hu.fresh, hu.hashes, hu.order⟩,
    fun x => ⟨fun hx => ?_, fun hx => ?_⟩⟩⟩
  · simp only [Scope.insert]
    split
    · rfl
    · exact hu.scope x hx
  · simp [Scope.insert, hx]
  · simp [Scope.insert, hx]

/-- C98: two programs can be run in either order if neither looks up what the other defines, they do not
define the same name, and they log nothing, include nothing and go through no keyword arguments. -/
theorem C98_either_order (ext : Ext) (look1 look2 : Str → Bool) (def1 def2 : Str → Prop) (p q as bs : List PNode) (s s1 s2 : St)
    (h1 : LookEvals ext look1 p s (.ok as) s1) (h2 : LookEvals ext look2 q s (.ok bs) s2)
    (m1 : Makes ext look1 p s (.ok as) s1 def1) (m2 : Makes ext look2 q s (.ok bs) s2 def2)
    (n1 : ∀ x, def1 x → look2 x = false) (n2 : ∀ x, def2 x → look1 x = false) (n3 : ∀ x, def1 x → ¬ def2 x)
    (e1 : s1.log = s.log ∧ s1.fresh = s.fresh ∧ s1.hashes = s.hashes)
    (e2 : s2.log = s.log ∧ s2.fresh = s.fresh ∧ s2.hashes = s.hashes) :
    ∃ t, Evals ext (p ++ q) s (.ok (as ++ bs)) t ∧ Evals ext (q ++ p) s (.ok (bs ++ as)) t ∧
      ∀ x, (def1 x → t.scope x = s1.scope x) ∧ (def2 x → t.scope x = s2.scope x) := by
  have hss : ∀ A, AgreeOn A [] s s := fun A => ⟨fun _ _ => rfl, rfl, rfl, rfl, rfl⟩
  obtain ⟨u1, k1, k2, k3⟩ := m1 [] s (hss _)
  obtain ⟨_, rfl⟩ := k1.unique h1
  obtain ⟨u2, l1, l2, l3⟩ := m2 [] s (hss _)
  obtain ⟨_, rfl⟩ := l1.unique h2
  have o1 : u1.order = s.order := (evals_keeps advances_rel (look_evals h1)).2.2.2
  have o2 : u2.order = s.order := (evals_keeps advances_rel (look_evals h2)).2.2.2
  have a1 : AgreeOn look2 [] s u1 := by
    refine ⟨fun x hx => (k3 x).2 fun hd => ?_, by simpa using e1.1, e1.2.1, e1.2.2, o1⟩
    rw [n1 x hd] at hx; cases hx
  have a2 : AgreeOn look1 [] s u2 := by
    refine ⟨fun x hx => (l3 x).2 fun hd => ?_, by simpa using e2.1, e2.2.1, e2.2.2, o2⟩
    rw [n2 x hd] at hx; cases hx
  obtain ⟨v1, i1, i2, i3⟩ := m2 [] u1 a1
  obtain ⟨v2, j1, j2, j3⟩ := m1 [] u2 a2
  have hv : v1 = v2 := by
    have hsc : v1.scope = v2.scope := by
      funext x
      by_cases hd1 : def1 x
      · have hd2 := n3 x hd1
        rw [(i3 x).2 hd2, (j3 x).1 hd1]
      · by_cases hd2 : def2 x
        · rw [(i3 x).1 hd2, (j3 x).2 hd1]
        · rw [(i3 x).2 hd2, (j3 x).2 hd1, (k3 x).2 hd1, (l3 x).2 hd2]
    rcases v1 with ⟨sc, fr, lg, hs, od⟩
    rcases v2 with ⟨sc', fr', lg', hs', od'⟩
    dsimp only at hsc
    obtain ⟨_, c1, c2, c3, c4⟩ := i2
    obtain ⟨_, d1, d2, d3, d4⟩ := j2
    dsimp only at c1 c2 c3 c4 d1 d2 d3 d4
    subst hsc
    rw [c1, c2, c3, c4, d1, d2, d3, d4, e1.1, e1.2.1, e1.2.2, e2.1, e2.2.1, e2.2.2, o1, o2]
  refine ⟨v1, (look_evals h1).append (look_evals i1), hv ▸ (look_evals h2).append (look_evals j1), fun x => ⟨fun hd => ?_, fun hd => (i3 x).1 hd⟩⟩
  rw [(i3 x).2 (n3 x hd)]

/-- A state in which `y` is `1` and `f` a function of `a` that yields `(b %a %y)`. -/
def exKnown : St := exWith ['y'] (exSym ['1']) { exSt with
  scope := exSt.scope.insert ['f'] ⟨[exSym ['a']], [exList [exSym ['b'], exSym (str! "%a"), exSym (str! "%y")]]⟩ }

/-- The program `(%define x %y) (%f %x)`. -/
def exLooking : List PNode := [exList [exSym (str! "%define"), exSym ['x'], exSym (str! "%y")], exList [exSym (str! "%f"), exSym (str! "%x")]]

/-- The names that it looks up. -/
def exLooks (x : Str) : Bool := x == ['x'] || x == ['y'] || x == ['f'] || x == ['a']

example : ∃ out t, LookEvals exExt exLooks exLooking exKnown (.ok out) t ∧ textNodes out = str! "(b11)" := by
  obtain ⟨out, t, h1, h2⟩ := look_ok_of (ext := exExt) (A := exLooks) (ns := exLooking) (s := exKnown)
    20 (fun out _ => decide (textNodes out = str! "(b11)")) (by decide +kernel)
  exact ⟨out, t, h1, of_decide_eq_true h2⟩

/-- With another definition of `z` the two states agree. -/
example : AgreeOn exLooks [] exKnown (exWith ['z'] (exSym ['2']) exKnown) := by
  refine ⟨fun x hx => ?_, rfl, rfl, rfl, rfl⟩
  have : x ≠ ['z'] := by rintro rfl; exact absurd hx (by decide)
  simp [exWith, Scope.insert, this]

/-- A run that ends in an error: `(%f)` looks up `f` only, whose parameter is missing. -/
example : ∃ e t, LookEvals exExt (· == ['f']) [exList [exSym (str! "%f")]] exKnown (.err e) t := by
  have h : (expandNodes (lookRun exExt (· == ['f']) 9) [exList [exSym (str! "%f")]] exKnown).1.errP (fun _ => true) = true := by
    decide +kernel
  obtain ⟨e, h1, _⟩ := Res.errP_elim h
  exact ⟨e, _, by simp, 9, Prod.ext h1 rfl⟩

/-- `(%define (g) 1)` and `(%define (h) %g)`: `h` looks up `g` when it is called, not when it is defined, so the
two definitions can be written in either order. -/
def exDefineG : PNode := exList [exSym (str! "%define"), exList [exSym ['g']], exSym ['1']]
def exDefineH : PNode := exList [exSym (str! "%define"), exList [exSym ['h']], exSym (str! "%g")]

example : ∃ t, Evals exExt ([exDefineG] ++ [exDefineH]) exSt (.ok []) t ∧ Evals exExt ([exDefineH] ++ [exDefineG]) exSt (.ok []) t ∧
    (t.scope ['g']).isSome ∧ (t.scope ['h']).isSome := by
  have hg := C98_define exExt (fun _ => false) exDefineG _ [] _ _ _ _ exSt (.mk _ _ _ _ _ rfl rfl) (by decide) (by decide)
  have hh := C98_define exExt (fun _ => false) exDefineH _ [] _ _ _ _ exSt (.mk _ _ _ _ _ rfl rfl) (by decide) (by decide)
  obtain ⟨t, h1, h2, h3⟩ := C98_either_order exExt _ _ _ _ _ _ _ _ exSt _ _ hg.1 hh.1 hg.2 hh.2 (fun _ _ => rfl) (fun _ _ => rfl)
    (by rintro x rfl; decide) ⟨rfl, rfl, rfl⟩ ⟨rfl, rfl, rfl⟩
  exact ⟨t, h1, h2, by rw [(h3 ['g']).1 rfl]; rfl, by rw [(h3 ['h']).2 rfl]; rfl⟩

/-- `%namespace` does depend on definitions that are not mentioned: it exports them all. -/
example : (∃ out t, Evals exExt [exList [exSym (str! "%namespace"), exSym ['n']]] exKnown (.ok out) t ∧ (t.scope (str! "n/y")).isSome = true) ∧
    ∃ out t, Evals exExt [exList [exSym (str! "%namespace"), exSym ['n']]] exSt (.ok out) t ∧ (t.scope (str! "n/y")).isSome = false := by
  constructor
  · obtain ⟨t, h⟩ := evals_ok_of (ext := exExt) (ns := [exList [exSym (str! "%namespace"), exSym ['n']]]) (out := []) (s := exKnown)
      20 (fun t => (t.scope (str! "n/y")).isSome) (by decide +kernel)
    exact ⟨_, t, h⟩
  · obtain ⟨t, h1, h2⟩ := evals_ok_of (ext := exExt) (ns := [exList [exSym (str! "%namespace"), exSym ['n']]]) (out := []) (s := exSt)
      20 (fun t => !(t.scope (str! "n/y")).isSome) (by decide +kernel)
    exact ⟨_, t, h1, by simpa using h2⟩

end Seam
