import Verif.Lemmas.Guard
import Verif.Props.Circle

/-! C115: include guards work. -/

namespace Seam
open Spec

/-- C115: including a guarded file when its guard is not defined has the same outcome as its content, in a state in
which the guard is defined and otherwise nothing has changed. -/
theorem C115_first (ext : Ext) (F : GuardFile) (hF : Guarded ext F) (c : PNode) (hc : Includes F.path c) (s : St)
    (hs : s.scope F.guard = none) : ∃ body s', Alike F.body body ∧ (s'.scope F.guard).isSome ∧
      (∀ y, y ≠ F.guard → s'.scope y = s.scope y) ∧ s'.log = s.log ∧
      ∀ r t, Evals ext [c] s r t ↔ ∃ r', Evals ext body s' r' t ∧ r = spacedRes c.lw r' := guarded_first hF hc hs

/-- C115: including it when the guard is defined is its replacement text, and nothing else happens. -/
theorem C115_again (ext : Ext) (F : GuardFile) (hF : Guarded ext F) (c : PNode) (hc : Includes F.path c) (s : St)
    (hs : (s.scope F.guard).isSome) : ∃ si, Evals ext [c] s (.ok [.string ⟨F.skip, si, c.lw⟩]) { s with fresh := s.fresh + 1 } :=
  guarded_again hF hc hs

/-- C115: whatever the content of the file is and whatever comes in between: a second inclusion adds the replacement text, no more. -/
theorem C115_twice (ext : Ext) (F : GuardFile) (hF : Guarded ext F) (c c' : PNode) (hc : Includes F.path c) (hc' : Includes F.path c')
    (mid out : List PNode) (s t : St) (h : Evals ext (c :: mid) s (.ok out) t) :
    ∃ si, Evals ext (c :: mid ++ [c']) s (.ok (out ++ [.string ⟨F.skip, si, c'.lw⟩])) { t with fresh := t.fresh + 1 } := by
  have hd : (t.scope F.guard).isSome := by
    rcases Spec.Evals.append_inv (ns := [c]) h with ⟨as, u, r', h1, h2, h3⟩ | ⟨_, h2⟩
    · have hu : ∃ m, u.scope F.guard = some m := by
        cases hs : s.scope F.guard with
        | some m => exact C37_stays_defined ext [c] s u _ F.guard h1 ⟨m, hs⟩
        | none =>
          obtain ⟨body, s', g1, g2, g3, g4, g5⟩ := guarded_first hF hc hs
          obtain ⟨r0, g6, _⟩ := (g5 _ _).1 h1
          exact C37_stays_defined ext body s' u _ F.guard g6 (Option.isSome_iff_exists.1 g2)
      exact Option.isSome_iff_exists.2 (C37_stays_defined ext mid u t _ F.guard h2 hu)
    · exact absurd rfl (h2 _)
  obtain ⟨si, h1⟩ := guarded_again hF hc' hd
  exact ⟨si, h.append h1⟩

/-- C115: guarded files may include each other in circles.  If the content of each of finitely many guarded files is made of nodes
without macros and of inclusions of these files, then every document made of the same is expanded to an end,
without an error, and the result is given by `Walk`: each file is taken once, where it is first included, and the
replacement text stands for the other inclusions.  Nothing is printed and no other names are defined. -/
theorem C115_circle (ext : Ext) (files : List GuardFile) (hf : ∀ F ∈ files, Guarded ext F) (hb : ∀ F ∈ files, OnlyIncludess files F.body)
    (ns : List PNode) (hn : OnlyIncludess files ns) (seen : List Str) (s : St) (hs : Knows files seen s) :
    ∃ out seen' out' t, Walk files seen ns out seen' ∧ Evals ext ns s (.ok out') t ∧ Alike out out' ∧ Knows files seen' t ∧
      t.log = s.log ∧ ∀ y, (∀ F ∈ files, F.guard ≠ y) → t.scope y = s.scope y := by
  obtain ⟨out, seen', h1⟩ := walks hb _ hn seen (Nat.le_refl _)
  obtain ⟨out', t, h2, h3, h4, h5, h6⟩ := walk_evals hf h1 (alike_refl ns) hs
  exact ⟨out, seen', out', t, h1, h2, h3, h4, h5, h6⟩

/-- C115: in such a walk no file is taken twice, and none whose guard was defined before. -/
theorem C115_once (files : List GuardFile) (seen seen' : List Str) (ns out : List PNode) (h : Walk files seen ns out seen') :
    ∃ taken, seen' = taken ++ seen ∧ taken.Nodup ∧ ∀ g ∈ taken, g ∉ seen ∧ ∃ F ∈ files, F.guard = g := walk_seen h

/-- Two guarded files that include each other: `./a` is `(%ifdef A "" (%do (%define A 1) x (l (%include b))))`, `./b` is
`(%ifdef B "" (%do (%define B 1) y (%include a)))`. -/
def exGuards : Ext := { exExt with
  readFile := fun p =>
    if p = str! "./a" then some (str! "(%ifdef A \"\" (%do (%define A 1) x (l (%include b))))")
    else if p = str! "./b" then some (str! "(%ifdef B \"\" (%do (%define B 1) y (%include a)))")
    else none }

/-- `(%include f)`. -/
def exIncludes (f : Str) : PNode := exList [exSym (str! "%include"), exSym f [' ']] [' ']

/-- What is in the files. -/
def exGuardA : GuardFile := ⟨['a'], ['A'], [], [exSym ['x'] [' '], exList [exSym ['l'], exIncludes ['b']] [' ']]⟩
@[inherit_doc exGuardA]
def exGuardB : GuardFile := ⟨['b'], ['B'], [], [exSym ['y'] [' '], exIncludes ['a']]⟩

/-- `(%ifdef guard "skip" (%do (%define guard 1) body...))`. -/
def exGuardText (F : GuardFile) : PNode :=
  exList [exSym (str! "%ifdef"), exSym F.guard [' '], .string ⟨F.skip, default, [' ']⟩,
    exList (exSym (str! "%do") :: exList [exSym (str! "%define"), exSym F.guard [' '], .number ⟨['1'], default, [' ']⟩] [' '] :: F.body) [' ']]

theorem exGuarded_of (F : GuardFile) (file code : Str) (h1 : FirstRead exGuards (includeFiles exGuards F.path) file code)
    (h2 : (parse exGuards.unescape { path := file, id := 1, code := code }).okP (fun tree => PNode.sames (unplaceds tree) (unplaceds [exGuardText F])) = true) :
    Guarded exGuards F := by
  obtain ⟨tree, g1, g2⟩ := Res.okP_elim h2
  have g3 : Alike [exGuardText F] tree := unplaceds_moved (PNode.sames_sound _ _ g2).symm
  cases g3 with
  | cons _ c _ _ m1 m2 =>
    cases m2
    obtain ⟨args, k1, k2⟩ := isCall_moved m1 (name := str! "ifdef") (.mk _ _ _ _ _ rfl rfl)
    cases k2 with
    | cons _ cond' _ _ m2 m3 =>
      cases m3 with
      | cons _ y _ _ m4 m5 =>
        cases m5 with
        | cons _ no' _ _ m6 m7 =>
          cases m7
          cases m4 with
          | string _ yes' m4 =>
            obtain ⟨b, l1, l2⟩ := literal_moved m2 (.symbol _)
            obtain ⟨args, k3, k4⟩ := isCall_moved m6 (name := str! "do") (.mk _ _ _ _ _ rfl rfl)
            cases k4 with
            | cons _ d' _ body m8 m9 =>
              obtain ⟨args, k5, k6⟩ := isCall_moved m8 (name := str! "define") (.mk _ _ _ _ _ rfl rfl)
              cases k6 with
              | cons _ z _ value' m10 m11 =>
                cases m10 with
                | symbol _ x' m10 =>
                  exact ⟨file, code, h1, c, cond', no', d', b, yes', x', value', body, g1, k1, l1, l2, m4.1.symm, k3, m9, k5, m10.1.symm,
                    macrosFree_moved m11 (.cons _ _ (.number _) .nil)⟩

theorem exIncludes_ok (f : Str) (h : f.head? ≠ some '%') : Includes f (exIncludes f) :=
  ⟨exSym f, ⟨f, default, []⟩, .mk _ _ _ _ _ rfl rfl, .symbol _, .symbol _ (exWord _ h), rfl⟩

theorem exGuards_guarded : ∀ F ∈ [exGuardA, exGuardB], Guarded exGuards F := by
  intro F hF
  simp only [List.mem_cons, List.not_mem_nil, or_false] at hF
  rcases hF with rfl | rfl
  · exact exGuarded_of _ (str! "./a") _ ((firstRead_head rfl).2 ⟨rfl, rfl⟩) (by decide +kernel)
  · exact exGuarded_of _ (str! "./b") _ ((firstRead_head rfl).2 ⟨rfl, rfl⟩) (by decide +kernel)

theorem exGuards_bodies : ∀ F ∈ [exGuardA, exGuardB], OnlyIncludess [exGuardA, exGuardB] F.body := by
  intro F hF
  simp only [List.mem_cons, List.not_mem_nil, or_false] at hF
  rcases hF with rfl | rfl
  · exact .cons _ _ (.plain _ (.symbol _ (exWord _ (by decide)))) (.cons _ _ (.list _ _ _ _ (by
      intro a t name e; cases e; exact exWord _ (by decide) name)
      (.cons _ _ (.plain _ (.symbol _ (exWord _ (by decide)))) (.cons _ _ (.include_ exGuardB _ (by simp) (exIncludes_ok _ (by decide))) .nil))) .nil)
  · exact .cons _ _ (.plain _ (.symbol _ (exWord _ (by decide)))) (.cons _ _ (.include_ exGuardA _ (by simp) (exIncludes_ok _ (by decide))) .nil)

example := C115_first exGuards exGuardA (exGuards_guarded _ (by simp)) _ (exIncludes_ok _ (by decide)) exSt rfl
example (s : St) (h : (s.scope ['B']).isSome) := C115_again exGuards exGuardB (exGuards_guarded _ (by simp)) _ (exIncludes_ok _ (by decide)) s h

/-- `(%include a) (%include b)`: both files are taken once. -/
example : ∃ out seen' out' t, Walk [exGuardA, exGuardB] [] [exIncludes ['a'], exIncludes ['b']] out seen' ∧
    Evals exGuards [exIncludes ['a'], exIncludes ['b']] exSt (.ok out') t ∧ Alike out out' ∧ Knows [exGuardA, exGuardB] seen' t ∧
    t.log = exSt.log ∧ ∀ y, (∀ F ∈ [exGuardA, exGuardB], F.guard ≠ y) → t.scope y = exSt.scope y :=
  C115_circle exGuards _ exGuards_guarded exGuards_bodies _ (.cons _ _ (.include_ exGuardA _ (by simp) (exIncludes_ok _ (by decide)))
    (.cons _ _ (.include_ exGuardB _ (by simp) (exIncludes_ok _ (by decide))) .nil)) [] exSt (by intro F hF; simp [exSt, St.init, Scope.empty])

example : ∃ out t, Evals exGuards [exIncludes ['a'], exIncludes ['b']] exSt (.ok out) t ∧ textNodes out = str! " x (l y ) " := by
  obtain ⟨out, t, h1, h2⟩ := evals_some_of (ext := exGuards) (ns := [exIncludes ['a'], exIncludes ['b']]) (s := exSt)
    30 (fun out => decide (textNodes out = str! " x (l y ) ")) (by decide +kernel)
  exact ⟨out, t, h1, of_decide_eq_true h2⟩

example (out : List PNode) (t : St) (h : Evals exGuards [exIncludes ['a'], exIncludes ['b']] exSt (.ok out) t) :=
  C115_twice exGuards exGuardA (exGuards_guarded _ (by simp)) _ _ (exIncludes_ok ['a'] (by decide)) (exIncludes_ok ['a'] (by decide))
    [exIncludes ['b']] out exSt t h
example (out : List PNode) (seen' : List Str) (h : Walk [exGuardA, exGuardB] [] [exIncludes ['a']] out seen') := C115_once _ _ _ _ _ h

/-- A single guarded file. -/
def exGuardOne : Ext := { exExt with includes := [['.']], readFile := fun p => if p = str! "./c" then some (str! "(%ifdef C z (%do (%define C 1) y))") else none }

/-- C115 is about inclusions in one scope: the definitions made in the body of `%for` are gone after it (C36), the guard too, so that
`(%for i in (1) (%include c)) (%include c)` takes the file twice. -/
theorem C115_inner_scope : ∃ out t, Evals exGuardOne [exList [exSym (str! "%for"), exSym ['i'], exSym (str! "in"),
      exList [exNum ['1']], exIncludes ['c']], exIncludes ['c']] exSt (.ok out) t ∧ textNodes out = str! " y y" := by
  obtain ⟨out, t, h1, h2⟩ := evals_some_of (ext := exGuardOne) (ns := [exList [exSym (str! "%for"), exSym ['i'], exSym (str! "in"),
      exList [exNum ['1']], exIncludes ['c']], exIncludes ['c']]) (s := exSt)
    12 (fun out => decide (textNodes out = str! " y y")) (by decide +kernel)
  exact ⟨out, t, h1, of_decide_eq_true h2⟩

end Seam
