import Verif.Lemmas.Cases
import Verif.Lemmas.Include
import Verif.Props.Lists

/-!
# Properties of `%include` and `%embed` (C52)

`u` is the state after the expansion of the arguments. `includeFiles`, `embedFiles` and
`FirstRead` (Spec/Builtins) say which file is taken.
-/

namespace Seam
open Spec

/-- C52: `%include` reads the first file found and is then the expansion of its contents in the
current scope (so that its definitions stay); the first node gets the whitespace before the call. -/
theorem C52_include (ext : Ext) (c n : PNode) (args tree : List PNode) (a : Node) (file code : Str) (s u t : St)
    (r : Res (List PNode)) (hc : IsCall (str! "include") args c) (ha : Evals ext args s (.ok [n]) u) (hn : Literal n a)
    (hf : FirstRead ext (includeFiles ext a.value) file code)
    (hp : parse ext.unescape { path := file, id := u.fresh, code := code } = .ok tree) :
    Evals ext [c] s r t ↔ ∃ r', Evals ext tree { u with fresh := u.fresh + 1 } r' t ∧ r = spacedRes c.lw r' := by
  rw [include_found hc ha hn hf, runs_includeTree hp, runs_bind (Mon.nodes tree) fun _ => Mon.const _]
  constructor
  · rintro ⟨q, v, h1, h2⟩
    rw [runs_nodes] at h1
    cases q with
    | ok as =>
      rw [then_ok] at h2
      obtain ⟨rfl, rfl⟩ := (runs_pure (ext := ext)).1 h2
      exact ⟨_, h1, by rw [withFirstLw_eq]; rfl⟩
    | err e => obtain ⟨rfl, rfl⟩ := h2; exact ⟨_, h1, rfl⟩
    | panic => obtain ⟨rfl, rfl⟩ := h2; exact ⟨_, h1, rfl⟩
    | diverge => exact h2.elim
  · rintro ⟨r', h1, rfl⟩
    refine ⟨r', t, runs_nodes.2 h1, ?_⟩
    cases r' with
    | ok as => rw [then_ok, runs_pure, withFirstLw_eq]; exact ⟨rfl, rfl⟩
    | err e => exact ⟨rfl, rfl⟩
    | panic => exact ⟨rfl, rfl⟩
    | diverge => exact absurd rfl h1.1

/-- C52: if no file is found it is an error. -/
theorem C52_not_found (ext : Ext) (c n : PNode) (args : List PNode) (a : Node) (s u : St)
    (hc : IsCall (str! "include") args c) (ha : Evals ext args s (.ok [n]) u) (hn : Literal n a)
    (hf : ∀ f ∈ includeFiles ext a.value, ext.readFile f = none) : ∃ e, Evals ext [c] s (.err e) u := by
  refine ⟨expErr "Could not read included file." a.site, (evals_include hc ha).2 ?_⟩
  unfold includeArgs
  simp only [literal_atomic hn, findInclude_none hf]
  exact runs_const.2 ⟨nofun, rfl⟩

/-- C52: some file is taken unless none can be read. -/
theorem C52_found (ext : Ext) (files : List Str) :
    (∃ file code, FirstRead ext files file code) ∨ ∀ f ∈ files, ext.readFile f = none := by
  induction files with
  | nil => exact Or.inr (by simp)
  | cons f files ih =>
    cases h : ext.readFile f with
    | some code => exact Or.inl ⟨f, code, firstRead_here h⟩
    | none =>
      rcases ih with ⟨file, code, h'⟩ | h'
      · exact Or.inl ⟨file, code, (firstRead_cons h).2 h'⟩
      · refine Or.inr fun g hg => ?_
        rcases List.mem_cons.1 hg with rfl | hg
        · exact h
        · exact h' g hg

/-- C52: a directory that comes earlier wins, also if it has only the `.sex` file. -/
theorem C52_earlier (ext : Ext) (dir path code : Str) (before after : List Str) (hi : ext.includes = before ++ dir :: after)
    (hb : ∀ d ∈ before, ext.readFile (ext.join d path) = none ∧ ∀ p, ext.sexPath (ext.join d path) = some p → ext.readFile p = none) :
    (ext.readFile (ext.join dir path) = some code → FirstRead ext (includeFiles ext path) (ext.join dir path) code) ∧
    (∀ p, ext.readFile (ext.join dir path) = none → ext.sexPath (ext.join dir path) = some p → ext.readFile p = some code →
      FirstRead ext (includeFiles ext path) p code) := by
  have hb' : ∀ q ∈ before.flatMap fun dir => ext.join dir path :: (ext.sexPath (ext.join dir path)).toList, ext.readFile q = none := by
    intro q hq
    obtain ⟨d, hd, hq⟩ := List.mem_flatMap.1 hq
    rcases List.mem_cons.1 hq with rfl | hq
    · exact (hb d hd).1
    · exact (hb d hd).2 q (by simpa using hq)
  unfold includeFiles
  rw [hi, List.flatMap_append, List.flatMap_cons, List.cons_append]
  constructor
  · intro h
    exact ⟨_, _, rfl, hb', h⟩
  · intro p h1 h2 h3
    rw [h2]
    refine ⟨(before.flatMap fun dir => ext.join dir path :: (ext.sexPath (ext.join dir path)).toList) ++ [ext.join dir path],
      _, by rw [List.append_assoc]; rfl, fun q hq => ?_, h3⟩
    rcases List.mem_append.1 hq with hq | hq
    · exact hb' q hq
    · rw [List.mem_singleton.1 hq]; exact h1

/-- C52: a syntax error in the file is an error. -/
theorem C52_syntax_error (ext : Ext) (c n : PNode) (args : List PNode) (a : Node) (file code : Str) (er : Err) (s u : St)
    (hc : IsCall (str! "include") args c) (ha : Evals ext args s (.ok [n]) u) (hn : Literal n a)
    (hf : FirstRead ext (includeFiles ext a.value) file code)
    (hp : parse ext.unescape { path := file, id := u.fresh, code := code } = .err er) :
    ∃ e, Evals ext [c] s (.err e) { u with fresh := u.fresh + 1 } := by
  refine ⟨_, (include_found hc ha hn hf).2 ((runs_includeTree hp).2 (runs_const.2 ⟨nofun, rfl⟩))⟩

/-- C52: anything but one literal is an error. -/
theorem C52_rejects (ext : Ext) (name : Str) (hname : name = str! "include" ∨ name = str! "embed") (c : PNode)
    (args vs : List PNode) (s u : St) (hc : IsCall name args c) (ha : Evals ext args s (.ok vs) u)
    (hn : ¬ ∃ n a, vs = [n] ∧ Literal n a) : ∃ e, Evals ext [c] s (.err e) u := by
  rcases hname with rfl | rfl
  · exact include_rejects hc ha hn
  · exact embed_rejects hc ha hn

/-- C52, for `%embed`: the contents of the first file found as a string, or an error. -/
theorem C52_embed (ext : Ext) (c n : PNode) (args : List PNode) (a : Node) (s u t : St) (r : Res (List PNode))
    (hc : IsCall (str! "embed") args c) (ha : Evals ext args s (.ok [n]) u) (hn : Literal n a) :
    (∀ file code, FirstRead ext (embedFiles ext a.value) file code →
      (Evals ext [c] s r t ↔ r = .ok [stringAt c code] ∧ t = u)) ∧
    ((∀ f ∈ embedFiles ext a.value, ext.readFile f = none) → ∃ e, Evals ext [c] s (.err e) u) := by
  constructor
  · intro file code hf
    rw [evals_embed hc ha]
    simp only [embedArgs, literal_atomic hn, findEmbed_iff.2 ⟨file, hf⟩]
    show _ ∧ (Res.ok [stringAt c code], u) = (r, t) ↔ _
    rw [Prod.mk.injEq]
    constructor
    · rintro ⟨_, rfl, rfl⟩; exact ⟨rfl, rfl⟩
    · rintro ⟨rfl, rfl⟩; exact ⟨nofun, rfl, rfl⟩
  · intro h
    refine ⟨expErr "Could not read embedded file." a.site, (evals_embed hc ha).2 ⟨nofun, ?_⟩⟩
    simp only [embedArgs, literal_atomic hn, findEmbed_none h]
    rfl

/-- Directories `a` and `b`; there is only `b/x.sex`, which contains `(%define v 1)p`. -/
def exFiles : Ext := { exExt with
  includes := [['a'], ['b']]
  join := fun d p => d ++ '/' :: p
  sexPath := fun p => some (p ++ str! ".sex")
  readFile := fun p => if p = str! "b/x.sex" then some (str! "(%define v 1)p") else none }

example : FirstRead exFiles (includeFiles exFiles ['x']) (str! "b/x.sex") (str! "(%define v 1)p") :=
  ⟨[str! "a/x", str! "a/x.sex", str! "b/x"], [], by decide, by decide, by decide⟩
/-- `(%include x)%v`. -/
example : ∃ t, Evals exFiles [exList [exSym (str! "%include"), exSym ['x']]] exSt
    (.ok [.symbol ⟨['p'], ⟨str! "b/x.sex", 2, str! "(%define v 1)p", 1, 13, 13, 1⟩, []⟩]) t ∧ (t.scope ['v']).isSome = true :=
  evals_ok_of 10 (fun t => (t.scope ['v']).isSome) (by decide +kernel)
example : ∀ f ∈ includeFiles exFiles ['y'], exFiles.readFile f = none := by decide

/-- The theorems on `(%include x)`, `(%include y)`, `(%include ())` and `(%embed x.sex)`. -/
theorem exFiles_first : FirstRead exFiles (includeFiles exFiles ['x']) (str! "b/x.sex") (str! "(%define v 1)p") :=
  ⟨[str! "a/x", str! "a/x.sex", str! "b/x"], [], by decide, by decide, by decide⟩
example (s t : St) (r : Res (List PNode)) (tree : List PNode)
    (h : parse exFiles.unescape { path := str! "b/x.sex", id := s.fresh, code := str! "(%define v 1)p" } = .ok tree) :=
  C52_include exFiles (exList [exSym (str! "%include"), exSym ['x']]) (exSym ['x']) _ tree _ _ _ s s t r (.mk _ _ _ _ _ rfl rfl)
    (plain_evals _ _ _ rfl) (.symbol _) exFiles_first h
example (s : St) := C52_not_found exFiles (exList [exSym (str! "%include"), exSym ['y']]) (exSym ['y']) _ _ s s (.mk _ _ _ _ _ rfl rfl)
  (plain_evals _ _ _ rfl) (.symbol _) (by decide)
example := (C52_earlier exFiles ['b'] ['x'] (str! "(%define v 1)p") [['a']] [] rfl (by
  intro d hd
  simp at hd
  subst hd
  exact ⟨by decide, fun p hp => by cases hp; decide⟩)).2 (str! "b/x.sex") (by decide) rfl (by decide)
/-- A directory with a file that is not well-formed. -/
def exBadFile : Ext := { exFiles with readFile := fun p => if p = str! "a/x" then some (str! "(") else none }
example : (parse exBadFile.unescape { path := str! "a/x", id := 1, code := str! "(" }).errP (fun _ => true) = true := by decide +kernel
example (s : St) (er : Err) (h : parse exBadFile.unescape { path := str! "a/x", id := s.fresh, code := str! "(" } = .err er) :=
  C52_syntax_error exBadFile (exList [exSym (str! "%include"), exSym ['x']]) (exSym ['x']) _ _ _ _ er s s (.mk _ _ _ _ _ rfl rfl)
    (plain_evals _ _ _ rfl) (.symbol _) ⟨[], _, rfl, by simp, by decide⟩ h
example (s : St) := C52_rejects exFiles (str! "include") (.inl rfl) (exList [exSym (str! "%include"), exList []]) _ [exList []] s s
  (.mk _ _ _ _ _ rfl rfl) (plain_evals _ _ _ rfl) (by
    rintro ⟨n, a, h, hl⟩
    simp at h
    rw [← h] at hl
    cases hl)
example (s t : St) (r : Res (List PNode)) := C52_embed exFiles (exList [exSym (str! "%embed"), exSym (str! "x.sex")])
  (exSym (str! "x.sex")) _ _ s s t r (.mk _ _ _ _ _ rfl rfl) (plain_evals _ _ _ rfl) (.symbol _)

end Seam
