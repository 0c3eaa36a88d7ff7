import Verif.Lemmas.Lists

/-! `%include`, `%embed`. -/

namespace Seam
open Spec

theorem firstRead_here {ext : Ext} {file code : Str} {files : List Str} (h : ext.readFile file = some code) :
    FirstRead ext (file :: files) file code := ⟨[], files, rfl, by simp, h⟩

theorem firstRead_cons {ext : Ext} {q file code : Str} {files : List Str} (hq : ext.readFile q = none) :
    FirstRead ext (q :: files) file code ↔ FirstRead ext files file code := by
  constructor
  · rintro ⟨before, after, h1, h2, h3⟩
    cases before with
    | nil => simp only [List.nil_append, List.cons.injEq] at h1; obtain ⟨rfl, _⟩ := h1; rw [hq] at h3; cases h3
    | cons b before =>
      simp only [List.cons_append, List.cons.injEq] at h1
      exact ⟨before, after, h1.2, fun x hx => h2 x (by simp [hx]), h3⟩
  · rintro ⟨before, after, h1, h2, h3⟩
    refine ⟨q :: before, after, by simp [h1], fun x hx => ?_, h3⟩
    rcases List.mem_cons.1 hx with rfl | hx
    · exact hq
    · exact h2 x hx

theorem firstRead_head {ext : Ext} {q file code code' : Str} {files : List Str} (hq : ext.readFile q = some code') :
    FirstRead ext (q :: files) file code ↔ file = q ∧ code = code' := by
  constructor
  · rintro ⟨before, after, h1, h2, h3⟩
    cases before with
    | nil =>
      simp only [List.nil_append, List.cons.injEq] at h1
      obtain ⟨rfl, _⟩ := h1
      rw [hq] at h3
      exact ⟨rfl, (Option.some.inj h3).symm⟩
    | cons b before =>
      simp only [List.cons_append, List.cons.injEq] at h1
      have := h2 b (by simp)
      rw [← h1.1, hq] at this
      cases this
  · rintro ⟨rfl, rfl⟩; exact firstRead_here hq

theorem findInclude_iff {ext : Ext} {path file code : Str} : ∀ {dirs : List Str},
    findInclude ext path dirs = some (file, code) ↔
      FirstRead ext (dirs.flatMap fun dir => ext.join dir path :: (ext.sexPath (ext.join dir path)).toList) file code
  | [] => by
    constructor
    · intro h; cases h
    · rintro ⟨before, _, h, _⟩; cases before <;> cases h
  | dir :: dirs => by
    have ih := findInclude_iff (ext := ext) (path := path) (file := file) (code := code) (dirs := dirs)
    simp only [findInclude, List.flatMap_cons, List.cons_append]
    cases h1 : ext.readFile (ext.join dir path) with
    | some c => simp only [firstRead_head h1, Option.some.injEq, Prod.mk.injEq, eq_comm]
    | none =>
      rw [firstRead_cons h1]
      cases h2 : ext.sexPath (ext.join dir path) with
      | none => simpa using ih
      | some p =>
        simp only [Option.toList_some, List.cons_append, List.nil_append]
        cases h3 : ext.readFile p with
        | some c => simp only [firstRead_head h3, Option.some.injEq, Prod.mk.injEq, eq_comm]
        | none => rw [firstRead_cons h3]; exact ih

theorem findEmbed_iff {ext : Ext} {path code : Str} : ∀ {dirs : List Str},
    findEmbed ext path dirs = some code ↔ ∃ file, FirstRead ext (dirs.map fun dir => ext.join dir path) file code
  | [] => by
    constructor
    · intro h; cases h
    · rintro ⟨_, before, _, h, _⟩; cases before <;> cases h
  | dir :: dirs => by
    have ih := findEmbed_iff (ext := ext) (path := path) (code := code) (dirs := dirs)
    simp only [findEmbed, List.map_cons]
    cases h1 : ext.readFile (ext.join dir path) with
    | some c => simp only [firstRead_head h1, Option.some.injEq, exists_eq_left, eq_comm]
    | none => simpa only [firstRead_cons h1] using ih

theorem firstRead_none {ext : Ext} {files : List Str} (h : ∀ f ∈ files, ext.readFile f = none) (file code : Str) :
    ¬ FirstRead ext files file code := by
  rintro ⟨before, after, rfl, _, h3⟩
  rw [h file (by simp)] at h3
  cases h3

theorem findInclude_none {ext : Ext} {path : Str} (h : ∀ f ∈ includeFiles ext path, ext.readFile f = none) :
    findInclude ext path ext.includes = none := by
  cases hf : findInclude ext path ext.includes with
  | none => rfl
  | some x => exact absurd (findInclude_iff.1 hf) (firstRead_none h _ _)

theorem findEmbed_none {ext : Ext} {path : Str} (h : ∀ f ∈ embedFiles ext path, ext.readFile f = none) :
    findEmbed ext path ext.includes = none := by
  cases hf : findEmbed ext path ext.includes with
  | none => rfl
  | some x =>
    obtain ⟨f, h'⟩ := findEmbed_iff.1 hf
    exact absurd h' (firstRead_none h _ _)

/-- What `%include` does with the contents. -/
def includeTree (ext : Ext) (call : PNode) (file code : Str) (rec : Rec) : M (List PNode) := do
  let id ← M.tick
  match parse ext.unescape { path := file, id := id, code := code } with
  | .err _ => M.fail "Parse error in included file." call.site
  | .panic => M.panic
  | .diverge => M.lift .diverge
  | .ok tree => do
    let expanded ← expandNodes rec tree
    pure (withFirstLw call.lw expanded)

/-- `%include` with its expanded arguments. -/
def includeArgs (ext : Ext) (call : PNode) (vs : List PNode) (rec : Rec) : M (List PNode) :=
  match vs with
  | [pathNode] =>
    match pathNode.atomic? with
    | none => M.fail "Bad argument to `%include' macro." pathNode.site
    | some a =>
      match findInclude ext a.value ext.includes with
      | none => M.fail "Could not read included file." a.site
      | some (p, code) => includeTree ext call p code rec
  | _ => M.fail "Incorrect number of arguments to `%include' macro." call.site

theorem includeTree_mon (ext : Ext) (call : PNode) (file code : Str) : Mon (includeTree ext call file code) := by
  refine Mon.bind (Mon.const _) fun id => ?_
  cases h : parse ext.unescape { path := file, id := id, code := code } with
  | ok tree => exact Mon.bind (Mon.nodes _) fun _ => Mon.const _
  | err e => exact Mon.const _
  | panic => exact Mon.const _
  | diverge => exact Mon.const _

theorem includeArgs_mon (ext : Ext) (call : PNode) (vs : List PNode) : Mon (includeArgs ext call vs) := by
  unfold includeArgs
  split
  · split
    · exact Mon.const _
    · split
      · exact Mon.const _
      · exact includeTree_mon _ _ _ _
  · exact Mon.const _

theorem evals_include {ext : Ext} {args vs : List PNode} {c : PNode} (hc : IsCall (str! "include") args c) {s u t : St}
    {r : Res (List PNode)} (ha : Evals ext args s (.ok vs) u) :
    Evals ext [c] s r t ↔ Runs ext (includeArgs ext c vs) u r t :=
  evals_eager_ok hc (b := .include_) rfl (G := includeArgs ext c) (fun _ => rfl) (includeArgs_mon ext c) ha

theorem include_found {ext : Ext} {args : List PNode} {c n : PNode} {a : Node} (hc : IsCall (str! "include") args c) {s u t : St}
    {r : Res (List PNode)} (ha : Evals ext args s (.ok [n]) u) (hn : Literal n a) {file code : Str}
    (hf : FirstRead ext (includeFiles ext a.value) file code) :
    Evals ext [c] s r t ↔ Runs ext (includeTree ext c file code) u r t := by
  rw [evals_include hc ha]
  refine runs_congr fun rec => ?_
  unfold includeArgs
  simp only [literal_atomic hn, findInclude_iff.2 hf]

theorem runs_includeTree {ext : Ext} {c : PNode} {file code : Str} {u t : St} {r : Res (List PNode)} {q : Res (List PNode)}
    (hq : parse ext.unescape { path := file, id := u.fresh, code := code } = q) :
    Runs ext (includeTree ext c file code) u r t ↔ Runs ext (fun rec =>
      match q with
      | .err _ => M.fail "Parse error in included file." c.site
      | .panic => M.panic
      | .diverge => M.lift .diverge
      | .ok tree => expandNodes rec tree >>= fun expanded => pure (withFirstLw c.lw expanded)) { u with fresh := u.fresh + 1 } r t := by
  subst hq
  exact Iff.rfl

/-- `%embed` with its expanded arguments. -/
def embedArgs (ext : Ext) (call : PNode) (vs : List PNode) : M (List PNode) :=
  match vs with
  | [pathNode] =>
    match pathNode.atomic? with
    | none => M.fail "Bad argument to `%embed' macro." pathNode.site
    | some a =>
      match findEmbed ext a.value ext.includes with
      | none => M.fail "Could not read embedded file." a.site
      | some text => pure [.string (callNode call text)]
  | _ => M.fail "Incorrect number of arguments to `%embed' macro." call.site

theorem evals_embed {ext : Ext} {args vs : List PNode} {c : PNode} (hc : IsCall (str! "embed") args c) {s u t : St}
    {r : Res (List PNode)} (ha : Evals ext args s (.ok vs) u) :
    Evals ext [c] s r t ↔ r ≠ .diverge ∧ embedArgs ext c vs u = (r, t) :=
  (evals_eager_ok hc (b := .embed) rfl (G := fun vs _ => embedArgs ext c vs) (fun _ => rfl) (fun _ => Mon.const _) ha).trans runs_const

/-- The forms of the arguments. -/
theorem one_literal (vs : List PNode) : (∃ n a, vs = [n] ∧ Literal n a) ∨ (¬ ∃ n a, vs = [n] ∧ Literal n a) ∧
    ((∃ n, vs = [n] ∧ n.atomic? = none) ∨ ∀ n, vs ≠ [n]) := by
  rcases vs with _ | ⟨n, _ | ⟨m, l⟩⟩
  · exact Or.inr ⟨by simp, Or.inr (by simp)⟩
  · cases h : n.atomic? with
    | some a => exact Or.inl ⟨n, a, rfl, literal_of_atomic h⟩
    | none =>
      refine Or.inr ⟨?_, Or.inl ⟨n, rfl, h⟩⟩
      rintro ⟨m, a, h1, h2⟩
      cases h1
      rw [literal_atomic h2] at h
      cases h
  · exact Or.inr ⟨by simp, Or.inr (by simp)⟩

theorem include_rejects {ext : Ext} {args vs : List PNode} {c : PNode} (hc : IsCall (str! "include") args c) {s u : St}
    (ha : Evals ext args s (.ok vs) u) (hn : ¬ ∃ n a, vs = [n] ∧ Literal n a) : ∃ e, Evals ext [c] s (.err e) u := by
  rcases one_literal vs with h | ⟨_, ⟨n, rfl, h⟩ | h⟩
  · exact absurd h hn
  · refine ⟨expErr "Bad argument to `%include' macro." n.site, (evals_include hc ha).2 ?_⟩
    unfold includeArgs
    simp only [h]
    exact runs_const.2 ⟨nofun, rfl⟩
  · refine ⟨expErr "Incorrect number of arguments to `%include' macro." c.site, (evals_include hc ha).2 ?_⟩
    rcases vs with _ | ⟨n, _ | ⟨m, l⟩⟩
    · exact runs_const.2 ⟨nofun, rfl⟩
    · exact absurd rfl (h n)
    · exact runs_const.2 ⟨nofun, rfl⟩

theorem embed_rejects {ext : Ext} {args vs : List PNode} {c : PNode} (hc : IsCall (str! "embed") args c) {s u : St}
    (ha : Evals ext args s (.ok vs) u) (hn : ¬ ∃ n a, vs = [n] ∧ Literal n a) : ∃ e, Evals ext [c] s (.err e) u := by
  rcases one_literal vs with h | ⟨_, ⟨n, rfl, h⟩ | h⟩
  · exact absurd h hn
  · refine ⟨expErr "Bad argument to `%embed' macro." n.site, (evals_embed hc ha).2 ⟨nofun, ?_⟩⟩
    simp only [embedArgs, h]
    rfl
  · refine ⟨expErr "Incorrect number of arguments to `%embed' macro." c.site, (evals_embed hc ha).2 ⟨nofun, ?_⟩⟩
    rcases vs with _ | ⟨n, _ | ⟨m, l⟩⟩
    · rfl
    · exact absurd rfl (h n)
    · rfl

end Seam
