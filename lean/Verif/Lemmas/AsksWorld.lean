import Verif.Lemmas.Asks
import Verif.Lemmas.Halt
import Verif.Lemmas.Glob
import Verif.Lemmas.Bind
import Verif.Lemmas.Check

/-! A run that only asks what is allowed goes the same way in every world that gives the same answers. -/

namespace Seam
open Spec

/-- After the arguments, two computations go on alike. -/
theorem Le.after {α : Type} {rec rec' : Rec} (h : LeRec rec rec') {ps : List PNode} {f : Rec → List PNode → M α}
    {g : List PNode → M α} (hf : ∀ vs, Le (f rec vs) (f rec' vs)) {s : St}
    (hg : ∀ vs t, expandNodes rec ps s = (.ok vs, t) → f rec' vs t = g vs t) :
    ((expandNodes rec ps >>= f rec) s).1 = .diverge ∨ (expandNodes rec ps >>= f rec) s = (expandNodes rec' ps >>= g) s := by
  rcases expandNodes_le h ps s with hd | hd
  · exact Or.inl (bind_diverges hd)
  · rw [M.bind_def, M.bind_def, ← hd]
    rcases hq : expandNodes rec ps s with ⟨q, t⟩
    cases q with
    | ok vs =>
      dsimp only
      rcases hf vs t with h1 | h1
      · exact Or.inl h1
      · exact Or.inr (h1.trans (hg vs t hq))
    | _ => exact Or.inr rfl

theorem atomic_positional {v : PNode} {a : Node} (h : v.atomic? = some a) :
    (positional [v]).head?.bind literalValue = some a.value := by
  cases v <;> simp [PNode.atomic?] at h <;> subst h <;> rfl

theorem mayAsk_atomic {allowed : Str → Str → Bool} {name : Str} {v : PNode} {a : Node} (h : v.atomic? = some a)
    (hm : mayAsk allowed name [v] = true) : allowed name a.value = true := by
  unfold mayAsk at hm
  rw [atomic_positional h] at hm
  exact hm

/-- What `%include` does with its argument values. -/
def includeWith (ext : Ext) (call : PNode) (rec : Rec) (params : List PNode) : M (List PNode) :=
  match params with
  | [pathNode] =>
    match pathNode.atomic? with
    | none => M.fail "Bad argument to `%include' macro." pathNode.site
    | some a =>
      match findInclude ext a.value ext.includes with
      | none => M.fail "Could not read included file." a.site
      | some (p, code) => do
        let id ← M.tick
        match parse ext.unescape { path := p, id := id, code := code } with
        | .err _ => M.fail "Parse error in included file." call.site
        | .panic => M.panic
        | .diverge => M.lift .diverge
        | .ok tree => do
          let expanded ← expandNodes rec tree
          pure (withFirstLw call.lw expanded)
  | _ => M.fail "Incorrect number of arguments to `%include' macro." call.site

/-- What `%embed` does with its argument values. -/
def embedWith (ext : Ext) (call : PNode) (params : List PNode) : M (List PNode) :=
  match params with
  | [pathNode] =>
    match pathNode.atomic? with
    | none => M.fail "Bad argument to `%embed' macro." pathNode.site
    | some a =>
      match findEmbed ext a.value ext.includes with
      | none => M.fail "Could not read embedded file." a.site
      | some text => pure [.string (callNode call text)]
  | _ => M.fail "Incorrect number of arguments to `%embed' macro." call.site

/-- What `%os/env` does with its argument values. -/
def osEnvWith (ext : Ext) (call : PNode) (params : List PNode) : M (List PNode) :=
  match params with
  | [v] =>
    match v.atomic? with
    | none => M.fail "`%os/env' argument must be atomic (not a list)." v.site
    | some a =>
      match ext.envVar a.value with
      | none => M.fail "No such environment variable visible." a.site
      | some value => pure [.string { value := value, site := a.site, lw := a.lw }]
  | _ => M.fail "`%os/env' expects excatly one argument." call.site

/-- What `%glob` does with its pattern and options. -/
def globFound (ext : Ext) (args : ArgParser) (pat : Node) : M (List PNode) := do
  let type ← M.lift (args.opt (str! "type"))
  let sort ← M.lift (args.opt (str! "sort"))
  let order ← M.lift (args.opt (str! "order"))
  let type := type.map (·.value)
  if type = none ∨ type = some (str! "file") ∨ type = some (str! "directory") ∨ type = some (str! "any") then
    match sortByOf (sort.map (·.value)) with
    | none => M.panic
    | some by_ =>
      match ext.glob pat.value with
      | none => M.fail "Failed to read glob pattern." pat.site
      | some paths => do
        let files ← M.lift (globCollect pat.site type by_ [] paths)
        let files := if isAscending order then files else files.reverse
        pure (withFirstLw [] (files.map fun f => .string { value := f.text, site := pat.site, lw := [' '] }))
  else M.panic

/-- What `%glob` does with its argument values. -/
def globWith (ext : Ext) (call : PNode) (params : List PNode) : M (List PNode) := do
  let args ← arguments globSchema none call params
  let pat ← M.lift (args.posNode call 1)
  globFound ext args pat

section
variable {ext ext' : Ext} {allowed : Str → Str → Bool} {rec rec' : Rec} {call : PNode} {ps : List PNode} {s : St}

theorem include_world (hu : ext'.unescape = ext.unescape) (hs : SameAnswers allowed ext ext') (h : LeRec rec rec')
    (hm : ∀ vs t, expandNodes rec ps s = (.ok vs, t) → mayAsk allowed (str! "include") vs = true) :
    (includeMacro ext rec call ps s).1 = .diverge ∨ includeMacro ext rec call ps s = includeMacro ext' rec' call ps s := by
  refine Le.after h (f := includeWith ext call) (g := includeWith ext' call rec') (fun vs => ?_) (fun vs t hv => ?_)
  · have h1 := expandNodes_le h
    unfold includeWith
    le_walk
  · have hm := hm vs t hv
    rcases vs with _ | ⟨v, _ | ⟨w, vs⟩⟩
    · rfl
    · unfold includeWith
      rcases ha : v.atomic? with _ | a
      · simp only [ha]
      · simp only [ha]
        rw [findInclude_same (hs.included a.value (mayAsk_atomic ha hm)), hu]
    · rfl

theorem embed_world (hs : SameAnswers allowed ext ext') (h : LeRec rec rec')
    (hm : ∀ vs t, expandNodes rec ps s = (.ok vs, t) → mayAsk allowed (str! "embed") vs = true) :
    (embedMacro ext rec call ps s).1 = .diverge ∨ embedMacro ext rec call ps s = embedMacro ext' rec' call ps s := by
  refine Le.after h (f := fun _ => embedWith ext call) (g := embedWith ext' call) (fun vs => Le.refl _) (fun vs t hv => ?_)
  have hm := hm vs t hv
  rcases vs with _ | ⟨v, _ | ⟨w, vs⟩⟩
  · rfl
  · unfold embedWith
    rcases ha : v.atomic? with _ | a
    · simp only [ha]
    · simp only [ha]
      rw [findEmbed_same (hs.embedded a.value (mayAsk_atomic ha hm))]
  · rfl

theorem osEnv_world (hs : SameAnswers allowed ext ext') (h : LeRec rec rec')
    (hm : ∀ vs t, expandNodes rec ps s = (.ok vs, t) → mayAsk allowed (str! "os/env") vs = true) :
    (osEnvMacro ext rec call ps s).1 = .diverge ∨ osEnvMacro ext rec call ps s = osEnvMacro ext' rec' call ps s := by
  refine Le.after h (f := fun _ => osEnvWith ext call) (g := osEnvWith ext' call) (fun vs => Le.refl _) (fun vs t hv => ?_)
  have hm := hm vs t hv
  rcases vs with _ | ⟨v, _ | ⟨w, vs⟩⟩
  · rfl
  · unfold osEnvWith
    rcases ha : v.atomic? with _ | a
    · simp only [ha]
    · simp only [ha]
      rw [hs.env a.value (mayAsk_atomic ha hm)]
  · rfl

theorem globWith_world (hs : SameAnswers allowed ext ext') {vs : List PNode} (hm : mayAsk allowed (str! "glob") vs = true) :
    globWith ext call vs = globWith ext' call vs := by
  unfold globWith
  have hw := eager_wellDeclared _ glob_mem
  have he : arguments globSchema none call vs = arguments (rulesOf (schemaEntries [.literal []] globKey)) none call vs := rfl
  rw [he]
  rcases arguments_cases hw none call vs with ⟨p, h1, h2, h3⟩ | ⟨e, h1, h2⟩
  · rw [h1]
    obtain ⟨front, back, hp, hf, _⟩ := (accepts_schema hw).1 h3
    cases hf with
    | cons _ n _ _ hn hf =>
      cases hf
      obtain ⟨a, ha⟩ := hasType_literal_iff.1 hn
      have h4 : p.posNode call 1 = .ok a := extracted_node (parsed_extracted h2) (i := 0) (by simp) (by rw [hp]; rfl) ha call
      have h5 : allowed (str! "glob") a.value = true := by
        unfold mayAsk at hm
        have : (positional vs).head?.bind literalValue = some a.value := by rw [hp]; cases ha <;> rfl
        rw [this] at hm
        exact hm
      show (M.lift (p.posNode call 1) >>= globFound ext p) = (M.lift (p.posNode call 1) >>= globFound ext' p)
      rw [h4]
      show globFound ext p a = globFound ext' p a
      unfold globFound
      rw [hs.matched a.value h5]
  · rw [h1]
    rfl

theorem glob_world (hs : SameAnswers allowed ext ext') (h : LeRec rec rec')
    (hm : ∀ vs t, expandNodes rec ps s = (.ok vs, t) → mayAsk allowed (str! "glob") vs = true) :
    (globMacro ext rec call ps s).1 = .diverge ∨ globMacro ext rec call ps s = globMacro ext' rec' call ps s :=
  Le.after h (f := fun _ => globWith ext call) (g := globWith ext' call) (fun vs => Le.refl _)
    (fun vs t hv => by rw [globWith_world hs (hm vs t hv)])

end

theorem reader_name {name : Str} {b : Builtin} (h : builtin? name = some b) :
    (b = .include_ → name = str! "include") ∧ (b = .embed → name = str! "embed") ∧ (b = .glob → name = str! "glob") ∧
    (b = .osEnv → name = str! "os/env") := by
  have hm := amGet_mem h
  have key : ∀ x ∈ builtinTable, (x.2 = .include_ → x.1 = str! "include") ∧ (x.2 = .embed → x.1 = str! "embed") ∧
      (x.2 = .glob → x.1 = str! "glob") ∧ (x.2 = .osEnv → x.1 = str! "os/env") := by decide +kernel
  exact key _ hm

/-- A step in one world is a step in the other, unless it asks something that is not allowed. -/
theorem invoke_world {ext : Ext} {files env : Str → Option Str} {dirs : Str → Option (List (Option (Option GFile)))}
    {allowed : Str → Str → Bool} (hs : SameAnswers allowed ext (around ext files env dirs)) {rec rec' : Rec} (h : LeRec rec rec')
    {name : Str} {call : PNode} {ps : List PNode} {s : St}
    (hm : name ∈ readers → ∀ vs t, expandNodes rec ps s = (.ok vs, t) → mayAsk allowed name vs = true) :
    (step ext rec (.invoke name call ps) s).1 = .diverge ∨
      step ext rec (.invoke name call ps) s = step (around ext files env dirs) rec' (.invoke name call ps) s := by
  show (expandInvocation ext rec name call ps s).1 = .diverge ∨
    expandInvocation ext rec name call ps s = expandInvocation (around ext files env dirs) rec' name call ps s
  unfold expandInvocation
  rcases hb : builtin? name with _ | b
  · exact userMacro_le h _ _ _ _
  · obtain ⟨n1, n2, n3, n4⟩ := reader_name hb
    dsimp only
    by_cases h1 : b = .include_
    · cases h1; cases n1 rfl
      exact include_world rfl hs h (hm (by simp [readers]))
    by_cases h2 : b = .embed
    · cases h2; cases n2 rfl
      exact embed_world hs h (hm (by simp [readers]))
    by_cases h3 : b = .glob
    · cases h3; cases n3 rfl
      exact glob_world hs h (hm (by simp [readers]))
    by_cases h4 : b = .osEnv
    · cases h4; cases n4 rfl
      exact osEnv_world hs h (hm (by simp [readers]))
    have he : runBuiltin (around ext files env dirs) rec' b = runBuiltin ext rec' b := by
      cases b <;> first | rfl | exact absurd rfl h1 | exact absurd rfl h2 | exact absurd rfl h3 | exact absurd rfl h4
    rw [he]
    exact runBuiltin_le h _ _ _ _

theorem ask_world {ext : Ext} {files env : Str → Option Str} {dirs : Str → Option (List (Option (Option GFile)))}
    {allowed : Str → Str → Bool} (hs : SameAnswers allowed ext (around ext files env dirs)) :
    ∀ fuel, LeRec (askRun ext allowed fuel) (run (around ext files env dirs) fuel)
  | 0 => fun _ _ => Or.inl rfl
  | fuel + 1 => by
    intro c s
    have ih := ask_world hs fuel
    cases c with
    | node n => exact step_le (ext := ext) ih (.node n) s
    | invoke name call ps =>
      show _ ∨ _ = step (around ext files env dirs) (run (around ext files env dirs) fuel) (.invoke name call ps) s
      unfold askRun
      by_cases hn : name ∈ readers
      · rw [if_pos hn]
        rcases hq : expandNodes (askRun ext allowed fuel) ps s with ⟨q, t⟩
        cases q with
        | ok vs =>
          dsimp only
          split
          · next hm =>
            exact invoke_world hs ih fun _ vs' t' e => by rw [hq] at e; cases e; exact hm
          · exact Or.inl rfl
        | _ => exact invoke_world hs ih fun _ vs' t' e => by rw [hq] at e; cases e
      · rw [if_neg hn]
        exact invoke_world hs ih fun h => absurd h hn

theorem askEvals_world {ext : Ext} {files env : Str → Option Str} {dirs : Str → Option (List (Option (Option GFile)))}
    {allowed : Str → Str → Bool} (hs : SameAnswers allowed ext (around ext files env dirs)) {ns : List PNode} {s t : St}
    {r : Res (List PNode)} (h : AskEvals ext allowed ns s r t) : Evals (around ext files env dirs) ns s r t := by
  obtain ⟨hr, fuel, h⟩ := h
  refine ⟨hr, fuel, ?_⟩
  rcases expandNodes_le (ask_world hs fuel) ns s with h1 | h1
  · rw [h] at h1; exact absurd h1 hr
  · rw [← h1, h]

theorem askEvals_evals {ext : Ext} {allowed : Str → Str → Bool} {ns : List PNode} {s t : St}
    {r : Res (List PNode)} (h : AskEvals ext allowed ns s r t) : Evals ext ns s r t := by
  obtain ⟨hr, fuel, h⟩ := h
  refine ⟨hr, fuel, ?_⟩
  rcases expandNodes_le (ask_le ext allowed fuel) ns s with h1 | h1
  · rw [h] at h1; exact absurd h1 hr
  · rw [← h1, h]

/-- Files that read the same give the same first file. -/
theorem firstRead_agree {ext ext' : Ext} {files : List Str} (h : ∀ f ∈ files, ext'.readFile f = ext.readFile f) (file code : Str) :
    FirstRead ext files file code ↔ FirstRead ext' files file code := by
  constructor
  · rintro ⟨before, after, rfl, h1, h2⟩
    exact ⟨before, after, rfl, fun q hq => by rw [h q (by simp [hq])]; exact h1 q hq, by rw [h file (by simp)]; exact h2⟩
  · rintro ⟨before, after, rfl, h1, h2⟩
    exact ⟨before, after, rfl, fun q hq => by rw [← h q (by simp [hq])]; exact h1 q hq, by rw [← h file (by simp)]; exact h2⟩

theorem asks_some_of {ext : Ext} {allowed : Str → Str → Bool} {ns : List PNode} {s : St} (fuel : Nat) (p : List PNode → Bool)
    (h : (expandNodes (askRun ext allowed fuel) ns s).1.okP p = true) : ∃ out t, AskEvals ext allowed ns s (.ok out) t ∧ p out = true := by
  obtain ⟨out, h1, h2⟩ := Res.okP_elim h
  exact ⟨out, _, ⟨by simp, fuel, Prod.ext h1 rfl⟩, h2⟩

end Seam
