import Verif.Lemmas.Asks
import Verif.Lemmas.Halt

/-! A run that finishes asks finitely many questions. -/

namespace Seam
open Spec

/-- `m l` does the same as `m0` once `l` contains enough, for every state. -/
def Sets {α : Type} (m : List (Str × Str) → M α) (m0 : M α) : Prop :=
  ∀ s, ∃ l : List (Str × Str), ∀ l' : List (Str × Str), (∀ x ∈ l, x ∈ l') → m l' s = m0 s

def SetsRec (recs : List (Str × Str) → Rec) (rec : Rec) : Prop := ∀ c, Sets (fun l => recs l c) (rec c)

theorem Sets.refl {α : Type} (m : M α) : Sets (fun _ => m) m := fun _ => ⟨[], fun _ _ => rfl⟩

theorem Sets.bind {α β : Type} {m : List (Str × Str) → M α} {m0 : M α} {f : List (Str × Str) → α → M β} {f0 : α → M β}
    (h : Sets m m0) (hf : ∀ a, Sets (fun l => f l a) (f0 a)) : Sets (fun l => m l >>= f l) (m0 >>= f0) := by
  intro s
  obtain ⟨l1, h1⟩ := h s
  rcases hm : m0 s with ⟨r, t⟩
  cases r with
  | ok a =>
    obtain ⟨l2, h2⟩ := hf a t
    refine ⟨l1 ++ l2, fun l' hl => ?_⟩
    dsimp only
    rw [M.bind_def, M.bind_def, h1 l' (fun x hx => hl x (List.mem_append_left _ hx)), hm]
    exact h2 l' (fun x hx => hl x (List.mem_append_right _ hx))
  | _ =>
    refine ⟨l1, fun l' hl => ?_⟩
    dsimp only
    rw [M.bind_def, M.bind_def, h1 l' hl, hm]

theorem Sets.inner {α : Type} {m : List (Str × Str) → M α} {m0 : M α} (h : Sets m m0) : Sets (fun l => M.inner (m l)) (M.inner m0) := by
  intro s
  obtain ⟨l, h⟩ := h s
  exact ⟨l, fun l' hl => by have := h l' hl; dsimp only at *; unfold M.inner; rw [this]⟩

theorem Sets.rethrow {α : Type} {m : List (Str × Str) → M α} {m0 : M α} {msg : String} {site : Site} (h : Sets m m0) :
    Sets (fun l => rethrow msg site (m l)) (rethrow msg site m0) := by
  intro s
  obtain ⟨l, h⟩ := h s
  exact ⟨l, fun l' hl => by have := h l' hl; dsimp only at *; unfold Seam.rethrow; rw [this]⟩

/-- Walk through a do block. -/
macro "sets_walk" : tactic =>
  `(tactic| repeat' (first
    | exact Sets.refl _
    | apply_assumption
    | (apply Sets.inner)
    | (refine Sets.bind ?_ (fun _ => ?_))
    | (split <;> try dsimp only)))

theorem expandNodes_sets {recs : List (Str × Str) → Rec} {rec : Rec} (h : SetsRec recs rec) :
    ∀ ns, Sets (fun l => expandNodes (recs l) ns) (expandNodes rec ns)
  | [] => Sets.refl _
  | _ :: ns => Sets.bind (h _) fun _ => Sets.bind (expandNodes_sets h ns) fun _ => Sets.refl _

theorem matchLoop_sets {recs : List (Str × Str) → Rec} {rec : Rec} (h : SetsRec recs rec) (expr : PNode) :
    ∀ ps, Sets (fun l => matchLoop (recs l) expr ps) (matchLoop rec expr ps)
  | [] => Sets.refl _
  | p :: ps => by
    unfold matchLoop
    split <;> try exact Sets.refl _
    refine Sets.bind (h _) fun pats => ?_
    rcases pats with _ | ⟨pat', _ | ⟨_, _⟩⟩ <;> dsimp only <;> try exact Sets.refl _
    intro s
    dsimp only
    split
    · rename_i body _ _ _ _ s' _
      obtain ⟨l, hl⟩ := expandNodes_sets h body s'
      exact ⟨l, fun l' hl' => by have := hl l' hl'; dsimp only at this; simp only [M.inner, this]⟩
    · exact matchLoop_sets h expr ps _
    · exact ⟨[], fun _ _ => rfl⟩
    · exact ⟨[], fun _ _ => rfl⟩

theorem forLoop_sets {recs : List (Str × Str) → Rec} {rec : Rec} (h : SetsRec recs rec) (it : PNode) (body : List PNode) :
    ∀ ns, Sets (fun l => forLoop (recs l) it body ns) (forLoop rec it body ns)
  | [] => Sets.refl _
  | _ :: ns => Sets.bind (Sets.refl _) fun _ => Sets.bind (expandNodes_sets h _) fun _ =>
      Sets.bind (forLoop_sets h it body ns) fun _ => Sets.refl _

theorem mapLoop_sets {recs : List (Str × Str) → Rec} {rec : Rec} (h : SetsRec recs rec) (call : PNode) (f : Str) :
    ∀ ns, Sets (fun l => mapLoop (recs l) call f ns) (mapLoop rec call f ns)
  | [] => Sets.refl _
  | _ :: ns => Sets.bind (h _) fun _ => Sets.bind (mapLoop_sets h call f ns) fun _ => Sets.refl _

theorem filterLoop_sets {recs : List (Str × Str) → Rec} {rec : Rec} (h : SetsRec recs rec) (call : PNode) (f : Str) :
    ∀ ns, Sets (fun l => filterLoop (recs l) call f ns) (filterLoop rec call f ns)
  | [] => Sets.refl _
  | _ :: ns => Sets.bind (h _) fun _ => Sets.bind (filterLoop_sets h call f ns) fun _ => Sets.refl _

theorem sortKeys_sets {recs : List (Str × Str) → Rec} {rec : Rec} (h : SetsRec recs rec) (call : PNode) (f : Str) (site : Site) :
    ∀ ns, Sets (fun l => sortKeys (recs l) call f site ns) (sortKeys rec call f site ns)
  | [] => Sets.refl _
  | n :: ns => by
    have ih := sortKeys_sets h call f site ns
    unfold sortKeys
    refine Sets.bind (Sets.rethrow (h _)) fun _ => ?_
    sets_walk

theorem namespaceMacro_sets {recs : List (Str × Str) → Rec} {rec : Rec} (h : SetsRec recs rec) (call : PNode) (ps : List PNode) :
    Sets (fun l => namespaceMacro (recs l) call ps) (namespaceMacro rec call ps) := by
  intro s
  obtain ⟨l, h⟩ := expandNodes_sets h ps s
  exact ⟨l, fun l' hl => by have := h l' hl; dsimp only at *; unfold namespaceMacro; rw [this]⟩

theorem defineMacro_sets {recs : List (Str × Str) → Rec} {rec : Rec} (h : SetsRec recs rec) (call : PNode) (ps : List PNode) :
    Sets (fun l => defineMacro (recs l) call ps) (defineMacro rec call ps) := by
  unfold defineMacro
  have h1 := expandNodes_sets h
  have h := fun c => h c
  sets_walk

theorem ifdefMacro_sets {recs : List (Str × Str) → Rec} {rec : Rec} (h : SetsRec recs rec) (call : PNode) (ps : List PNode) :
    Sets (fun l => ifdefMacro (recs l) call ps) (ifdefMacro rec call ps) := by
  unfold ifdefMacro
  have h1 := expandNodes_sets h
  have h := fun c => h c
  sets_walk

theorem includeMacro_sets {ext : Ext} {recs : List (Str × Str) → Rec} {rec : Rec} (h : SetsRec recs rec) (call : PNode) (ps : List PNode) :
    Sets (fun l => includeMacro ext (recs l) call ps) (includeMacro ext rec call ps) := by
  unfold includeMacro
  have h1 := expandNodes_sets h
  have h := fun c => h c
  sets_walk

theorem embedMacro_sets {ext : Ext} {recs : List (Str × Str) → Rec} {rec : Rec} (h : SetsRec recs rec) (call : PNode) (ps : List PNode) :
    Sets (fun l => embedMacro ext (recs l) call ps) (embedMacro ext rec call ps) := by
  unfold embedMacro
  have h1 := expandNodes_sets h
  have h := fun c => h c
  sets_walk

theorem getMacro_sets {recs : List (Str × Str) → Rec} {rec : Rec} (h : SetsRec recs rec) (call : PNode) (ps : List PNode) :
    Sets (fun l => getMacro (recs l) call ps) (getMacro rec call ps) := by
  unfold getMacro
  have h1 := expandNodes_sets h
  have h := fun c => h c
  sets_walk

theorem rawMacro_sets {recs : List (Str × Str) → Rec} {rec : Rec} (h : SetsRec recs rec) (call : PNode) (ps : List PNode) :
    Sets (fun l => rawMacro (recs l) call ps) (rawMacro rec call ps) := by
  unfold rawMacro
  have h1 := expandNodes_sets h
  have h := fun c => h c
  sets_walk

theorem stringMacro_sets {recs : List (Str × Str) → Rec} {rec : Rec} (h : SetsRec recs rec) (call : PNode) (ps : List PNode) :
    Sets (fun l => stringMacro (recs l) call ps) (stringMacro rec call ps) := by
  unfold stringMacro
  have h1 := expandNodes_sets h
  have h := fun c => h c
  sets_walk

theorem numberMacro_sets {recs : List (Str × Str) → Rec} {rec : Rec} (h : SetsRec recs rec) (call : PNode) (ps : List PNode) :
    Sets (fun l => numberMacro (recs l) call ps) (numberMacro rec call ps) := by
  unfold numberMacro
  have h1 := expandNodes_sets h
  have h := fun c => h c
  sets_walk

theorem symbolMacro_sets {recs : List (Str × Str) → Rec} {rec : Rec} (h : SetsRec recs rec) (call : PNode) (ps : List PNode) :
    Sets (fun l => symbolMacro (recs l) call ps) (symbolMacro rec call ps) := by
  unfold symbolMacro
  have h1 := expandNodes_sets h
  have h := fun c => h c
  sets_walk

theorem markdownMacro_sets {ext : Ext} {recs : List (Str × Str) → Rec} {rec : Rec} (h : SetsRec recs rec) (call : PNode) (ps : List PNode) :
    Sets (fun l => markdownMacro ext (recs l) call ps) (markdownMacro ext rec call ps) := by
  unfold markdownMacro
  have h1 := expandNodes_sets h
  have h := fun c => h c
  sets_walk

theorem yamlMacro_sets {ext : Ext} {recs : List (Str × Str) → Rec} {rec : Rec} (h : SetsRec recs rec) (call : PNode) (ps : List PNode) :
    Sets (fun l => yamlMacro ext (recs l) call ps) (yamlMacro ext rec call ps) := by
  unfold yamlMacro
  have h1 := expandNodes_sets h
  have h := fun c => h c
  sets_walk

theorem tomlMacro_sets {ext : Ext} {recs : List (Str × Str) → Rec} {rec : Rec} (h : SetsRec recs rec) (call : PNode) (ps : List PNode) :
    Sets (fun l => tomlMacro ext (recs l) call ps) (tomlMacro ext rec call ps) := by
  unfold tomlMacro
  have h1 := expandNodes_sets h
  have h := fun c => h c
  sets_walk

theorem globMacro_sets {ext : Ext} {recs : List (Str × Str) → Rec} {rec : Rec} (h : SetsRec recs rec) (call : PNode) (ps : List PNode) :
    Sets (fun l => globMacro ext (recs l) call ps) (globMacro ext rec call ps) := by
  unfold globMacro
  have h1 := expandNodes_sets h
  have h := fun c => h c
  sets_walk

theorem sortMacro_sets {ext : Ext} {recs : List (Str × Str) → Rec} {rec : Rec} (h : SetsRec recs rec) (call : PNode) (ps : List PNode) :
    Sets (fun l => sortMacro ext (recs l) call ps) (sortMacro ext rec call ps) := by
  unfold sortMacro
  have h1 := expandNodes_sets h
  have h2 := sortKeys_sets h call
  have h := fun c => h c
  sets_walk

theorem reverseMacro_sets {recs : List (Str × Str) → Rec} {rec : Rec} (h : SetsRec recs rec) (call : PNode) (ps : List PNode) :
    Sets (fun l => reverseMacro (recs l) call ps) (reverseMacro rec call ps) := by
  unfold reverseMacro
  have h1 := expandNodes_sets h
  have h := fun c => h c
  sets_walk

theorem dateMacro_sets {ext : Ext} {recs : List (Str × Str) → Rec} {rec : Rec} (h : SetsRec recs rec) (call : PNode) (ps : List PNode) :
    Sets (fun l => dateMacro ext (recs l) call ps) (dateMacro ext rec call ps) := by
  unfold dateMacro
  have h1 := expandNodes_sets h
  have h := fun c => h c
  sets_walk

theorem timestampMacro_sets {ext : Ext} {recs : List (Str × Str) → Rec} {rec : Rec} (h : SetsRec recs rec) (call : PNode) (ps : List PNode) :
    Sets (fun l => timestampMacro ext (recs l) call ps) (timestampMacro ext rec call ps) := by
  unfold timestampMacro
  have h1 := expandNodes_sets h
  have h := fun c => h c
  sets_walk

theorem joinMacro_sets {recs : List (Str × Str) → Rec} {rec : Rec} (h : SetsRec recs rec) (call : PNode) (ps : List PNode) :
    Sets (fun l => joinMacro (recs l) call ps) (joinMacro rec call ps) := by
  unfold joinMacro
  have h1 := expandNodes_sets h
  have h := fun c => h c
  sets_walk

theorem concatMacro_sets {recs : List (Str × Str) → Rec} {rec : Rec} (h : SetsRec recs rec) (call : PNode) (ps : List PNode) :
    Sets (fun l => concatMacro (recs l) call ps) (concatMacro rec call ps) := by
  unfold concatMacro
  have h1 := expandNodes_sets h
  have h := fun c => h c
  sets_walk

theorem mapMacro_sets {recs : List (Str × Str) → Rec} {rec : Rec} (h : SetsRec recs rec) (call : PNode) (ps : List PNode) :
    Sets (fun l => mapMacro (recs l) call ps) (mapMacro rec call ps) := by
  unfold mapMacro
  have h1 := expandNodes_sets h
  have h2 := mapLoop_sets h call
  have h := fun c => h c
  sets_walk

theorem filterMacro_sets {recs : List (Str × Str) → Rec} {rec : Rec} (h : SetsRec recs rec) (call : PNode) (ps : List PNode) :
    Sets (fun l => filterMacro (recs l) call ps) (filterMacro rec call ps) := by
  unfold filterMacro
  have h1 := expandNodes_sets h
  have h2 := filterLoop_sets h call
  have h := fun c => h c
  sets_walk

theorem listMacro_sets {recs : List (Str × Str) → Rec} {rec : Rec} (h : SetsRec recs rec) (call : PNode) (ps : List PNode) :
    Sets (fun l => listMacro (recs l) call ps) (listMacro rec call ps) := by
  unfold listMacro
  have h1 := expandNodes_sets h
  have h := fun c => h c
  sets_walk

theorem applyMacro_sets {recs : List (Str × Str) → Rec} {rec : Rec} (h : SetsRec recs rec) (call : PNode) (ps : List PNode) :
    Sets (fun l => applyMacro (recs l) call ps) (applyMacro rec call ps) := by
  unfold applyMacro
  have h1 := expandNodes_sets h
  have h := fun c => h c
  sets_walk

theorem logMacro_sets {recs : List (Str × Str) → Rec} {rec : Rec} (h : SetsRec recs rec) (call : PNode) (ps : List PNode) :
    Sets (fun l => logMacro (recs l) call ps) (logMacro rec call ps) := by
  unfold logMacro
  have h1 := expandNodes_sets h
  have h := fun c => h c
  sets_walk

theorem formatMacro_sets {ext : Ext} {recs : List (Str × Str) → Rec} {rec : Rec} (h : SetsRec recs rec) (call : PNode) (ps : List PNode) :
    Sets (fun l => formatMacro ext (recs l) call ps) (formatMacro ext rec call ps) := by
  unfold formatMacro
  have h1 := expandNodes_sets h
  have h := fun c => h c
  sets_walk

theorem osEnvMacro_sets {ext : Ext} {recs : List (Str × Str) → Rec} {rec : Rec} (h : SetsRec recs rec) (call : PNode) (ps : List PNode) :
    Sets (fun l => osEnvMacro ext (recs l) call ps) (osEnvMacro ext rec call ps) := by
  unfold osEnvMacro
  have h1 := expandNodes_sets h
  have h := fun c => h c
  sets_walk

theorem matchMacro_sets {recs : List (Str × Str) → Rec} {rec : Rec} (h : SetsRec recs rec) (call : PNode) (ps : List PNode) :
    Sets (fun l => matchMacro (recs l) call ps) (matchMacro rec call ps) := by
  unfold matchMacro
  have h1 := expandNodes_sets h
  have h2 := matchLoop_sets h
  have h := fun c => h c
  sets_walk

theorem forMacro_sets {recs : List (Str × Str) → Rec} {rec : Rec} (h : SetsRec recs rec) (call : PNode) (ps : List PNode) :
    Sets (fun l => forMacro (recs l) call ps) (forMacro rec call ps) := by
  unfold forMacro
  have h1 := expandNodes_sets h
  have h2 := forLoop_sets h
  have h := fun c => h c
  sets_walk

theorem splatMacro_sets {recs : List (Str × Str) → Rec} {rec : Rec} (h : SetsRec recs rec) (ps : List PNode) :
    Sets (fun l => splatMacro (recs l) ps) (splatMacro rec ps) :=
  Sets.bind (expandNodes_sets h _) fun _ => Sets.refl _

theorem stripMacro_sets {recs : List (Str × Str) → Rec} {rec : Rec} (h : SetsRec recs rec) (ps : List PNode) :
    Sets (fun l => stripMacro (recs l) ps) (stripMacro rec ps) :=
  Sets.bind (expandNodes_sets h _) fun _ => Sets.refl _

theorem userMacro_sets {recs : List (Str × Str) → Rec} {rec : Rec} (h : SetsRec recs rec) (name : Str) (call : PNode) (ps : List PNode) :
    Sets (fun l => userMacro (recs l) name call ps) (userMacro rec name call ps) := by
  unfold userMacro
  have h1 := expandNodes_sets h
  sets_walk

theorem runBuiltin_sets {ext : Ext} {recs : List (Str × Str) → Rec} {rec : Rec} (h : SetsRec recs rec) (b : Builtin) (call : PNode) (ps : List PNode) :
    Sets (fun l => runBuiltin ext (recs l) b call ps) (runBuiltin ext rec b call ps) := by
  cases b
  all_goals first
    | exact Sets.refl _
    | exact expandNodes_sets h _
    | exact defineMacro_sets h _ _
    | exact ifdefMacro_sets h _ _
    | exact includeMacro_sets h _ _
    | exact embedMacro_sets h _ _
    | exact getMacro_sets h _ _
    | exact rawMacro_sets h _ _
    | exact stringMacro_sets h _ _
    | exact numberMacro_sets h _ _
    | exact symbolMacro_sets h _ _
    | exact markdownMacro_sets h _ _
    | exact yamlMacro_sets h _ _
    | exact tomlMacro_sets h _ _
    | exact globMacro_sets h _ _
    | exact sortMacro_sets h _ _
    | exact reverseMacro_sets h _ _
    | exact dateMacro_sets h _ _
    | exact timestampMacro_sets h _ _
    | exact joinMacro_sets h _ _
    | exact concatMacro_sets h _ _
    | exact mapMacro_sets h _ _
    | exact filterMacro_sets h _ _
    | exact listMacro_sets h _ _
    | exact applyMacro_sets h _ _
    | exact logMacro_sets h _ _
    | exact formatMacro_sets h _ _
    | exact osEnvMacro_sets h _ _
    | exact matchMacro_sets h _ _
    | exact forMacro_sets h _ _
    | exact splatMacro_sets h _
    | exact stripMacro_sets h _
    | exact namespaceMacro_sets h _ _

theorem step_sets {ext : Ext} {recs : List (Str × Str) → Rec} {rec : Rec} (h : SetsRec recs rec) :
    SetsRec (fun l => step ext (recs l)) (step ext rec) := by
  intro c
  cases c with
  | node n =>
    have h1 := expandNodes_sets h
    have h := fun c => h c
    show Sets (fun l => expandNode (recs l) n) (expandNode rec n)
    unfold expandNode expandVariable
    sets_walk
  | invoke name call ps =>
    show Sets (fun l => expandInvocation ext (recs l) name call ps) (expandInvocation ext rec name call ps)
    unfold expandInvocation
    split
    · exact runBuiltin_sets h _ _ _
    · exact userMacro_sets h _ _ _

/-- The questions of a list, as the ones that are allowed. -/
def listed (l : List (Str × Str)) : Str → Str → Bool := fun name x => decide ((name, x) ∈ l)

theorem ask_sets (ext : Ext) : ∀ fuel, SetsRec (fun l => askRun ext (listed l) fuel) (run ext fuel)
  | 0 => fun _ => Sets.refl _
  | fuel + 1 => by
    have ih := ask_sets ext fuel
    have hs := step_sets (ext := ext) ih
    intro c
    cases c with
    | node n => exact hs _
    | invoke name call params =>
      intro s
      obtain ⟨l1, h1⟩ := hs (.invoke name call params) s
      obtain ⟨l2, h2⟩ := expandNodes_sets ih params s
      have hrun : run ext (fuel + 1) (.invoke name call params) s = step ext (run ext fuel) (.invoke name call params) s := rfl
      rw [hrun]
      rcases hq : expandNodes (run ext fuel) params s with ⟨q, t⟩
      obtain ⟨l3, h3⟩ : ∃ l3 : List (Str × Str), ∀ l' : List (Str × Str), (∀ x ∈ l3, x ∈ l') → ∀ vs, q = .ok vs → mayAsk (listed l') name vs = true := by
        cases q with
        | ok vs =>
          rcases hx : (positional vs).head?.bind literalValue with _ | x
          · exact ⟨[], fun l' _ vs' e => by cases e; unfold mayAsk; rw [hx]⟩
          · exact ⟨[(name, x)], fun l' hl vs' e => by
              cases e; unfold mayAsk; rw [hx]; exact decide_eq_true (hl _ (List.mem_singleton_self _))⟩
        | _ => exact ⟨[], fun _ _ _ e => nomatch e⟩
      refine ⟨l1 ++ (l2 ++ l3), fun l' hl => ?_⟩
      have h1 := h1 l' (fun x hx => hl x (List.mem_append_left _ hx))
      have h2 := h2 l' (fun x hx => hl x (List.mem_append_right _ (List.mem_append_left _ hx)))
      have h3 := h3 l' (fun x hx => hl x (List.mem_append_right _ (List.mem_append_right _ hx)))
      dsimp only at h1 h2 ⊢
      rw [← h1]
      unfold askRun
      rw [h2, hq]
      split
      · cases q with
        | ok vs => dsimp only; rw [if_pos (h3 vs rfl)]
        | _ => rfl
      · rfl

/-- Every run that finishes asks finitely many questions. -/
theorem evals_asks {ext : Ext} {ns : List PNode} {s t : St} {r : Res (List PNode)} (h : Evals ext ns s r t) :
    ∃ l, AskEvals ext (listed l) ns s r t := by
  obtain ⟨hr, fuel, h⟩ := h
  obtain ⟨l, hl⟩ := expandNodes_sets (ask_sets ext fuel) ns s
  exact ⟨l, hr, fuel, (hl l fun _ h => h).trans h⟩

end Seam
