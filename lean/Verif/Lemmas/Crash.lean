import Verif.Lemmas.Mono
import Verif.Lemmas.SoundRun
import Verif.Spec.Crash

/-!
# Crashes of the expander

`LeP m m'`: wherever `m` does not panic, `m'` does the same.  All of the expander is
monotone in its recursive calls with respect to this order, so that the expander
with its crashes replaced by errors agrees with it wherever it does not crash.
-/

namespace Seam
open Spec

/-- `m` panics or does the same as `m'`. -/
def LeP {α : Type} (m m' : M α) : Prop := ∀ s, (m s).1 = .panic ∨ m s = m' s

/-- The same for the recursive calls. -/
def LePRec (rec rec' : Rec) : Prop := ∀ c, LeP (rec c) (rec' c)

theorem LeP.refl {α : Type} (m : M α) : LeP m m := fun _ => Or.inr rfl

theorem LeP.bind {α β : Type} {m m' : M α} {f f' : α → M β} (h : LeP m m') (hf : ∀ a, LeP (f a) (f' a)) :
    LeP (m >>= f) (m' >>= f') := by
  intro s
  rw [M.bind_def, M.bind_def]
  rcases h s with h | h
  · left
    rcases hm : m s with ⟨r, t⟩
    rw [hm] at h
    simp only at h
    subst h
    rfl
  · rw [← h]
    rcases hm : m s with ⟨r, t⟩
    cases r with
    | ok a => exact hf a t
    | _ => right; rfl

theorem LeP.inner {α : Type} {m m' : M α} (h : LeP m m') : LeP (M.inner m) (M.inner m') := by
  intro s
  unfold M.inner
  rcases h s with h | h
  · left; exact h
  · right; rw [h]

theorem LeP.rethrow {α : Type} {m m' : M α} {msg : String} {site : Site} (h : LeP m m') :
    LeP (rethrow msg site m) (rethrow msg site m') := by
  intro s
  unfold Seam.rethrow
  rcases h s with h | h
  · left
    rcases hm : m s with ⟨r, t⟩
    rw [hm] at h
    simp only at h
    subst h
    rfl
  · right; rw [h]

/-- Walk through a do block. -/
macro "lep_walk" : tactic =>
  `(tactic| repeat' (first
    | exact LeP.refl _
    | apply_assumption
    | (apply LeP.inner)
    | (refine LeP.bind ?_ (fun _ => ?_))
    | (split <;> try dsimp only)))

theorem expandNodes_lep {rec rec' : Rec} (h : LePRec rec rec') : ∀ ns, LeP (expandNodes rec ns) (expandNodes rec' ns)
  | [] => LeP.refl _
  | _ :: ns => LeP.bind (h _) fun _ => LeP.bind (expandNodes_lep h ns) fun _ => LeP.refl _

theorem matchLoop_lep {rec rec' : Rec} (h : LePRec rec rec') (expr : PNode) :
    ∀ ps, LeP (matchLoop rec expr ps) (matchLoop rec' expr ps)
  | [] => LeP.refl _
  | p :: ps => by
    unfold matchLoop
    split <;> try exact LeP.refl _
    refine LeP.bind (h _) fun pats => ?_
    rcases pats with _ | ⟨pat', _ | ⟨_, _⟩⟩ <;> dsimp only <;> try exact LeP.refl _
    intro s
    dsimp only
    split
    · rename_i s' _
      rcases expandNodes_lep h _ s' with h1 | h1
      · left; exact h1
      · right; simp only [M.inner, h1]
    · exact matchLoop_lep h expr ps _
    · right; rfl
    · right; rfl

theorem forLoop_lep {rec rec' : Rec} (h : LePRec rec rec') (it : PNode) (body : List PNode) :
    ∀ ns, LeP (forLoop rec it body ns) (forLoop rec' it body ns)
  | [] => LeP.refl _
  | _ :: ns => LeP.bind (LeP.refl _) fun _ => LeP.bind (expandNodes_lep h _) fun _ =>
      LeP.bind (forLoop_lep h it body ns) fun _ => LeP.refl _

theorem mapLoop_lep {rec rec' : Rec} (h : LePRec rec rec') (call : PNode) (f : Str) :
    ∀ ns, LeP (mapLoop rec call f ns) (mapLoop rec' call f ns)
  | [] => LeP.refl _
  | _ :: ns => LeP.bind (h _) fun _ => LeP.bind (mapLoop_lep h call f ns) fun _ => LeP.refl _

theorem filterLoop_lep {rec rec' : Rec} (h : LePRec rec rec') (call : PNode) (f : Str) :
    ∀ ns, LeP (filterLoop rec call f ns) (filterLoop rec' call f ns)
  | [] => LeP.refl _
  | _ :: ns => LeP.bind (h _) fun _ => LeP.bind (filterLoop_lep h call f ns) fun _ => LeP.refl _

theorem sortKeys_lep {rec rec' : Rec} (h : LePRec rec rec') (call : PNode) (f : Str) (site : Site) :
    ∀ ns, LeP (sortKeys rec call f site ns) (sortKeys rec' call f site ns)
  | [] => LeP.refl _
  | n :: ns => by
    have ih := sortKeys_lep h call f site ns
    unfold sortKeys
    refine LeP.bind (LeP.rethrow (h _)) fun _ => ?_
    lep_walk

theorem namespaceMacro_lep {rec rec' : Rec} (h : LePRec rec rec') (call : PNode) (ps : List PNode) :
    LeP (namespaceMacro rec call ps) (namespaceMacro rec' call ps) := by
  intro s
  unfold namespaceMacro
  rcases expandNodes_lep h ps s with h1 | h1
  · left
    rcases hr : expandNodes rec ps s with ⟨r, t⟩
    rw [hr] at h1
    simp only at h1
    subst h1
    rfl
  · right; rw [h1]

theorem defineMacro_lep {rec rec' : Rec} (h : LePRec rec rec') (call : PNode) (ps : List PNode) :
    LeP (defineMacro rec call ps) (defineMacro rec' call ps) := by
  unfold defineMacro
  have h1 := expandNodes_lep h
  have h := fun c => h c
  lep_walk

theorem ifdefMacro_lep {rec rec' : Rec} (h : LePRec rec rec') (call : PNode) (ps : List PNode) :
    LeP (ifdefMacro rec call ps) (ifdefMacro rec' call ps) := by
  unfold ifdefMacro
  have h1 := expandNodes_lep h
  have h := fun c => h c
  lep_walk

theorem includeMacro_lep {ext : Ext} {rec rec' : Rec} (h : LePRec rec rec') (call : PNode) (ps : List PNode) :
    LeP (includeMacro ext rec call ps) (includeMacro ext rec' call ps) := by
  unfold includeMacro
  have h1 := expandNodes_lep h
  have h := fun c => h c
  lep_walk

theorem embedMacro_lep {ext : Ext} {rec rec' : Rec} (h : LePRec rec rec') (call : PNode) (ps : List PNode) :
    LeP (embedMacro ext rec call ps) (embedMacro ext rec' call ps) := by
  unfold embedMacro
  have h1 := expandNodes_lep h
  have h := fun c => h c
  lep_walk

theorem getMacro_lep {rec rec' : Rec} (h : LePRec rec rec') (call : PNode) (ps : List PNode) :
    LeP (getMacro rec call ps) (getMacro rec' call ps) := by
  unfold getMacro
  have h1 := expandNodes_lep h
  have h := fun c => h c
  lep_walk

theorem rawMacro_lep {rec rec' : Rec} (h : LePRec rec rec') (call : PNode) (ps : List PNode) :
    LeP (rawMacro rec call ps) (rawMacro rec' call ps) := by
  unfold rawMacro
  have h1 := expandNodes_lep h
  have h := fun c => h c
  lep_walk

theorem stringMacro_lep {rec rec' : Rec} (h : LePRec rec rec') (call : PNode) (ps : List PNode) :
    LeP (stringMacro rec call ps) (stringMacro rec' call ps) := by
  unfold stringMacro
  have h1 := expandNodes_lep h
  have h := fun c => h c
  lep_walk

theorem numberMacro_lep {rec rec' : Rec} (h : LePRec rec rec') (call : PNode) (ps : List PNode) :
    LeP (numberMacro rec call ps) (numberMacro rec' call ps) := by
  unfold numberMacro
  have h1 := expandNodes_lep h
  have h := fun c => h c
  lep_walk

theorem symbolMacro_lep {rec rec' : Rec} (h : LePRec rec rec') (call : PNode) (ps : List PNode) :
    LeP (symbolMacro rec call ps) (symbolMacro rec' call ps) := by
  unfold symbolMacro
  have h1 := expandNodes_lep h
  have h := fun c => h c
  lep_walk

theorem markdownMacro_lep {ext : Ext} {rec rec' : Rec} (h : LePRec rec rec') (call : PNode) (ps : List PNode) :
    LeP (markdownMacro ext rec call ps) (markdownMacro ext rec' call ps) := by
  unfold markdownMacro
  have h1 := expandNodes_lep h
  have h := fun c => h c
  lep_walk

theorem yamlMacro_lep {ext : Ext} {rec rec' : Rec} (h : LePRec rec rec') (call : PNode) (ps : List PNode) :
    LeP (yamlMacro ext rec call ps) (yamlMacro ext rec' call ps) := by
  unfold yamlMacro
  have h1 := expandNodes_lep h
  have h := fun c => h c
  lep_walk

theorem tomlMacro_lep {ext : Ext} {rec rec' : Rec} (h : LePRec rec rec') (call : PNode) (ps : List PNode) :
    LeP (tomlMacro ext rec call ps) (tomlMacro ext rec' call ps) := by
  unfold tomlMacro
  have h1 := expandNodes_lep h
  have h := fun c => h c
  lep_walk

theorem globMacro_lep {ext : Ext} {rec rec' : Rec} (h : LePRec rec rec') (call : PNode) (ps : List PNode) :
    LeP (globMacro ext rec call ps) (globMacro ext rec' call ps) := by
  unfold globMacro
  have h1 := expandNodes_lep h
  have h := fun c => h c
  lep_walk

theorem sortMacro_lep {ext : Ext} {rec rec' : Rec} (h : LePRec rec rec') (call : PNode) (ps : List PNode) :
    LeP (sortMacro ext rec call ps) (sortMacro ext rec' call ps) := by
  unfold sortMacro
  have h1 := expandNodes_lep h
  have h2 := sortKeys_lep h call
  have h := fun c => h c
  lep_walk

theorem reverseMacro_lep {rec rec' : Rec} (h : LePRec rec rec') (call : PNode) (ps : List PNode) :
    LeP (reverseMacro rec call ps) (reverseMacro rec' call ps) := by
  unfold reverseMacro
  have h1 := expandNodes_lep h
  have h := fun c => h c
  lep_walk

theorem dateMacro_lep {ext : Ext} {rec rec' : Rec} (h : LePRec rec rec') (call : PNode) (ps : List PNode) :
    LeP (dateMacro ext rec call ps) (dateMacro ext rec' call ps) := by
  unfold dateMacro
  have h1 := expandNodes_lep h
  have h := fun c => h c
  lep_walk

theorem timestampMacro_lep {ext : Ext} {rec rec' : Rec} (h : LePRec rec rec') (call : PNode) (ps : List PNode) :
    LeP (timestampMacro ext rec call ps) (timestampMacro ext rec' call ps) := by
  unfold timestampMacro
  have h1 := expandNodes_lep h
  have h := fun c => h c
  lep_walk

theorem joinMacro_lep {rec rec' : Rec} (h : LePRec rec rec') (call : PNode) (ps : List PNode) :
    LeP (joinMacro rec call ps) (joinMacro rec' call ps) := by
  unfold joinMacro
  have h1 := expandNodes_lep h
  have h := fun c => h c
  lep_walk

theorem concatMacro_lep {rec rec' : Rec} (h : LePRec rec rec') (call : PNode) (ps : List PNode) :
    LeP (concatMacro rec call ps) (concatMacro rec' call ps) := by
  unfold concatMacro
  have h1 := expandNodes_lep h
  have h := fun c => h c
  lep_walk

theorem mapMacro_lep {rec rec' : Rec} (h : LePRec rec rec') (call : PNode) (ps : List PNode) :
    LeP (mapMacro rec call ps) (mapMacro rec' call ps) := by
  unfold mapMacro
  have h1 := expandNodes_lep h
  have h2 := mapLoop_lep h call
  have h := fun c => h c
  lep_walk

theorem filterMacro_lep {rec rec' : Rec} (h : LePRec rec rec') (call : PNode) (ps : List PNode) :
    LeP (filterMacro rec call ps) (filterMacro rec' call ps) := by
  unfold filterMacro
  have h1 := expandNodes_lep h
  have h2 := filterLoop_lep h call
  have h := fun c => h c
  lep_walk

theorem listMacro_lep {rec rec' : Rec} (h : LePRec rec rec') (call : PNode) (ps : List PNode) :
    LeP (listMacro rec call ps) (listMacro rec' call ps) := by
  unfold listMacro
  have h1 := expandNodes_lep h
  have h := fun c => h c
  lep_walk

theorem applyMacro_lep {rec rec' : Rec} (h : LePRec rec rec') (call : PNode) (ps : List PNode) :
    LeP (applyMacro rec call ps) (applyMacro rec' call ps) := by
  unfold applyMacro
  have h1 := expandNodes_lep h
  have h := fun c => h c
  lep_walk

theorem logMacro_lep {rec rec' : Rec} (h : LePRec rec rec') (call : PNode) (ps : List PNode) :
    LeP (logMacro rec call ps) (logMacro rec' call ps) := by
  unfold logMacro
  have h1 := expandNodes_lep h
  have h := fun c => h c
  lep_walk

theorem formatMacro_lep {ext : Ext} {rec rec' : Rec} (h : LePRec rec rec') (call : PNode) (ps : List PNode) :
    LeP (formatMacro ext rec call ps) (formatMacro ext rec' call ps) := by
  unfold formatMacro
  have h1 := expandNodes_lep h
  have h := fun c => h c
  lep_walk

theorem osEnvMacro_lep {ext : Ext} {rec rec' : Rec} (h : LePRec rec rec') (call : PNode) (ps : List PNode) :
    LeP (osEnvMacro ext rec call ps) (osEnvMacro ext rec' call ps) := by
  unfold osEnvMacro
  have h1 := expandNodes_lep h
  have h := fun c => h c
  lep_walk

theorem matchMacro_lep {rec rec' : Rec} (h : LePRec rec rec') (call : PNode) (ps : List PNode) :
    LeP (matchMacro rec call ps) (matchMacro rec' call ps) := by
  unfold matchMacro
  have h1 := expandNodes_lep h
  have h2 := matchLoop_lep h
  have h := fun c => h c
  lep_walk

theorem forMacro_lep {rec rec' : Rec} (h : LePRec rec rec') (call : PNode) (ps : List PNode) :
    LeP (forMacro rec call ps) (forMacro rec' call ps) := by
  unfold forMacro
  have h1 := expandNodes_lep h
  have h2 := forLoop_lep h
  have h := fun c => h c
  lep_walk

theorem splatMacro_lep {rec rec' : Rec} (h : LePRec rec rec') (ps : List PNode) :
    LeP (splatMacro rec ps) (splatMacro rec' ps) :=
  LeP.bind (expandNodes_lep h _) fun _ => LeP.refl _

theorem stripMacro_lep {rec rec' : Rec} (h : LePRec rec rec') (ps : List PNode) :
    LeP (stripMacro rec ps) (stripMacro rec' ps) :=
  LeP.bind (expandNodes_lep h _) fun _ => LeP.refl _

theorem userMacro_lep {rec rec' : Rec} (h : LePRec rec rec') (name : Str) (call : PNode) (ps : List PNode) :
    LeP (userMacro rec name call ps) (userMacro rec' name call ps) := by
  unfold userMacro
  have h1 := expandNodes_lep h
  lep_walk

theorem runBuiltin_lep {ext : Ext} {rec rec' : Rec} (h : LePRec rec rec') (b : Builtin) (call : PNode) (ps : List PNode) :
    LeP (runBuiltin ext rec b call ps) (runBuiltin ext rec' b call ps) := by
  cases b
  all_goals first
    | exact LeP.refl _
    | exact expandNodes_lep h _
    | exact defineMacro_lep h _ _
    | exact ifdefMacro_lep h _ _
    | exact includeMacro_lep h _ _
    | exact embedMacro_lep h _ _
    | exact getMacro_lep h _ _
    | exact rawMacro_lep h _ _
    | exact stringMacro_lep h _ _
    | exact numberMacro_lep h _ _
    | exact symbolMacro_lep h _ _
    | exact markdownMacro_lep h _ _
    | exact yamlMacro_lep h _ _
    | exact tomlMacro_lep h _ _
    | exact globMacro_lep h _ _
    | exact sortMacro_lep h _ _
    | exact reverseMacro_lep h _ _
    | exact dateMacro_lep h _ _
    | exact timestampMacro_lep h _ _
    | exact joinMacro_lep h _ _
    | exact concatMacro_lep h _ _
    | exact mapMacro_lep h _ _
    | exact filterMacro_lep h _ _
    | exact listMacro_lep h _ _
    | exact applyMacro_lep h _ _
    | exact logMacro_lep h _ _
    | exact formatMacro_lep h _ _
    | exact osEnvMacro_lep h _ _
    | exact matchMacro_lep h _ _
    | exact forMacro_lep h _ _
    | exact splatMacro_lep h _
    | exact stripMacro_lep h _
    | exact namespaceMacro_lep h _ _


theorem LeP.trans {α : Type} {a b c : M α} (h : LeP a b) (h' : LeP b c) : LeP a c := by
  intro s
  rcases h s with h1 | h1
  · exact Or.inl h1
  · rcases h' s with h2 | h2
    · left; rw [h1]; exact h2
    · right; rw [h1, h2]

theorem LeP.panic {α : Type} (m : M α) : LeP M.panic m := fun _ => Or.inl rfl

/-! ## The outside world -/

/-- What decides whether the YAML converter panics. -/
structure SameShape (k k' : YSink) : Prop where
  defining : k.defining.isSome = k'.defining.isSome
  mode : k.mode = k'.mode
  modes : k.modes = k'.modes
  pref : k.pref.length = k'.pref.length

theorem SameShape.symm {k k' : YSink} (h : SameShape k k') : SameShape k' k :=
  ⟨h.1.symm, h.2.symm, h.3.symm, h.4.symm⟩

theorem yEvent_shape (site site' : Site) (sep sep' : Str) (e : YEvent) {k k' : YSink} (h : SameShape k k') (s s' : St) :
    ((yEvent site sep k e s).1 = .panic ∧ (yEvent site' sep' k' e s').1 = .panic) ∨
    ∃ l l' t t', yEvent site sep k e s = (.ok l, t) ∧ yEvent site' sep' k' e s' = (.ok l', t') ∧ SameShape l l' := by
  obtain ⟨d, ns, ps, pf, m, ms⟩ := k
  obtain ⟨d', ns', ps', pf', m', ms'⟩ := k'
  obtain ⟨h1, h2, h3, h4⟩ := h
  simp only at h1 h2 h3 h4
  subst h2 h3
  have hst : ∀ md, SameShape (yStart md ⟨d, ns, ps, pf, m, ms⟩) (yStart md ⟨d', ns', ps', pf', m, ms⟩) := by
    intro md
    constructor
    · cases md <;> rfl
    · rfl
    · rfl
    · simp only [yStart]
      cases d <;> cases d' <;> simp_all
  have hend : ((yEnd site sep ⟨d, ns, ps, pf, m, ms⟩ s).1 = .panic ∧ (yEnd site' sep' ⟨d', ns', ps', pf', m, ms⟩ s').1 = .panic) ∨
      ∃ l l' t t', yEnd site sep ⟨d, ns, ps, pf, m, ms⟩ s = (.ok l, t) ∧
        yEnd site' sep' ⟨d', ns', ps', pf', m, ms⟩ s' = (.ok l', t') ∧ SameShape l l' := by
    rcases pf with _ | ⟨p, pf⟩ <;> rcases pf' with _ | ⟨p', pf'⟩ <;> simp only [List.length_nil, List.length_cons] at h4 <;> try omega
    · rcases ms with _ | ⟨_ | _, ms⟩
      · exact Or.inr ⟨_, _, _, _, rfl, rfl, rfl, rfl, rfl, rfl⟩
      · exact Or.inl ⟨rfl, rfl⟩
      · exact Or.inr ⟨_, _, _, _, rfl, rfl, rfl, rfl, rfl, rfl⟩
    · rcases ms with _ | ⟨_ | _, ms⟩
      · exact Or.inr ⟨_, _, _, _, rfl, rfl, rfl, rfl, rfl, by simpa using h4⟩
      · exact Or.inr ⟨_, _, _, _, rfl, rfl, rfl, rfl, rfl, by simpa using h4⟩
      · exact Or.inr ⟨_, _, _, _, rfl, rfl, rfl, rfl, rfl, by simpa using h4⟩
  cases e with
  | mapStart => exact Or.inr ⟨_, _, _, _, rfl, rfl, hst _⟩
  | seqStart => exact Or.inr ⟨_, _, _, _, rfl, rfl, hst _⟩
  | mapEnd => exact hend
  | seqEnd => exact hend
  | other => exact Or.inr ⟨_, _, _, _, rfl, rfl, h1, rfl, rfl, h4⟩
  | scalar v =>
    rcases d with _ | d <;> rcases d' with _ | d' <;> simp only [Option.isSome_none, Option.isSome_some, reduceCtorEq] at h1
    · rcases m with _ | _ | _
      · exact Or.inr ⟨_, _, _, _, rfl, rfl, rfl, rfl, rfl, h4⟩
      · exact Or.inr ⟨_, _, _, _, rfl, rfl, rfl, rfl, rfl, h4⟩
      · exact Or.inl ⟨rfl, rfl⟩
    · rcases m with _ | _ | _
      · exact Or.inl ⟨rfl, rfl⟩
      · exact Or.inr ⟨_, _, _, _, rfl, rfl, rfl, rfl, rfl, h4⟩
      · exact Or.inr ⟨_, _, _, _, rfl, rfl, rfl, rfl, rfl, h4⟩

/-- Whether the YAML converter panics depends on the events only. -/
theorem yEvents_panic (site site' : Site) (sep sep' : Str) : ∀ (es : List YEvent) {k k' : YSink}, SameShape k k' → ∀ s s',
    (yEvents site sep k es s).1 = .panic → (yEvents site' sep' k' es s').1 = .panic
  | [], _, _, _, _, _, hp => by simp [yEvents, M.pure_def] at hp
  | e :: es, k, k', h, s, s', hp => by
    rw [yEvents, M.bind_def] at hp ⊢
    rcases yEvent_shape site site' sep sep' e h s s' with ⟨_, h2⟩ | ⟨l, l', t, t', h1, h2, hl⟩
    · rcases hy : yEvent site' sep' k' e s' with ⟨r, t⟩
      rw [hy] at h2
      simp only at h2
      subst h2
      rfl
    · rw [h1] at hp
      rw [h2]
      exact yEvents_panic site site' sep sep' es hl t t' hp

theorem calmed_calm (ext : Ext) : Calm (calmed ext) where
  yaml := by
    intro text site sep s
    simp only [calmed]
    split
    · simp [yEvents, M.pure_def]
    · rename_i h
      exact fun hp => h ⟨site, sep, s, hp⟩
  tz := by
    intro text bits h
    simp only [calmed] at h
    split at h
    · split at h
      · simp at h
      · rename_i h1
        cases h
        exact h1
    · simp at h
  date := by simp [calmed]
  glob := by
    intro p fs h
    simp only [calmed, Option.map_eq_some_iff] at h
    obtain ⟨gs, _, rfl⟩ := h
    intro hm
    obtain ⟨f, _, hf⟩ := List.mem_map.1 hm
    rcases f with _ | _ | f <;> simp at hf

theorem expandYaml_calmed (ext : Ext) (text sep : Str) (site : Site) :
    LeP (expandYaml ext text sep site) (expandYaml (calmed ext) text sep site) := by
  intro s
  by_cases h : ∃ site sep s, (yEvents site sep YSink.init (ext.yaml text).1 s).1 = .panic
  · left
    obtain ⟨site', sep', s', h⟩ := h
    have h := yEvents_panic site' site sep' sep _ (k := YSink.init) (k' := YSink.init) ⟨rfl, rfl, rfl, rfl⟩ s' s h
    unfold expandYaml
    rcases hy : ext.yaml text with ⟨events, ok⟩
    rw [hy] at h
    dsimp only at h ⊢
    rw [M.bind_def]
    rcases hk : yEvents site sep YSink.init events s with ⟨r, t⟩
    rw [hk] at h
    simp only at h
    subst h
    rfl
  · right
    have : (calmed ext).yaml text = ext.yaml text := by simp only [calmed, if_neg h]
    unfold expandYaml
    rw [this]

theorem timezone_calmed (ext : Ext) (tz : Option Node) : LeP (timezone ext tz) (timezone (calmed ext) tz) := by
  cases tz with
  | none => exact LeP.refl _
  | some n =>
    unfold timezone
    simp only [calmed]
    rcases ext.fixed n.value with _ | bits
    · exact LeP.refl _
    · simp only
      rcases hb : tzSeconds bits with _ | r
      · exact LeP.panic _
      · simp only [reduceCtorEq, if_false, hb]
        exact LeP.refl _

theorem globCollect_calmed (site : Site) (type : Option Str) (by_ : SortBy) : ∀ (fs : List (Option (Option GFile))) (acc : List GFile),
    globCollect site type by_ acc fs = .panic ∨ globCollect site type by_ acc fs =
      globCollect site type by_ acc (fs.map fun f => match f with | some none => none | f => f)
  | [], _ => Or.inr rfl
  | none :: _, _ => Or.inr rfl
  | some none :: _, _ => Or.inl rfl
  | some (some _) :: rest, _ => globCollect_calmed site type by_ rest _

theorem globMacro_calmed (ext : Ext) (rec : Rec) (call : PNode) (ps : List PNode) :
    LeP (globMacro ext rec call ps) (globMacro (calmed ext) rec call ps) := by
  unfold globMacro
  refine LeP.bind (LeP.refl _) fun ps => LeP.bind (LeP.refl _) fun args => LeP.bind (LeP.refl _) fun pat =>
    LeP.bind (LeP.refl _) fun type => LeP.bind (LeP.refl _) fun sort => LeP.bind (LeP.refl _) fun order => ?_
  dsimp only
  split
  · split
    · exact LeP.refl _
    · rename_i by_ _
      simp only [calmed]
      rcases ext.glob pat.value with _ | fs
      · exact LeP.refl _
      · refine LeP.bind ?_ fun _ => LeP.refl _
        rcases globCollect_calmed pat.site (type.map (·.value)) by_ fs [] with h | h
        · rw [h]; exact fun _ => Or.inl rfl
        · rw [h]; exact LeP.refl _
  · exact LeP.refl _

theorem dateMacro_calmed (ext : Ext) (rec : Rec) (call : PNode) (ps : List PNode) :
    LeP (dateMacro ext rec call ps) (dateMacro (calmed ext) rec call ps) := by
  unfold dateMacro
  refine LeP.bind (LeP.refl _) fun ps => LeP.bind (LeP.refl _) fun args => LeP.bind (LeP.refl _) fun fmt =>
    LeP.bind (LeP.refl _) fun time => LeP.bind (LeP.refl _) fun tz => LeP.bind (timezone_calmed ext tz) fun off => ?_
  have hd : ∀ secs : Option Int, LeP
      (if eastOk off = true then
        match ext.date secs off fmt.value with
        | some text => pure [PNode.string (callNode call text)]
        | none => M.panic
       else M.fail "Failed to compute UTC+(east) offset." (match tz with | some n => n.site | none => call.site) : M (List PNode))
      (if eastOk off = true then
        match (calmed ext).date secs off fmt.value with
        | some text => pure [PNode.string (callNode call text)]
        | none => M.panic
       else M.fail "Failed to compute UTC+(east) offset." (match tz with | some n => n.site | none => call.site) : M (List PNode)) := by
    intro secs
    split
    · simp only [calmed]
      rcases ext.date secs off fmt.value with _ | t
      · exact LeP.panic _
      · exact LeP.refl _
    · exact LeP.refl _
  cases time with
  | none => exact LeP.bind (LeP.refl _) hd
  | some t =>
    dsimp only
    rcases parseI64 t.value with _ | i
    · exact LeP.bind (LeP.refl _) hd
    · dsimp only
      show LeP (if ext.validTime i = true then _ else _) (if ext.validTime i = true then _ else _)
      split
      · exact LeP.bind (LeP.refl _) hd
      · exact LeP.bind (LeP.refl _) hd

theorem timestampMacro_calmed (ext : Ext) (rec : Rec) (call : PNode) (ps : List PNode) :
    LeP (timestampMacro ext rec call ps) (timestampMacro (calmed ext) rec call ps) := by
  unfold timestampMacro
  exact LeP.bind (LeP.refl _) fun ps => LeP.bind (LeP.refl _) fun args => LeP.bind (LeP.refl _) fun fmt =>
    LeP.bind (LeP.refl _) fun time => LeP.bind (LeP.refl _) fun tz => LeP.bind (timezone_calmed ext tz) fun off => LeP.refl _

theorem yamlMacro_calmed (ext : Ext) (rec : Rec) (call : PNode) (ps : List PNode) :
    LeP (yamlMacro ext rec call ps) (yamlMacro (calmed ext) rec call ps) := by
  unfold yamlMacro
  exact LeP.bind (LeP.refl _) fun ps => LeP.bind (LeP.refl _) fun args => LeP.bind (LeP.refl _) fun text =>
    LeP.bind (LeP.refl _) fun sep => expandYaml_calmed ext _ _ _

theorem ignoreErr_lep {m m' : M Unit} (h : LeP m m') : LeP (ignoreErr m) (ignoreErr m') := by
  intro s
  unfold ignoreErr
  rcases h s with h | h
  · left
    rcases hm : m s with ⟨r, t⟩
    rw [hm] at h
    simp only at h
    subst h
    rfl
  · right; rw [h]

theorem frontmatter_calmed (ext : Ext) (text sep : Str) (call : PNode) (site : Site) :
    LeP (frontmatter ext text sep call site) (frontmatter (calmed ext) text sep call site) := by
  unfold frontmatter
  have e : (calmed ext).mdFront = ext.mdFront := rfl
  rw [e]
  cases ext.mdFront text with
  | yaml y => exact LeP.bind (expandYaml_calmed ext _ _ _) fun _ => LeP.refl _
  | _ => exact LeP.refl _

theorem markdownMacro_calmed (ext : Ext) (rec : Rec) (call : PNode) (ps : List PNode) :
    LeP (markdownMacro ext rec call ps) (markdownMacro (calmed ext) rec call ps) := by
  unfold markdownMacro
  refine LeP.bind (LeP.refl _) fun ps => LeP.bind (LeP.refl _) fun args => LeP.bind (LeP.refl _) fun contents =>
    LeP.bind (LeP.refl _) fun only => LeP.bind (LeP.refl _) fun sep => ?_
  have hf := frontmatter_calmed ext contents.value (sepOf sep) call contents.site
  cases only with
  | none => exact LeP.bind (ignoreErr_lep hf) fun _ => LeP.refl _
  | some o =>
    dsimp only
    split
    · exact LeP.bind hf fun _ => LeP.refl _
    · exact LeP.refl _

theorem findInclude_calmed (ext : Ext) (path : Str) : ∀ dirs, findInclude (calmed ext) path dirs = findInclude ext path dirs
  | [] => rfl
  | _ :: dirs => by
    have ih := findInclude_calmed ext path dirs
    simp only [findInclude]
    rw [ih]
    rfl

theorem findEmbed_calmed (ext : Ext) (path : Str) : ∀ dirs, findEmbed (calmed ext) path dirs = findEmbed ext path dirs
  | [] => rfl
  | _ :: dirs => by
    have ih := findEmbed_calmed ext path dirs
    simp only [findEmbed]
    rw [ih]
    rfl

theorem includeMacro_calmed (ext : Ext) (rec : Rec) (call : PNode) (ps : List PNode) :
    LeP (includeMacro ext rec call ps) (includeMacro (calmed ext) rec call ps) := by
  unfold includeMacro
  simp only [findInclude_calmed]
  exact LeP.refl _

theorem embedMacro_calmed (ext : Ext) (rec : Rec) (call : PNode) (ps : List PNode) :
    LeP (embedMacro ext rec call ps) (embedMacro (calmed ext) rec call ps) := by
  unfold embedMacro
  simp only [findEmbed_calmed]
  exact LeP.refl _

theorem runBuiltin_calmed (ext : Ext) (rec : Rec) (b : Builtin) (call : PNode) (ps : List PNode) :
    LeP (runBuiltin ext rec b call ps) (runBuiltin (calmed ext) rec b call ps) := by
  cases b with
  | markdown => exact markdownMacro_calmed ext rec call ps
  | yaml => exact yamlMacro_calmed ext rec call ps
  | glob => exact globMacro_calmed ext rec call ps
  | date => exact dateMacro_calmed ext rec call ps
  | timestamp => exact timestampMacro_calmed ext rec call ps
  | include_ => exact includeMacro_calmed ext rec call ps
  | embed => exact embedMacro_calmed ext rec call ps
  | _ => exact LeP.refl _

/-! ## The mended expander -/

theorem mendedNode_lep {rec rec' : Rec} (h : LePRec rec rec') (n : PNode) : LeP (expandNode rec n) (mendedNode rec' n) := by
  have h1 := expandNodes_lep h
  cases n with
  | attr k n s w =>
    refine LeP.bind (h _) fun ns => ?_
    cases ns with
    | nil => exact LeP.panic _
    | cons => exact LeP.refl _
  | symbol a =>
    show LeP (expandNode rec (.symbol a)) (expandNode rec' (.symbol a))
    simp only [expandNode, expandVariable]
    lep_walk
  | list ns s e w =>
    have h := fun c => h c
    show LeP (expandNode rec (.list ns s e w)) (expandNode rec' (.list ns s e w))
    unfold expandNode
    lep_walk
  | _ => exact LeP.refl _

theorem mendedRun_lep (ext : Ext) : ∀ fuel, LePRec (run ext fuel) (mendedRun (calmed ext) fuel)
  | 0 => fun _ => LeP.refl _
  | fuel + 1 => by
    intro c
    have ih := mendedRun_lep ext fuel
    cases c with
    | node n => exact mendedNode_lep ih n
    | invoke name call ps =>
      show LeP (expandInvocation ext _ name call ps) (expandInvocation _ _ name call ps)
      unfold expandInvocation
      split
      · exact (runBuiltin_calmed ext _ _ _ _).trans (runBuiltin_lep ih _ _ _)
      · exact userMacro_lep ih _ _ _

section
variable {S : Region} {rec : Rec} {ext : Ext}

theorem mendedNode_snd (hcall : ∀ t b, S.mark (.name ('%' :: t)) → builtin? t = some b → S.uses b) (hr : RecSnd S True rec) {n : PNode} (hn : Good S n) : Snd S True (Goods S) (mendedNode rec n) := by
  cases n with
  | attr k v s w =>
    refine Snd.bind (hr.node _ hn.value) fun ns h => ?_
    cases ns with
    | nil => exact Snd.fail hn.site
    | cons n' rest => exact Snd.pure (goods_cons (good_attr h.head hn.site hn.key) h.tail)
  | _ => exact expandNode_snd hcall hr hn fun _ => rfl

theorem mendedRun_grows (ext : Ext) : ∀ fuel, ClosedRec Grows (mendedRun ext fuel)
  | 0 => fun _ => grow.lift _
  | fuel + 1 => by
    have ih := mendedRun_grows ext fuel
    intro c
    cases c with
    | node n =>
      cases n with
      | attr k v s w =>
        refine grow.bind (ih _) fun ns => ?_
        cases ns with
        | nil => exact grow.fail _ _
        | cons n' rest => exact grow.pure _
      | _ => exact step_closed grow ext ih (.node _)
    | invoke name call ps => exact step_closed grow ext ih (.invoke name call ps)

theorem mendedRun_snd (he : ExtSnd S True ext) : ∀ fuel, RecSnd S True (mendedRun ext fuel)
  | 0 => ⟨mendedRun_grows ext 0, fun _ _ => Snd.lift trivial, fun _ _ _ _ _ _ _ => Snd.lift trivial⟩
  | fuel + 1 => ⟨mendedRun_grows ext _, fun _ h => mendedNode_snd he.src.call (mendedRun_snd he fuel) h,
      fun _ _ _ hl hu hc hp => expandInvocation_snd he (mendedRun_snd he fuel) hl hu hc hp⟩
end

end Seam
