import Verif.Model.Expander

/-!
# More fuel does not change an outcome

`Le m m'`: wherever `m` does not run out of fuel, `m'` does the same.  All of the
expander is monotone in its recursive calls with respect to this order.
-/

namespace Seam

/-- `m` runs out of fuel or does the same as `m'`. -/
def Le {α : Type} (m m' : M α) : Prop := ∀ s, (m s).1 = .diverge ∨ m s = m' s

/-- The same for the recursive calls. -/
def LeRec (rec rec' : Rec) : Prop := ∀ c, Le (rec c) (rec' c)

theorem Le.refl {α : Type} (m : M α) : Le m m := fun _ => Or.inr rfl

theorem M.bind_def {α β : Type} (m : M α) (f : α → M β) (s : St) : (m >>= f) s =
    match m s with
    | (.ok a, s') => f a s'
    | (.err e, s') => (.err e, s')
    | (.panic, s') => (.panic, s')
    | (.diverge, s') => (.diverge, s') := rfl

theorem Le.bind {α β : Type} {m m' : M α} {f f' : α → M β} (h : Le m m') (hf : ∀ a, Le (f a) (f' a)) :
    Le (m >>= f) (m' >>= f') := by
  intro s
  rw [M.bind_def, M.bind_def]
  rcases h s with h | h
  · left
    rcases hm : m s with ⟨r, t⟩
    rw [hm] at h
    simp only at h
    subst h
    rfl
  · rw [← h]
    rcases hm : m s with ⟨r, t⟩
    cases r with
    | ok a => exact hf a t
    | _ => right; rfl

theorem Le.inner {α : Type} {m m' : M α} (h : Le m m') : Le (M.inner m) (M.inner m') := by
  intro s
  unfold M.inner
  rcases h s with h | h
  · left; exact h
  · right; rw [h]

theorem Le.rethrow {α : Type} {m m' : M α} {msg : String} {site : Site} (h : Le m m') :
    Le (rethrow msg site m) (rethrow msg site m') := by
  intro s
  unfold Seam.rethrow
  rcases h s with h | h
  · left
    rcases hm : m s with ⟨r, t⟩
    rw [hm] at h
    simp only at h
    subst h
    rfl
  · right; rw [h]

/-- Walk through a do block. -/
macro "le_walk" : tactic =>
  `(tactic| repeat' (first
    | exact Le.refl _
    | apply_assumption
    | (apply Le.inner)
    | (refine Le.bind ?_ (fun _ => ?_))
    | (split <;> try dsimp only)))

theorem expandNodes_le {rec rec' : Rec} (h : LeRec rec rec') : ∀ ns, Le (expandNodes rec ns) (expandNodes rec' ns)
  | [] => Le.refl _
  | _ :: ns => Le.bind (h _) fun _ => Le.bind (expandNodes_le h ns) fun _ => Le.refl _

theorem matchLoop_le {rec rec' : Rec} (h : LeRec rec rec') (expr : PNode) :
    ∀ ps, Le (matchLoop rec expr ps) (matchLoop rec' expr ps)
  | [] => Le.refl _
  | p :: ps => by
    unfold matchLoop
    split <;> try exact Le.refl _
    refine Le.bind (h _) fun pats => ?_
    rcases pats with _ | ⟨pat', _ | ⟨_, _⟩⟩ <;> dsimp only <;> try exact Le.refl _
    intro s
    dsimp only
    split
    · rename_i s' _
      rcases expandNodes_le h _ s' with h1 | h1
      · left; exact h1
      · right; simp only [M.inner, h1]
    · exact matchLoop_le h expr ps _
    · right; rfl
    · right; rfl

theorem forLoop_le {rec rec' : Rec} (h : LeRec rec rec') (it : PNode) (body : List PNode) :
    ∀ ns, Le (forLoop rec it body ns) (forLoop rec' it body ns)
  | [] => Le.refl _
  | _ :: ns => Le.bind (Le.refl _) fun _ => Le.bind (expandNodes_le h _) fun _ =>
      Le.bind (forLoop_le h it body ns) fun _ => Le.refl _

theorem mapLoop_le {rec rec' : Rec} (h : LeRec rec rec') (call : PNode) (f : Str) :
    ∀ ns, Le (mapLoop rec call f ns) (mapLoop rec' call f ns)
  | [] => Le.refl _
  | _ :: ns => Le.bind (h _) fun _ => Le.bind (mapLoop_le h call f ns) fun _ => Le.refl _

theorem filterLoop_le {rec rec' : Rec} (h : LeRec rec rec') (call : PNode) (f : Str) :
    ∀ ns, Le (filterLoop rec call f ns) (filterLoop rec' call f ns)
  | [] => Le.refl _
  | _ :: ns => Le.bind (h _) fun _ => Le.bind (filterLoop_le h call f ns) fun _ => Le.refl _

theorem sortKeys_le {rec rec' : Rec} (h : LeRec rec rec') (call : PNode) (f : Str) (site : Site) :
    ∀ ns, Le (sortKeys rec call f site ns) (sortKeys rec' call f site ns)
  | [] => Le.refl _
  | n :: ns => by
    have ih := sortKeys_le h call f site ns
    unfold sortKeys
    refine Le.bind (Le.rethrow (h _)) fun _ => ?_
    le_walk

theorem namespaceMacro_le {rec rec' : Rec} (h : LeRec rec rec') (call : PNode) (ps : List PNode) :
    Le (namespaceMacro rec call ps) (namespaceMacro rec' call ps) := by
  intro s
  unfold namespaceMacro
  rcases expandNodes_le h ps s with h1 | h1
  · left
    rcases hr : expandNodes rec ps s with ⟨r, t⟩
    rw [hr] at h1
    simp only at h1
    subst h1
    rfl
  · right; rw [h1]

theorem defineMacro_le {rec rec' : Rec} (h : LeRec rec rec') (call : PNode) (ps : List PNode) :
    Le (defineMacro rec call ps) (defineMacro rec' call ps) := by
  unfold defineMacro
  have h1 := expandNodes_le h
  have h := fun c => h c
  le_walk

theorem ifdefMacro_le {rec rec' : Rec} (h : LeRec rec rec') (call : PNode) (ps : List PNode) :
    Le (ifdefMacro rec call ps) (ifdefMacro rec' call ps) := by
  unfold ifdefMacro
  have h1 := expandNodes_le h
  have h := fun c => h c
  le_walk

theorem includeMacro_le {ext : Ext} {rec rec' : Rec} (h : LeRec rec rec') (call : PNode) (ps : List PNode) :
    Le (includeMacro ext rec call ps) (includeMacro ext rec' call ps) := by
  unfold includeMacro
  have h1 := expandNodes_le h
  have h := fun c => h c
  le_walk

theorem embedMacro_le {ext : Ext} {rec rec' : Rec} (h : LeRec rec rec') (call : PNode) (ps : List PNode) :
    Le (embedMacro ext rec call ps) (embedMacro ext rec' call ps) := by
  unfold embedMacro
  have h1 := expandNodes_le h
  have h := fun c => h c
  le_walk

theorem getMacro_le {rec rec' : Rec} (h : LeRec rec rec') (call : PNode) (ps : List PNode) :
    Le (getMacro rec call ps) (getMacro rec' call ps) := by
  unfold getMacro
  have h1 := expandNodes_le h
  have h := fun c => h c
  le_walk

theorem rawMacro_le {rec rec' : Rec} (h : LeRec rec rec') (call : PNode) (ps : List PNode) :
    Le (rawMacro rec call ps) (rawMacro rec' call ps) := by
  unfold rawMacro
  have h1 := expandNodes_le h
  have h := fun c => h c
  le_walk

theorem stringMacro_le {rec rec' : Rec} (h : LeRec rec rec') (call : PNode) (ps : List PNode) :
    Le (stringMacro rec call ps) (stringMacro rec' call ps) := by
  unfold stringMacro
  have h1 := expandNodes_le h
  have h := fun c => h c
  le_walk

theorem numberMacro_le {rec rec' : Rec} (h : LeRec rec rec') (call : PNode) (ps : List PNode) :
    Le (numberMacro rec call ps) (numberMacro rec' call ps) := by
  unfold numberMacro
  have h1 := expandNodes_le h
  have h := fun c => h c
  le_walk

theorem symbolMacro_le {rec rec' : Rec} (h : LeRec rec rec') (call : PNode) (ps : List PNode) :
    Le (symbolMacro rec call ps) (symbolMacro rec' call ps) := by
  unfold symbolMacro
  have h1 := expandNodes_le h
  have h := fun c => h c
  le_walk

theorem markdownMacro_le {ext : Ext} {rec rec' : Rec} (h : LeRec rec rec') (call : PNode) (ps : List PNode) :
    Le (markdownMacro ext rec call ps) (markdownMacro ext rec' call ps) := by
  unfold markdownMacro
  have h1 := expandNodes_le h
  have h := fun c => h c
  le_walk

theorem yamlMacro_le {ext : Ext} {rec rec' : Rec} (h : LeRec rec rec') (call : PNode) (ps : List PNode) :
    Le (yamlMacro ext rec call ps) (yamlMacro ext rec' call ps) := by
  unfold yamlMacro
  have h1 := expandNodes_le h
  have h := fun c => h c
  le_walk

theorem tomlMacro_le {ext : Ext} {rec rec' : Rec} (h : LeRec rec rec') (call : PNode) (ps : List PNode) :
    Le (tomlMacro ext rec call ps) (tomlMacro ext rec' call ps) := by
  unfold tomlMacro
  have h1 := expandNodes_le h
  have h := fun c => h c
  le_walk

theorem globMacro_le {ext : Ext} {rec rec' : Rec} (h : LeRec rec rec') (call : PNode) (ps : List PNode) :
    Le (globMacro ext rec call ps) (globMacro ext rec' call ps) := by
  unfold globMacro
  have h1 := expandNodes_le h
  have h := fun c => h c
  le_walk

theorem sortMacro_le {ext : Ext} {rec rec' : Rec} (h : LeRec rec rec') (call : PNode) (ps : List PNode) :
    Le (sortMacro ext rec call ps) (sortMacro ext rec' call ps) := by
  unfold sortMacro
  have h1 := expandNodes_le h
  have h2 := sortKeys_le h call
  have h := fun c => h c
  le_walk

theorem reverseMacro_le {rec rec' : Rec} (h : LeRec rec rec') (call : PNode) (ps : List PNode) :
    Le (reverseMacro rec call ps) (reverseMacro rec' call ps) := by
  unfold reverseMacro
  have h1 := expandNodes_le h
  have h := fun c => h c
  le_walk

theorem dateMacro_le {ext : Ext} {rec rec' : Rec} (h : LeRec rec rec') (call : PNode) (ps : List PNode) :
    Le (dateMacro ext rec call ps) (dateMacro ext rec' call ps) := by
  unfold dateMacro
  have h1 := expandNodes_le h
  have h := fun c => h c
  le_walk

theorem timestampMacro_le {ext : Ext} {rec rec' : Rec} (h : LeRec rec rec') (call : PNode) (ps : List PNode) :
    Le (timestampMacro ext rec call ps) (timestampMacro ext rec' call ps) := by
  unfold timestampMacro
  have h1 := expandNodes_le h
  have h := fun c => h c
  le_walk

theorem joinMacro_le {rec rec' : Rec} (h : LeRec rec rec') (call : PNode) (ps : List PNode) :
    Le (joinMacro rec call ps) (joinMacro rec' call ps) := by
  unfold joinMacro
  have h1 := expandNodes_le h
  have h := fun c => h c
  le_walk

theorem concatMacro_le {rec rec' : Rec} (h : LeRec rec rec') (call : PNode) (ps : List PNode) :
    Le (concatMacro rec call ps) (concatMacro rec' call ps) := by
  unfold concatMacro
  have h1 := expandNodes_le h
  have h := fun c => h c
  le_walk

theorem mapMacro_le {rec rec' : Rec} (h : LeRec rec rec') (call : PNode) (ps : List PNode) :
    Le (mapMacro rec call ps) (mapMacro rec' call ps) := by
  unfold mapMacro
  have h1 := expandNodes_le h
  have h2 := mapLoop_le h call
  have h := fun c => h c
  le_walk

theorem filterMacro_le {rec rec' : Rec} (h : LeRec rec rec') (call : PNode) (ps : List PNode) :
    Le (filterMacro rec call ps) (filterMacro rec' call ps) := by
  unfold filterMacro
  have h1 := expandNodes_le h
  have h2 := filterLoop_le h call
  have h := fun c => h c
  le_walk

theorem listMacro_le {rec rec' : Rec} (h : LeRec rec rec') (call : PNode) (ps : List PNode) :
    Le (listMacro rec call ps) (listMacro rec' call ps) := by
  unfold listMacro
  have h1 := expandNodes_le h
  have h := fun c => h c
  le_walk

theorem applyMacro_le {rec rec' : Rec} (h : LeRec rec rec') (call : PNode) (ps : List PNode) :
    Le (applyMacro rec call ps) (applyMacro rec' call ps) := by
  unfold applyMacro
  have h1 := expandNodes_le h
  have h := fun c => h c
  le_walk

theorem logMacro_le {rec rec' : Rec} (h : LeRec rec rec') (call : PNode) (ps : List PNode) :
    Le (logMacro rec call ps) (logMacro rec' call ps) := by
  unfold logMacro
  have h1 := expandNodes_le h
  have h := fun c => h c
  le_walk

theorem formatMacro_le {ext : Ext} {rec rec' : Rec} (h : LeRec rec rec') (call : PNode) (ps : List PNode) :
    Le (formatMacro ext rec call ps) (formatMacro ext rec' call ps) := by
  unfold formatMacro
  have h1 := expandNodes_le h
  have h := fun c => h c
  le_walk

theorem osEnvMacro_le {ext : Ext} {rec rec' : Rec} (h : LeRec rec rec') (call : PNode) (ps : List PNode) :
    Le (osEnvMacro ext rec call ps) (osEnvMacro ext rec' call ps) := by
  unfold osEnvMacro
  have h1 := expandNodes_le h
  have h := fun c => h c
  le_walk

theorem matchMacro_le {rec rec' : Rec} (h : LeRec rec rec') (call : PNode) (ps : List PNode) :
    Le (matchMacro rec call ps) (matchMacro rec' call ps) := by
  unfold matchMacro
  have h1 := expandNodes_le h
  have h2 := matchLoop_le h
  have h := fun c => h c
  le_walk

theorem forMacro_le {rec rec' : Rec} (h : LeRec rec rec') (call : PNode) (ps : List PNode) :
    Le (forMacro rec call ps) (forMacro rec' call ps) := by
  unfold forMacro
  have h1 := expandNodes_le h
  have h2 := forLoop_le h
  have h := fun c => h c
  le_walk

theorem splatMacro_le {rec rec' : Rec} (h : LeRec rec rec') (ps : List PNode) :
    Le (splatMacro rec ps) (splatMacro rec' ps) :=
  Le.bind (expandNodes_le h _) fun _ => Le.refl _

theorem stripMacro_le {rec rec' : Rec} (h : LeRec rec rec') (ps : List PNode) :
    Le (stripMacro rec ps) (stripMacro rec' ps) :=
  Le.bind (expandNodes_le h _) fun _ => Le.refl _

theorem userMacro_le {rec rec' : Rec} (h : LeRec rec rec') (name : Str) (call : PNode) (ps : List PNode) :
    Le (userMacro rec name call ps) (userMacro rec' name call ps) := by
  unfold userMacro
  have h1 := expandNodes_le h
  le_walk

theorem runBuiltin_le {ext : Ext} {rec rec' : Rec} (h : LeRec rec rec') (b : Builtin) (call : PNode) (ps : List PNode) :
    Le (runBuiltin ext rec b call ps) (runBuiltin ext rec' b call ps) := by
  cases b
  all_goals first
    | exact Le.refl _
    | exact expandNodes_le h _
    | exact defineMacro_le h _ _
    | exact ifdefMacro_le h _ _
    | exact includeMacro_le h _ _
    | exact embedMacro_le h _ _
    | exact getMacro_le h _ _
    | exact rawMacro_le h _ _
    | exact stringMacro_le h _ _
    | exact numberMacro_le h _ _
    | exact symbolMacro_le h _ _
    | exact markdownMacro_le h _ _
    | exact yamlMacro_le h _ _
    | exact tomlMacro_le h _ _
    | exact globMacro_le h _ _
    | exact sortMacro_le h _ _
    | exact reverseMacro_le h _ _
    | exact dateMacro_le h _ _
    | exact timestampMacro_le h _ _
    | exact joinMacro_le h _ _
    | exact concatMacro_le h _ _
    | exact mapMacro_le h _ _
    | exact filterMacro_le h _ _
    | exact listMacro_le h _ _
    | exact applyMacro_le h _ _
    | exact logMacro_le h _ _
    | exact formatMacro_le h _ _
    | exact osEnvMacro_le h _ _
    | exact matchMacro_le h _ _
    | exact forMacro_le h _ _
    | exact splatMacro_le h _
    | exact stripMacro_le h _
    | exact namespaceMacro_le h _ _

theorem step_le {ext : Ext} {rec rec' : Rec} (h : LeRec rec rec') : LeRec (step ext rec) (step ext rec') := by
  intro c
  cases c with
  | node n =>
    have h1 := expandNodes_le h
    have h := fun c => h c
    show Le (expandNode rec n) (expandNode rec' n)
    unfold expandNode expandVariable
    le_walk
  | invoke name call ps =>
    show Le (expandInvocation ext rec name call ps) (expandInvocation ext rec' name call ps)
    unfold expandInvocation
    split
    · exact runBuiltin_le h _ _ _
    · exact userMacro_le h _ _ _

theorem run_le (ext : Ext) : ∀ fuel, LeRec (run ext fuel) (run ext (fuel + 1))
  | 0 => fun _ _ => Or.inl rfl
  | fuel + 1 => step_le (run_le ext fuel)

theorem Le.trans {α : Type} {a b c : M α} (h : Le a b) (h' : Le b c) : Le a c := by
  intro s
  rcases h s with h1 | h1
  · exact Or.inl h1
  · rcases h' s with h2 | h2
    · left; rw [h1]; exact h2
    · right; rw [h1, h2]

theorem run_mono (ext : Ext) (fuel k : Nat) : LeRec (run ext fuel) (run ext (fuel + k)) := by
  induction k with
  | zero => exact fun _ => Le.refl _
  | succ k ih => exact fun c => (ih c).trans (run_le ext (fuel + k) c)

/-- Enough fuel: any two runs that do not run out of it agree. -/
theorem run_unique (ext : Ext) (c : Call) (s : St) {f g : Nat} {r r' : Res (List PNode)} {t t' : St}
    (h : run ext f c s = (r, t)) (hr : r ≠ .diverge) (h' : run ext g c s = (r', t')) (hr' : r' ≠ .diverge) :
    r = r' ∧ t = t' := by
  have key : ∀ {f k : Nat} {r r' : Res (List PNode)} {t t' : St},
      run ext f c s = (r, t) → r ≠ .diverge → run ext (f + k) c s = (r', t') → r = r' ∧ t = t' := by
    intro f k r r' t t' h hr h'
    rcases run_mono ext f k c s with h1 | h1
    · rw [h] at h1; exact absurd h1 hr
    · rw [h, h'] at h1
      exact Prod.mk.inj h1
  rcases Nat.le_total f g with hfg | hfg
  · obtain ⟨k, rfl⟩ := Nat.exists_eq_add_of_le hfg
    exact key h hr h'
  · obtain ⟨k, rfl⟩ := Nat.exists_eq_add_of_le hfg
    have := key h' hr' h
    exact ⟨this.1.symm, this.2.symm⟩

theorem expandNodes_unique (ext : Ext) (ns : List PNode) (s : St) {f g : Nat} {r r' : Res (List PNode)} {t t' : St}
    (h : expandNodes (run ext f) ns s = (r, t)) (hr : r ≠ .diverge)
    (h' : expandNodes (run ext g) ns s = (r', t')) (hr' : r' ≠ .diverge) :
    r = r' ∧ t = t' := by
  have key : ∀ {f k : Nat} {r r' : Res (List PNode)} {t t' : St},
      expandNodes (run ext f) ns s = (r, t) → r ≠ .diverge →
      expandNodes (run ext (f + k)) ns s = (r', t') → r = r' ∧ t = t' := by
    intro f k r r' t t' h hr h'
    rcases expandNodes_le (run_mono ext f k) ns s with h1 | h1
    · rw [h] at h1; exact absurd h1 hr
    · rw [h, h'] at h1
      exact Prod.mk.inj h1
  rcases Nat.le_total f g with hfg | hfg
  · obtain ⟨k, rfl⟩ := Nat.exists_eq_add_of_le hfg
    exact key h hr h'
  · obtain ⟨k, rfl⟩ := Nat.exists_eq_add_of_le hfg
    have := key h' hr' h
    exact ⟨this.1.symm, this.2.symm⟩

end Seam
