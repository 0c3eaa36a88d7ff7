import Verif.Lemmas.More
import Verif.Lemmas.AsksFinite
import Verif.Lemmas.Apply
import Verif.Spec.Looks

/-! What is not looked up makes no difference. -/

namespace Seam
open Spec

/-- The states agree on the allowed names, and every other name means the same in both, or what it
meant at the beginning. -/
structure Frame (A : Str → Bool) (pre : List LogLine) (S T : Scope) (s t : St) : Prop where
  agree : AgreeOn A pre s t
  rest : ∀ x, t.scope x = s.scope x ∨ (s.scope x = S x ∧ t.scope x = T x)

/-- The computation does the same in both states. -/
def SameFrame (A : Str → Bool) (pre : List LogLine) (S T : Scope) (α : Type) (m : M α) : Prop := ∀ s t, Frame A pre S T s t →
  (m t).1 = (m s).1 ∧ Frame A pre S T (m s).2 (m t).2

/-- The computation does the same in both states if it has an outcome. -/
def KeepFrame (A : Str → Bool) (pre : List LogLine) (S T : Scope) (α : Type) (m : M α) : Prop := ∀ s t, Frame A pre S T s t →
  (m s).1 = .diverge ∨ ((m t).1 = (m s).1 ∧ Frame A pre S T (m s).2 (m t).2)

section
variable {A : Str → Bool} {pre : List LogLine} {S T : Scope}

theorem Frame.insert {s t : St} (h : Frame A pre S T s t) (name : Str) (m : Macro) :
    Frame A pre S T { s with scope := s.scope.insert name m } { t with scope := t.scope.insert name m } where
  agree := ⟨fun x hx => by
    simp only [Scope.insert]
    split
    · rfl
    · exact h.agree.scope x hx, h.agree.log, h.agree.fresh, h.agree.hashes, h.agree.order⟩
  rest x := by
    simp only [Scope.insert]
    split
    · exact .inl rfl
    · exact h.rest x

theorem Frame.back {s t s' t' : St} (h : Frame A pre S T s t) (h' : Frame A pre S T s' t') :
    Frame A pre S T { s' with scope := s.scope } { t' with scope := t.scope } :=
  ⟨⟨h.agree.scope, h'.agree.log, h'.agree.fresh, h'.agree.hashes, h'.agree.order⟩, h.rest⟩

theorem SameFrame.bind {α β : Type} {m : M α} {f : α → M β} (hm : SameFrame A pre S T α m) (hf : ∀ a, SameFrame A pre S T β (f a)) :
    SameFrame A pre S T β (m >>= f) := by
  intro s t h
  obtain ⟨h1, h2⟩ := hm s t h
  rw [M.bind_def, M.bind_def]
  rcases hs : m s with ⟨r, s'⟩
  rcases ht : m t with ⟨r', t'⟩
  rw [hs, ht] at h1 h2
  dsimp only at h1 h2
  subst h1
  cases r' with
  | ok a => exact hf a s' t' h2
  | _ => exact ⟨rfl, h2⟩

theorem sameFrame_lift {α : Type} (r : Res α) : SameFrame A pre S T α (M.lift r) := fun _ _ h => ⟨rfl, h⟩

theorem sameFrame_define (name : Str) (m : Macro) : SameFrame A pre S T Unit (M.define name m) :=
  fun _ _ h => ⟨rfl, h.insert name m⟩

theorem sameFrame_iterate (es : List (Str × PNode)) : SameFrame A pre S T _ (M.iterate es) := by
  intro s t h
  refine ⟨?_, ⟨h.agree.scope, h.agree.log, h.agree.fresh, ?_, h.agree.order⟩, h.rest⟩
  · simp only [M.iterate, h.agree.order, h.agree.hashes]
  · simp only [M.iterate, h.agree.hashes]

theorem sameFrame_firstEntry (es : List (Str × PNode)) : SameFrame A pre S T _ (M.firstEntry es) := by
  intro s t h
  refine ⟨?_, h⟩
  simp only [M.firstEntry, h.agree.order, h.agree.hashes]

theorem sameFrame_bindNamed : ∀ (lhs rhs : List (Str × PNode)), SameFrame A pre S T _ (bindNamed rhs lhs)
  | [], _ => sameFrame_lift _
  | (_, _) :: lhs, rhs => by
    unfold bindNamed
    exact (sameFrame_define _ _).bind fun _ => sameFrame_bindNamed lhs _

theorem sameFrame_bindEnd (acc : BindAcc) (vs : List PNode) : SameFrame A pre S T _ (bindEnd acc vs) := by
  have hend : ∀ rhs : List (Str × PNode), SameFrame A pre S T _ (match acc.kwRest with
      | some name => do
        let entries ← M.iterate rhs
        M.define (name.drop 2) (Macro.var (entries.map (·.2)))
      | none =>
        if rhs.isEmpty then pure ()
        else do
          let entry ← M.firstEntry rhs
          match entry with
          | some (_, n) => M.fail "Unknown excess keywords provided." n.site
          | none => M.panic) := by
    intro rhs
    split
    · exact (sameFrame_iterate _).bind fun _ => sameFrame_define _ _
    · split
      · exact sameFrame_lift _
      · refine (sameFrame_firstEntry _).bind fun e => ?_
        split <;> exact sameFrame_lift _
  unfold bindEnd
  rcases takeRest acc.rhs vs with ⟨rhs, rest⟩
  dsimp only
  split
  · exact (sameFrame_define _ _).bind fun _ => (sameFrame_bindNamed _ _).bind hend
  · exact (sameFrame_lift _).bind fun _ => (sameFrame_bindNamed _ _).bind hend
  · exact (sameFrame_bindNamed _ _).bind hend

theorem sameFrame_flat : Flat (SameFrame A pre S T) where
  pure _ := sameFrame_lift _
  lift := sameFrame_lift
  define := sameFrame_define
  tick s t h := ⟨by simp only [M.tick, h.agree.fresh],
    ⟨h.agree.scope, h.agree.log, by simp only [M.tick, h.agree.fresh], h.agree.hashes, h.agree.order⟩, h.rest⟩
  emit l s t h := ⟨rfl, ⟨h.agree.scope, by simp [M.emit, h.agree.log], h.agree.fresh, h.agree.hashes, h.agree.order⟩, h.rest⟩
  bindEnd := sameFrame_bindEnd
  bind := SameFrame.bind

theorem SameFrame.keep {α : Type} {m : M α} (h : SameFrame A pre S T α m) : KeepFrame A pre S T α m :=
  fun s t hst => .inr (h s t hst)

theorem KeepFrame.bind {α β : Type} {m : M α} {f : α → M β} (hm : KeepFrame A pre S T α m) (hf : ∀ a, KeepFrame A pre S T β (f a)) :
    KeepFrame A pre S T β (m >>= f) := by
  intro s t h
  have hm := hm s t h
  rw [M.bind_def, M.bind_def]
  rcases hs : m s with ⟨r, s'⟩
  rcases ht : m t with ⟨r', t'⟩
  rw [hs, ht] at hm
  dsimp only at hm
  rcases hm with rfl | ⟨rfl, h2⟩
  · exact .inl rfl
  · cases r' with
    | ok a => exact hf a s' t' h2
    | _ => exact .inr ⟨rfl, h2⟩

/-- Looking up an allowed name. -/
theorem KeepFrame.lookup {α : Type} {name : Str} {f : Option Macro → M α} (hn : A name = true) (hf : ∀ d, KeepFrame A pre S T α (f d)) :
    KeepFrame A pre S T α (M.lookup name >>= f) := by
  intro s t h
  rw [M.bind_def, M.bind_def]
  simp only [M.lookup]
  rw [h.agree.scope name hn]
  exact hf _ s t h

theorem keepFrame_bare : Core (KeepFrame A pre S T) where
  pure a := (sameFrame_flat.pure a).keep
  lift r := (sameFrame_flat.lift r).keep
  define name m := (sameFrame_flat.define name m).keep
  tick := sameFrame_flat.tick.keep
  emit l := (sameFrame_flat.emit l).keep
  bindEnd acc vs := (sameFrame_flat.bindEnd acc vs).keep
  bind := KeepFrame.bind
  inner := by
    intro α m hm s t h
    have hm := hm s t h
    unfold M.inner
    rcases hm with he | ⟨h1, h2⟩
    · exact .inl he
    · exact .inr ⟨h1, h.back h2⟩
  rethrow := by
    intro α m msg site hm s t h
    have hm := hm s t h
    unfold rethrow
    rcases hs : m s with ⟨r, s'⟩
    rcases ht : m t with ⟨r', t'⟩
    rw [hs, ht] at hm
    dsimp only at hm
    rcases hm with rfl | ⟨rfl, h2⟩
    · exact .inl rfl
    · cases r' <;> exact .inr ⟨rfl, h2⟩
  matchBind := by
    intro α p v body rest hb hr s t h
    obtain ⟨h1, h2⟩ := bind_semi sameFrame_flat p v s t h
    unfold matchStep
    rcases hs : bind p v s with ⟨r, s'⟩
    rcases ht : bind p v t with ⟨r', t'⟩
    rw [hs, ht] at h1 h2
    dsimp only at h1 h2
    subst h1
    cases r' with
    | ok u =>
      dsimp only [M.inner]
      rcases hb s' t' h2 with he | ⟨h3, h4⟩
      · exact .inl he
      · exact .inr ⟨h3, h.back h4⟩
    | err e => exact hr _ _ (h.back h2)
    | _ => exact .inr ⟨rfl, h.back h2⟩
  front := by
    intro ext text sep call site
    refine SameFrame.keep fun s t h => ?_
    obtain ⟨h1, h2⟩ := frontmatter_semi sameFrame_flat ext text sep call site s t h
    unfold ignoreErr
    rcases hs : frontmatter ext text sep call site s with ⟨r, s'⟩
    rcases ht : frontmatter ext text sep call site t with ⟨r', t'⟩
    rw [hs, ht] at h1 h2
    dsimp only at h1 h2
    subst h1
    cases r' <;> exact ⟨rfl, h2⟩

theorem ifdef_frame {rec : Rec} (h : SemiRec (KeepFrame A pre S T) rec) (call : PNode) (ps : List PNode)
    (hn : ∀ x, ps.head?.bind literalValue = some x → A x = true) : KeepFrame A pre S T _ (ifdefMacro rec call ps) := by
  have hf : ∀ (msg : String) (site : Site), KeepFrame A pre S T (List PNode) (M.fail msg site) :=
    fun msg site => (sameFrame_flat.fail msg site).keep
  rcases ps with _ | ⟨c, ps⟩
  · exact hf _ _
  · have hc : ∀ a, c.atomic? = some a → A a.value = true := by
      intro a ha
      apply hn
      show literalValue c = _
      rw [literalValue_atomic, ha]
      rfl
    rcases ps with _ | ⟨t1, _ | ⟨t2, _ | ⟨t3, rest⟩⟩⟩
    · exact hf _ _
    · unfold ifdefMacro
      dsimp only
      rcases ha : c.atomic? with _ | a
      · exact hf _ _
      · refine KeepFrame.lookup (hc a ha) fun d => ?_
        rcases d with _ | m
        · exact ((sameFrame_lift _).keep).bind fun _ => (sameFrame_lift _).keep
        · exact (h _).bind fun _ => (sameFrame_lift _).keep
    · unfold ifdefMacro
      dsimp only
      rcases ha : c.atomic? with _ | a
      · exact hf _ _
      · refine KeepFrame.lookup (hc a ha) fun d => ?_
        rcases d with _ | m
        · exact (h _).bind fun _ => (sameFrame_lift _).keep
        · exact (h _).bind fun _ => (sameFrame_lift _).keep
    · exact hf _ _

theorem userMacro_frame {rec : Rec} (h : SemiRec (KeepFrame A pre S T) rec) (name : Str) (call : PNode) (ps : List PNode)
    (hn : A name = true) : KeepFrame A pre S T _ (userMacro rec name call ps) := by
  have hB : Core (KeepFrame A pre S T) := keepFrame_bare
  unfold userMacro bindList
  refine hB.bind (expandNodes_semi hB h _) fun vs => ?_
  refine KeepFrame.lookup hn fun d => ?_
  rcases d with _ | m
  · exact hB.toFlat.fail _ _
  · exact hB.inner (hB.bind (bindLoop_semi hB.toFlat _ _ _ _) fun _ => expandNodes_semi hB h _)

theorem expandVariable_frame {rec : Rec} (h : SemiRec (KeepFrame A pre S T) rec) (a : Node) (name : Str) (hn : A name = true) :
    KeepFrame A pre S T _ (expandVariable rec a name) := by
  have hB : Core (KeepFrame A pre S T) := keepFrame_bare
  unfold expandVariable
  refine KeepFrame.lookup hn fun d => ?_
  have h1 := expandNodes_semi hB h
  rcases d with _ | m
  · exact hB.toFlat.fail _ _
  · dsimp only
    semi_walk hB.toFlat [h1]

theorem lookRun_keep {ext : Ext} : ∀ fuel, SemiRec (KeepFrame A pre S T) (lookRun ext A fuel)
  | 0 => fun _ => (sameFrame_lift _).keep
  | fuel + 1 => fun c => by
    have hB : Core (KeepFrame A pre S T) := keepFrame_bare
    have ih := lookRun_keep (ext := ext) fuel
    simp only [lookRun]
    by_cases hm : mayLook A c = true
    · rw [if_pos hm]
      cases c with
      | node n =>
        refine expandNode_bare hB ih n fun a name hn hv => expandVariable_frame ih a name ?_
        subst hn
        unfold macroName? at hv
        simp only [mayLook] at hm
        split at hv
        · cases hv
          rename_i he
          rw [he] at hm
          exact hm
        · cases hv
      | invoke name call ps =>
        simp only [mayLook] at hm
        rcases hb : builtin? name with _ | b
        · rw [hb] at hm
          have e : step ext (lookRun ext A fuel) (.invoke name call ps) = userMacro (lookRun ext A fuel) name call ps := by
            simp only [step, expandInvocation, hb]
          rw [e]
          exact userMacro_frame ih name call ps hm
        · have e : step ext (lookRun ext A fuel) (.invoke name call ps) = runBuiltin ext (lookRun ext A fuel) b call ps := by
            simp only [step, expandInvocation, hb]
          rw [e]
          rw [hb] at hm
          by_cases h1 : b = .ifdef
          · subst h1
            refine ifdef_frame ih call ps fun x hx => ?_
            dsimp only at hm
            rw [hx] at hm
            exact hm
          · by_cases h2 : b = .namespace_
            · subst h2; exact absurd hm (by simp)
            · exact runBuiltin_semi hB ext ih b h1 h2 call ps
    · rw [if_neg hm]
      exact (sameFrame_lift _).keep

end

theorem lookRun_le {ext : Ext} {A : Str → Bool} : ∀ fuel, LeRec (lookRun ext A fuel) (run ext fuel)
  | 0, _ => fun _ => .inl rfl
  | fuel + 1, c => by
    intro s
    simp only [lookRun]
    split
    · exact step_le (lookRun_le fuel) c s
    · exact .inl rfl

theorem look_evals {ext : Ext} {A : Str → Bool} {ns : List PNode} {s s' : St} {r : Res (List PNode)} (h : LookEvals ext A ns s r s') :
    Evals ext ns s r s' := by
  obtain ⟨hd, fuel, h⟩ := h
  refine ⟨hd, fuel, ?_⟩
  rcases expandNodes_le (lookRun_le (ext := ext) (A := A) fuel) ns s with hx | hx
  · rw [h] at hx; exact absurd hx hd
  · rw [← hx, h]

theorem Spec.LookEvals.unique {ext : Ext} {A : Str → Bool} {ns : List PNode} {s s1 s2 : St} {r1 r2 : Res (List PNode)}
    (h1 : LookEvals ext A ns s r1 s1) (h2 : LookEvals ext A ns s r2 s2) : r1 = r2 ∧ s1 = s2 :=
  Spec.Evals.unique (look_evals h1) (look_evals h2)

/-- The same from two states that agree. -/
theorem look_frame {ext : Ext} {A : Str → Bool} {pre : List LogLine} {ns : List PNode} {s s' t : St} {r : Res (List PNode)}
    (h : LookEvals ext A ns s r s') (ha : AgreeOn A pre s t) : ∃ t', LookEvals ext A ns t r t' ∧ AgreeOn A pre s' t' ∧
      ∀ x, t'.scope x = s'.scope x ∨ (s'.scope x = s.scope x ∧ t'.scope x = t.scope x) := by
  obtain ⟨hd, fuel, h⟩ := h
  have hk := expandNodes_semi keepFrame_bare (lookRun_keep (A := A) (pre := pre) (S := s.scope) (T := t.scope) (ext := ext) fuel)
    ns s t ⟨ha, fun _ => .inr ⟨rfl, rfl⟩⟩
  rw [h] at hk
  rcases hk with hk | ⟨h1, h2⟩
  · exact absurd hk hd
  · exact ⟨(expandNodes (lookRun ext A fuel) ns t).2, ⟨hd, fuel, Prod.ext h1 rfl⟩, h2.agree, h2.rest⟩

/-- A macro that is not the given one, or none. -/
theorem exists_other (d : Option Macro) : ∃ d' : Option Macro, d' ≠ d := by
  rcases d with _ | m
  · exact ⟨some (Macro.var []), by simp⟩
  · exact ⟨none, by simp⟩

theorem look_makes {ext : Ext} {A : Str → Bool} {ns : List PNode} {s s' : St} {r : Res (List PNode)}
    (h : LookEvals ext A ns s r s') : ∃ defs, Makes ext A ns s r s' defs ∧ ∀ x, A x = true → (defs x ↔ s'.scope x ≠ s.scope x) := by
  classical
  let M0 : Scope := fun x => if A x = true then s.scope x else Classical.choose (exists_other (s'.scope x))
  have hM : ∀ x, A x ≠ true → M0 x ≠ s'.scope x := by
    intro x hx
    show (if A x = true then _ else _) ≠ _
    rw [if_neg hx]
    exact Classical.choose_spec (exists_other (s'.scope x))
  have h0 : AgreeOn A [] s { s with scope := M0 } := ⟨fun x hx => if_pos hx, rfl, rfl, rfl, rfl⟩
  obtain ⟨u, hu, hua, hur⟩ := look_frame h h0
  refine ⟨fun x => if A x = true then s'.scope x ≠ s.scope x else u.scope x = s'.scope x, fun pre t ht => ?_, fun x hx => by simp only [if_pos hx]⟩
  obtain ⟨t', h1, h2, h3⟩ := look_frame h ht
  refine ⟨t', h1, h2, fun x => ?_⟩
  by_cases hx : A x = true
  · simp only [if_pos hx]
    refine ⟨fun _ => h2.scope x hx, fun hn => ?_⟩
    rw [h2.scope x hx, ht.scope x hx]
    exact Classical.not_not.1 hn
  · simp only [if_neg hx]
    have ht0 : AgreeOn A pre { s with scope := M0 } t :=
      ⟨fun y hy => (ht.scope y hy).trans (h0.scope y hy).symm, ht.log, ht.fresh, ht.hashes, ht.order⟩
    obtain ⟨t'', k1, _, k3⟩ := look_frame hu ht0
    obtain ⟨_, rfl⟩ := h1.unique k1
    refine ⟨fun hd => ?_, fun hd => ?_⟩
    · rcases k3 x with k | ⟨k, _⟩
      · exact k.trans hd
      · exact absurd (k.symm.trans hd) (hM x hx)
    · rcases h3 x with k | ⟨_, k⟩
      · rcases k3 x with k' | ⟨_, k'⟩
        · exact absurd (k'.symm.trans k) hd
        · exact k'
      · exact k

/-- The names of a list, as the ones that are allowed. -/
def namesOf (l : List (Str × Str)) : Str → Bool := fun x => decide ((x, x) ∈ l)

theorem look_sets (ext : Ext) : ∀ fuel, SetsRec (fun l => lookRun ext (namesOf l) fuel) (lookRun ext (fun _ => true) fuel)
  | 0 => fun _ => Sets.refl _
  | fuel + 1 => by
    have ih := look_sets ext fuel
    have hs := step_sets (ext := ext) ih
    intro c s
    obtain ⟨l1, h1⟩ := hs c s
    obtain ⟨l2, h2⟩ : ∃ l2 : List (Str × Str), ∀ l' : List (Str × Str), (∀ x ∈ l2, x ∈ l') →
        mayLook (namesOf l') c = mayLook (fun _ => true) c := by
      have one : ∀ x : Str, ∀ l' : List (Str × Str), (∀ y ∈ [(x, x)], y ∈ l') → namesOf l' x = true :=
        fun x l' hl => decide_eq_true (hl _ (List.mem_singleton_self _))
      cases c with
      | node n =>
        cases n with
        | symbol a =>
          simp only [mayLook]
          split
          · rename_i x _
            exact ⟨[(x, x)], one x⟩
          · exact ⟨[], fun _ _ => rfl⟩
        | _ => exact ⟨[], fun _ _ => rfl⟩
      | invoke name call ps =>
        simp only [mayLook]
        rcases hb : builtin? name with _ | b
        · exact ⟨[(name, name)], one name⟩
        · cases b
          case ifdef =>
            dsimp only
            split
            · rename_i x _
              exact ⟨[(x, x)], one x⟩
            · exact ⟨[], fun _ _ => rfl⟩
          all_goals exact ⟨[], fun _ _ => rfl⟩
    refine ⟨l1 ++ l2, fun l' hl => ?_⟩
    have h1 := h1 l' (fun x hx => hl x (List.mem_append_left _ hx))
    have h2 := h2 l' (fun x hx => hl x (List.mem_append_right _ hx))
    dsimp only at h1 ⊢
    simp only [lookRun]
    rw [h2]
    split
    · exact h1
    · rfl

theorem Spec.LookEvals.mono {ext : Ext} {A B : Str → Bool} (hAB : ∀ x, A x = true → B x = true) {ns : List PNode} {s s' : St}
    {r : Res (List PNode)} (h : LookEvals ext A ns s r s') : LookEvals ext B ns s r s' := by
  have hm : ∀ c, mayLook A c = true → mayLook B c = true := by
    intro c
    cases c with
    | node n =>
      cases n with
      | symbol a =>
        simp only [mayLook]
        split
        · exact hAB _
        · exact id
      | _ => exact id
    | invoke name call ps =>
      simp only [mayLook]
      rcases builtin? name with _ | b
      · exact hAB _
      · cases b
        case ifdef =>
          dsimp only
          split
          · exact hAB _
          · exact id
        all_goals exact id
  have hle : ∀ fuel, LeRec (lookRun ext A fuel) (lookRun ext B fuel) := by
    intro fuel
    induction fuel with
    | zero => exact fun _ _ => .inl rfl
    | succ fuel ih =>
      intro c s
      simp only [lookRun]
      by_cases hc : mayLook A c = true
      · rw [if_pos hc, if_pos (hm c hc)]
        exact step_le ih c s
      · rw [if_neg hc]
        exact .inl rfl
  obtain ⟨hd, fuel, h⟩ := h
  refine ⟨hd, fuel, ?_⟩
  rcases expandNodes_le (hle fuel) ns s with hx | hx
  · rw [h] at hx; exact absurd hx hd
  · rw [← hx, h]

/-- Every run that finishes without `%namespace` looks up finitely many names. -/
theorem look_finite {ext : Ext} {ns : List PNode} {s t : St} {r : Res (List PNode)} (h : LookEvals ext (fun _ => true) ns s r t) :
    ∃ l : List Str, LookEvals ext (fun x => decide (x ∈ l)) ns s r t := by
  obtain ⟨hr, fuel, h⟩ := h
  obtain ⟨l, hl⟩ := expandNodes_sets (look_sets ext fuel) ns s
  have : LookEvals ext (namesOf l) ns s r t := ⟨hr, fuel, (hl l fun _ h => h).trans h⟩
  exact ⟨l.map (·.1), this.mono fun x hx => decide_eq_true (List.mem_map.2 ⟨(x, x), of_decide_eq_true hx, rfl⟩)⟩

/-- The definition of a function looks up nothing. -/
theorem look_define {ext : Ext} {A : Str → Bool} {c : PNode} {f : Node} {ps body : List PNode} {si : Site} {e : Token} {w : Str}
    (hc : IsCall (str! "define") (.list (.symbol f :: ps) si e w :: body) c) (h1 : (restNames ps).length ≤ 1)
    (h2 : (kwRestNames ps).length ≤ 1) (s : St) :
    LookEvals ext A [c] s (.ok []) { s with scope := s.scope.insert f.value { params := ps, body := body } } := by
  refine ⟨by simp, 2, ?_⟩
  have e1 : lookRun ext A 2 (.node c) = lookRun ext A 1 (.invoke (str! "define") c (.list (.symbol f :: ps) si e w :: body)) := by
    obtain ⟨h, t, s, e', w', hv, ht⟩ := hc
    rw [ht]
    show (if mayLook A (.node (.list (.symbol h :: t) s e' w')) then
      expandNode (lookRun ext A 1) (.list (.symbol h :: t) s e' w') else M.lift .diverge) = _
    simp only [mayLook, if_true, expandNode, PNode.symbol?, Option.bind_some, macroName?, hv, dropFirstBlank_eq]
  have e2 : lookRun ext A 1 (.invoke (str! "define") c (.list (.symbol f :: ps) si e w :: body)) =
      (createMacro f.value ps body >>= fun _ => (pure [] : M (List PNode))) := rfl
  rw [expandNodes_one, e1, e2, M.bind_ok (createMacro_ok h1 h2 _ _ s)]
  rfl

/-- A finished run that looks up allowed names only, with a property of the result and the final state. -/
theorem look_ok_of {ext : Ext} {A : Str → Bool} {ns : List PNode} {s : St} (fuel : Nat) (p : List PNode → St → Bool)
    (h : (expandNodes (lookRun ext A fuel) ns s).1.okP (fun out => p out (expandNodes (lookRun ext A fuel) ns s).2) = true) :
    ∃ out t, LookEvals ext A ns s (.ok out) t ∧ p out t = true := by
  obtain ⟨a, h1, h2⟩ := Res.okP_elim h
  exact ⟨a, _, ⟨by simp, fuel, Prod.ext h1 rfl⟩, h2⟩

end Seam
