import Verif.Lemmas.Semi
import Verif.Lemmas.EvalCheck
import Verif.Spec.More

/-! More definitions: what works with some definitions works with more of them. -/

namespace Seam
open Spec

/-- With more definitions the computation does the same. -/
def SameMore (pre : List LogLine) (α : Type) (m : M α) : Prop := ∀ s t, More pre s t →
  (m t).1 = (m s).1 ∧ More pre (m s).2 (m t).2

/-- No outcome, or an error. -/
inductive Stuck {α : Type} : Res α → Prop
  | err (e : Err) : Stuck (.err e)
  | diverge : Stuck .diverge

/-- With more definitions the computation does the same, unless it failed. -/
def KeepMore (pre : List LogLine) (α : Type) (m : M α) : Prop := ∀ s t, More pre s t →
  Stuck (m s).1 ∨ ((m t).1 = (m s).1 ∧ More pre (m s).2 (m t).2)

theorem Spec.More.insert {pre : List LogLine} {s t : St} (h : More pre s t) (name : Str) (m : Macro) :
    More pre { s with scope := s.scope.insert name m } { t with scope := t.scope.insert name m } where
  scope n m' hn := by
    simp only [Scope.insert] at hn ⊢
    split
    · rename_i hc
      rw [if_pos hc] at hn
      exact hn
    · rename_i hc
      rw [if_neg hc] at hn
      exact h.scope n m' hn
  log := h.log
  fresh := h.fresh
  hashes := h.hashes
  order := h.order

theorem Spec.More.back {pre : List LogLine} {s t s' t' : St} (h : More pre s t) (h' : More pre s' t') :
    More pre { s' with scope := s.scope } { t' with scope := t.scope } :=
  ⟨h.scope, h'.log, h'.fresh, h'.hashes, h'.order⟩

section
variable {pre : List LogLine}

theorem SameMore.bind {α β : Type} {m : M α} {f : α → M β} (hm : SameMore pre α m) (hf : ∀ a, SameMore pre β (f a)) :
    SameMore pre β (m >>= f) := by
  intro s t h
  obtain ⟨h1, h2⟩ := hm s t h
  rw [M.bind_def, M.bind_def]
  rcases hs : m s with ⟨r, s'⟩
  rcases ht : m t with ⟨r', t'⟩
  rw [hs, ht] at h1 h2
  dsimp only at h1 h2
  subst h1
  cases r' with
  | ok a => exact hf a s' t' h2
  | _ => exact ⟨rfl, h2⟩

theorem sameMore_lift {α : Type} (r : Res α) : SameMore pre α (M.lift r) := fun _ _ h => ⟨rfl, h⟩

theorem sameMore_define (name : Str) (m : Macro) : SameMore pre Unit (M.define name m) := fun _ _ h => ⟨rfl, h.insert name m⟩

theorem sameMore_iterate (es : List (Str × PNode)) : SameMore pre _ (M.iterate es) := by
  intro s t h
  refine ⟨?_, h.scope, h.log, h.fresh, ?_, h.order⟩
  · simp only [M.iterate, h.order, h.hashes]
  · simp only [M.iterate, h.hashes]

theorem sameMore_firstEntry (es : List (Str × PNode)) : SameMore pre _ (M.firstEntry es) := by
  intro s t h
  refine ⟨?_, h⟩
  simp only [M.firstEntry, h.order, h.hashes]

theorem sameMore_bindNamed : ∀ (lhs rhs : List (Str × PNode)), SameMore pre _ (bindNamed rhs lhs)
  | [], _ => sameMore_lift _
  | (_, _) :: lhs, rhs => by
    unfold bindNamed
    exact (sameMore_define _ _).bind fun _ => sameMore_bindNamed lhs _

theorem sameMore_bindEnd (acc : BindAcc) (vs : List PNode) : SameMore pre _ (bindEnd acc vs) := by
  have hend : ∀ rhs : List (Str × PNode), SameMore pre _ (match acc.kwRest with
      | some name => do
        let entries ← M.iterate rhs
        M.define (name.drop 2) (Macro.var (entries.map (·.2)))
      | none =>
        if rhs.isEmpty then pure ()
        else do
          let entry ← M.firstEntry rhs
          match entry with
          | some (_, n) => M.fail "Unknown excess keywords provided." n.site
          | none => M.panic) := by
    intro rhs
    split
    · exact (sameMore_iterate _).bind fun _ => sameMore_define _ _
    · split
      · exact sameMore_lift _
      · refine (sameMore_firstEntry _).bind fun e => ?_
        split <;> exact sameMore_lift _
  unfold bindEnd
  rcases takeRest acc.rhs vs with ⟨rhs, rest⟩
  dsimp only
  split
  · exact (sameMore_define _ _).bind fun _ => (sameMore_bindNamed _ _).bind hend
  · exact (sameMore_lift _).bind fun _ => (sameMore_bindNamed _ _).bind hend
  · exact (sameMore_bindNamed _ _).bind hend

theorem sameMore_flat : Flat (SameMore pre) where
  pure _ := sameMore_lift _
  lift := sameMore_lift
  define := sameMore_define
  tick s t h := ⟨by simp only [M.tick, h.fresh], h.scope, h.log, by simp only [M.tick, h.fresh], h.hashes, h.order⟩
  emit l s t h := ⟨rfl, h.scope, by simp [M.emit, h.log], h.fresh, h.hashes, h.order⟩
  bindEnd := sameMore_bindEnd
  bind := SameMore.bind

theorem SameMore.keep {α : Type} {m : M α} (h : SameMore pre α m) : KeepMore pre α m := fun s t hst => .inr (h s t hst)

theorem KeepMore.bind {α β : Type} {m : M α} {f : α → M β} (hm : KeepMore pre α m) (hf : ∀ a, KeepMore pre β (f a)) :
    KeepMore pre β (m >>= f) := by
  intro s t h
  have hm := hm s t h
  rw [M.bind_def, M.bind_def]
  rcases hs : m s with ⟨r, s'⟩
  rcases ht : m t with ⟨r', t'⟩
  rw [hs, ht] at hm
  dsimp only at hm
  rcases hm with hm | ⟨rfl, h2⟩
  · cases hm with
    | err e => exact .inl (.err e)
    | diverge => exact .inl .diverge
  · cases r' with
    | ok a => exact hf a s' t' h2
    | _ => exact .inr ⟨rfl, h2⟩

theorem keepMore_semi : Semi (KeepMore pre) where
  pure a := (sameMore_flat.pure a).keep
  lift r := (sameMore_flat.lift r).keep
  define name m := (sameMore_flat.define name m).keep
  tick := sameMore_flat.tick.keep
  emit l := (sameMore_flat.emit l).keep
  bindEnd acc vs := (sameMore_flat.bindEnd acc vs).keep
  bind := KeepMore.bind
  lookupOr := by
    intro α name msg site f hf s t h
    rw [M.bind_def, M.bind_def]
    simp only [M.lookup]
    rcases hs : s.scope name with _ | m
    · exact .inl (.err _)
    · rw [h.scope name m hs]
      exact hf m s t h
  inner := by
    intro α m hm s t h
    have hm := hm s t h
    unfold M.inner
    rcases hm with he | ⟨h1, h2⟩
    · exact .inl he
    · exact .inr ⟨h1, h.back h2⟩
  rethrow := by
    intro α m msg site hm s t h
    have hm := hm s t h
    unfold rethrow
    rcases hs : m s with ⟨r, s'⟩
    rcases ht : m t with ⟨r', t'⟩
    rw [hs, ht] at hm
    dsimp only at hm
    rcases hm with hm | ⟨rfl, h2⟩
    · cases hm with
      | err e => exact .inl (.err _)
      | diverge => exact .inl .diverge
    · cases r' with
      | err e => exact .inl (.err _)
      | _ => exact .inr ⟨rfl, h2⟩
  matchBind := by
    intro α p v body rest hb hr s t h
    obtain ⟨h1, h2⟩ := bind_semi sameMore_flat p v s t h
    unfold matchStep
    rcases hs : bind p v s with ⟨r, s'⟩
    rcases ht : bind p v t with ⟨r', t'⟩
    rw [hs, ht] at h1 h2
    dsimp only at h1 h2
    subst h1
    cases r' with
    | ok u =>
      dsimp only [M.inner]
      rcases hb s' t' h2 with he | ⟨h3, h4⟩
      · exact .inl he
      · exact .inr ⟨h3, h.back h4⟩
    | err e => exact hr _ _ (h.back h2)
    | _ => exact .inr ⟨rfl, h.back h2⟩
  front := by
    intro ext text sep call site
    refine SameMore.keep fun s t h => ?_
    obtain ⟨h1, h2⟩ := frontmatter_semi sameMore_flat ext text sep call site s t h
    unfold ignoreErr
    rcases hs : frontmatter ext text sep call site s with ⟨r, s'⟩
    rcases ht : frontmatter ext text sep call site t with ⟨r', t'⟩
    rw [hs, ht] at h1 h2
    dsimp only at h1 h2
    subst h1
    cases r' <;> exact ⟨rfl, h2⟩

theorem More_ifdef {rec : Rec} (h : SemiRec (KeepMore pre) rec) (call c : PNode) (rest : List PNode) (a : Node) (m : Macro) {s t : St}
    (hc : c.atomic? = some a) (hm : s.scope a.value = some m) (hst : More pre s t) :
    Stuck (ifdefMacro rec call (c :: rest) s).1 ∨ ((ifdefMacro rec call (c :: rest) t).1 = (ifdefMacro rec call (c :: rest) s).1 ∧
      More pre (ifdefMacro rec call (c :: rest) s).2 (ifdefMacro rec call (c :: rest) t).2) := by
  have key : ∀ thn : PNode, KeepMore pre _ (rec (.node thn) >>= fun ex => (pure (withFirstLw call.lw ex) : M (List PNode))) :=
    fun thn => KeepMore.bind (h _) fun _ => (sameMore_flat.pure _).keep
  have hm' := hst.scope _ _ hm
  rcases rest with _ | ⟨t1, _ | ⟨t2, _ | ⟨t3, rest⟩⟩⟩
  · exact .inl (.err _)
  · have hr : ∀ u : St, u.scope a.value = some m → ifdefMacro rec call [c, t1] u =
        (rec (.node t1) >>= fun ex => (pure (withFirstLw call.lw ex) : M (List PNode))) u := by
      intro u hu
      simp only [ifdefMacro, hc]
      rw [M.bind_def]
      simp only [M.lookup, hu]
    rw [hr s hm, hr t hm']
    exact key t1 s t hst
  · have hr : ∀ u : St, u.scope a.value = some m → ifdefMacro rec call [c, t1, t2] u =
        (rec (.node t1) >>= fun ex => (pure (withFirstLw call.lw ex) : M (List PNode))) u := by
      intro u hu
      simp only [ifdefMacro, hc]
      rw [M.bind_def]
      simp only [M.lookup, hu]
    rw [hr s hm, hr t hm']
    exact key t1 s t hst
  · exact .inl (.err _)

theorem asksUndefined_more {s t : St} (h : More pre s t) {name : Str} {ps : List PNode}
    (hs : asksUndefined s.scope name ps = false) : asksUndefined t.scope name ps = false := by
  unfold asksUndefined at hs ⊢
  generalize builtin? name = b at hs ⊢
  rcases b with _ | b
  · rfl
  · cases b <;> try rfl
    · rcases ps with _ | ⟨c, ps⟩
      · rfl
      · dsimp only at hs ⊢
        generalize c.atomic? = x at hs ⊢
        rcases x with _ | a
        · rfl
        · dsimp only at hs ⊢
          rcases hm : s.scope a.value with _ | m
          · rw [hm] at hs; exact absurd hs (by simp)
          · rw [h.scope _ _ hm]; rfl
    · exact absurd hs (by simp)

theorem sureRun_keep {ext : Ext} : ∀ fuel, SemiRec (KeepMore pre) (sureRun ext fuel)
  | 0 => fun _ => (sameMore_flat.lift _).keep
  | fuel + 1 => fun c => by
    have ih := sureRun_keep (ext := ext) fuel
    cases c with
    | node n => exact expandNode_semi keepMore_semi ih n
    | invoke name call ps =>
      intro s t h
      simp only [sureRun]
      rcases hs : asksUndefined s.scope name ps with _ | _
      · rw [asksUndefined_more h hs]
        simp only [Bool.false_eq_true, if_false]
        rcases hb : builtin? name with _ | b
        · have e : step ext (sureRun ext fuel) (.invoke name call ps) = userMacro (sureRun ext fuel) name call ps := by
            simp only [step, expandInvocation, hb]
          rw [e]
          exact userMacro_semi keepMore_semi ih name call ps s t h
        · have e : step ext (sureRun ext fuel) (.invoke name call ps) = runBuiltin ext (sureRun ext fuel) b call ps := by
            simp only [step, expandInvocation, hb]
          rw [e]
          unfold asksUndefined at hs
          rw [hb] at hs
          by_cases h1 : b = .ifdef
          · subst h1
            simp only [runBuiltin]
            rcases ps with _ | ⟨c, ps⟩
            · exact .inl (.err _)
            · dsimp only at hs
              rcases hc : c.atomic? with _ | a
              · rcases ps with _ | ⟨t1, _ | ⟨t2, _ | ⟨t3, rest⟩⟩⟩
                · exact .inl (.err _)
                · simp only [ifdefMacro, hc]; exact .inl (.err _)
                · simp only [ifdefMacro, hc]; exact .inl (.err _)
                · exact .inl (.err _)
              · rw [hc] at hs
                dsimp only at hs
                rcases hm : s.scope a.value with _ | m
                · rw [hm] at hs; exact absurd hs (by simp)
                · exact More_ifdef ih call c ps a m hc hm h
          · by_cases h2 : b = .namespace_
            · subst h2; exact absurd hs (by simp)
            · exact runBuiltin_semi keepMore_semi.toCore ext ih b h1 h2 call ps s t h
      · simp only [if_true]
        exact .inl .diverge

theorem sureRun_le {ext : Ext} : ∀ fuel, LeRec (sureRun ext fuel) (run ext fuel)
  | 0, _ => fun _ => .inl rfl
  | fuel + 1, .node n => step_le (sureRun_le fuel) (.node n)
  | fuel + 1, .invoke name call ps => by
    intro s
    simp only [sureRun]
    split
    · exact .inl rfl
    · exact step_le (sureRun_le fuel) (.invoke name call ps) s

theorem sure_evals {ext : Ext} {ns : List PNode} {s s' : St} {r : Res (List PNode)} (h : SureEvals ext ns s r s') :
    Evals ext ns s r s' := by
  obtain ⟨hd, fuel, h⟩ := h
  refine ⟨hd, fuel, ?_⟩
  rcases expandNodes_le (sureRun_le (ext := ext) fuel) ns s with hx | hx
  · rw [h] at hx; exact absurd hx hd
  · rw [← hx, h]

theorem sure_more {ext : Ext} {ns : List PNode} {s s' t : St} {r : Res (List PNode)} (hr : ∀ e, r ≠ .err e)
    (h : SureEvals ext ns s r s') (hm : More pre s t) : ∃ t', SureEvals ext ns t r t' ∧ More pre s' t' := by
  obtain ⟨hd, fuel, h⟩ := h
  have hk := expandNodes_semi keepMore_semi.toCore (sureRun_keep (pre := pre) (ext := ext) fuel) ns s t hm
  rw [h] at hk
  rcases hk with hk | ⟨h1, h2⟩
  · cases hk with
    | err e => exact absurd rfl (hr e)
    | diverge => exact absurd rfl hd
  · exact ⟨(expandNodes (sureRun ext fuel) ns t).2, ⟨hd, fuel, Prod.ext h1 rfl⟩, h2⟩

/-- A finished run that does not ask what is undefined, with a property of the result and
the final state. -/
theorem sure_ok_of {ext : Ext} {ns : List PNode} {s : St} (fuel : Nat) (p : List PNode → St → Bool)
    (h : (expandNodes (sureRun ext fuel) ns s).1.okP (fun out => p out (expandNodes (sureRun ext fuel) ns s).2) = true) :
    ∃ out t, SureEvals ext ns s (.ok out) t ∧ p out t = true := by
  obtain ⟨a, h1, h2⟩ := Res.okP_elim h
  exact ⟨a, _, ⟨by simp, fuel, Prod.ext h1 rfl⟩, h2⟩

end
end Seam
