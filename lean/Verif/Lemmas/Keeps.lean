import Verif.Lemmas.Closed

/-!
# Invariants of the expander's state

A relation between states that holds for every elementary effect holds between
the states before and after any computation of the expander, whatever its outcome.
-/

namespace Seam
open Spec

/-- A relation between the states before and after, closed under everything the
expander does to its state. -/
structure StepRel (R : St → St → Prop) : Prop where
  refl : ∀ s, R s s
  trans : ∀ {s t u}, R s t → R t u → R s u
  define : ∀ s name m, R s { s with scope := s.scope.insert name m }
  back : ∀ {s t}, R s t → R s { t with scope := s.scope }
  exported : ∀ {s t} pre, R s t → R s { t with scope := exportScope pre t.scope s.scope }
  tick : ∀ s, R s { s with fresh := s.fresh + 1 }
  iterate : ∀ s, R s { s with hashes := s.hashes + 1 }
  emit : ∀ s l, R s { s with log := s.log ++ [l] }

/-- The computation relates the states before and after. -/
def Keeps {α : Type} (R : St → St → Prop) (m : M α) : Prop := ∀ s, R s (m s).2

section
variable {R : St → St → Prop} (hR : StepRel R)
include hR

theorem Keeps.bind {α β : Type} {m : M α} {f : α → M β} (h : Keeps R m) (hf : ∀ a, Keeps R (f a)) :
    Keeps R (m >>= f) := by
  intro s
  rw [M.bind_def]
  have h := h s
  rcases hm : m s with ⟨r, t⟩
  rw [hm] at h
  cases r with
  | ok a => exact hR.trans h (hf a t)
  | _ => exact h

theorem bindNamed_keeps : ∀ (lhs rhs : List (Str × PNode)), Keeps R (bindNamed rhs lhs)
  | [], _ => fun s => hR.refl s
  | (_, _) :: lhs, rhs => by
    unfold bindNamed
    exact Keeps.bind hR (fun s => hR.define s _ _) fun _ => bindNamed_keeps lhs _

theorem bindEnd_keeps (acc : BindAcc) (vs : List PNode) : Keeps R (bindEnd acc vs) := by
  have hdef : ∀ name m, Keeps R (M.define name m) := fun name m s => hR.define s name m
  have hend : ∀ rhs : List (Str × PNode), Keeps R (match acc.kwRest with
      | some name => do
        let entries ← M.iterate rhs
        M.define (name.drop 2) (Macro.var (entries.map (·.2)))
      | none =>
        if rhs.isEmpty then pure ()
        else do
          let entry ← M.firstEntry rhs
          match entry with
          | some (_, n) => M.fail "Unknown excess keywords provided." n.site
          | none => M.panic) := by
    intro rhs
    split
    · exact Keeps.bind hR (fun s => hR.iterate s) fun _ => hdef _ _
    · split
      · exact fun s => hR.refl s
      · refine Keeps.bind hR (fun s => hR.refl s) fun e => ?_
        split <;> exact fun s => hR.refl s
  unfold bindEnd
  rcases takeRest acc.rhs vs with ⟨rhs, rest⟩
  dsimp only
  split
  · exact Keeps.bind hR (hdef _ _) fun _ => Keeps.bind hR (bindNamed_keeps hR _ _) hend
  · exact Keeps.bind hR (fun s => hR.refl s) fun _ => Keeps.bind hR (bindNamed_keeps hR _ _) hend
  · exact Keeps.bind hR (bindNamed_keeps hR _ _) hend

theorem StepRel.closed : Closed (fun _ m => Keeps R m) where
  pure _ s := hR.refl s
  lift _ s := hR.refl s
  lookup _ s := hR.refl s
  define name m s := hR.define s name m
  tick s := hR.tick s
  emit l s := hR.emit s l
  bindEnd := bindEnd_keeps hR
  bind h hf := Keeps.bind hR h hf
  inner h s := hR.back (h s)
  rethrow := by
    intro α m msg site h s
    have h := h s
    unfold rethrow
    rcases hm : m s with ⟨r, t⟩
    rw [hm] at h
    cases r <;> exact h
  ignoreErr := by
    intro m h s
    have h := h s
    unfold ignoreErr
    rcases hm : m s with ⟨r, t⟩
    rw [hm] at h
    cases r <;> exact h
  matchStep := by
    intro α b body rest hb hbody hrest s
    have hb := hb s
    unfold matchStep
    rcases hm : b s with ⟨r, t⟩
    rw [hm] at hb
    cases r with
    | ok u => exact hR.back (hR.trans hb (hbody t))
    | err e => exact hR.trans (hR.back hb) (hrest _)
    | _ => exact hR.back hb
  exporting := by
    intro m f h s
    have h := h s
    unfold exporting
    rcases hm : m s with ⟨r, t⟩
    rw [hm] at h
    cases r with
    | ok args =>
      dsimp only
      split
      · exact hR.exported _ h
      · exact hR.back h
      · exact hR.back h
      · exact hR.back h
    | _ => exact hR.back h

theorem evals_keeps {ext : Ext} {ns : List PNode} {s t : St} {r : Res (List PNode)} (h : Evals ext ns s r t) : R s t := by
  obtain ⟨_, f, hf⟩ := h
  have h := expandNodes_run_closed hR.closed ext f ns s
  rw [hf] at h
  exact h

theorem bind_keeps (p v : PNode) {s t : St} {r : Res Unit} (h : bind p v s = (r, t)) : R s t := by
  have h' := bind_closed hR.closed p v s
  rw [h] at h'
  exact h'

theorem bindList_keeps (call : PNode) (ps vs : List PNode) {s t : St} {r : Res Unit}
    (h : bindList call ps vs s = (r, t)) : R s t := by
  have h' := bindLoop_closed hR.closed ps call BindAcc.init vs s
  rw [bindList] at h
  rw [h] at h'
  exact h'

end

/-- What is defined stays defined. -/
def StaysDefined (s t : St) : Prop := ∀ name, (s.scope name).isSome → (t.scope name).isSome

theorem staysDefined_rel : StepRel StaysDefined where
  refl _ _ h := h
  trans h h' name hn := h' name (h name hn)
  define s name m k hk := by
    show (if k == name then some m else s.scope k).isSome
    split
    · rfl
    · exact hk
  back _ _ hk := hk
  exported {s t} pre _ k hk := by
    simp only [exportScope]
    split
    · split
      · rfl
      · exact hk
    · exact hk
  tick _ _ h := h
  iterate _ _ h := h
  emit _ _ _ h := h

/-- What was printed stays printed, buffers and hash maps are only counted up, and
the order of hash maps does not change. -/
def Advances (s t : St) : Prop :=
  s.log <+: t.log ∧ s.fresh ≤ t.fresh ∧ s.hashes ≤ t.hashes ∧ t.order = s.order

theorem advances_rel : StepRel Advances where
  refl _ := ⟨List.prefix_refl _, Nat.le_refl _, Nat.le_refl _, rfl⟩
  trans h h' := ⟨h.1.trans h'.1, Nat.le_trans h.2.1 h'.2.1, Nat.le_trans h.2.2.1 h'.2.2.1, h'.2.2.2.trans h.2.2.2⟩
  define _ _ _ := ⟨List.prefix_refl _, Nat.le_refl _, Nat.le_refl _, rfl⟩
  back h := h
  exported _ h := h
  tick _ := ⟨List.prefix_refl _, Nat.le_succ _, Nat.le_refl _, rfl⟩
  iterate _ := ⟨List.prefix_refl _, Nat.le_refl _, Nat.le_succ _, rfl⟩
  emit _ _ := ⟨List.prefix_append _ _, Nat.le_refl _, Nat.le_refl _, rfl⟩

end Seam
