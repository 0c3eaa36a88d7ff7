import Verif.Lemmas.Eval
import Verif.Lemmas.Check

/-! Concrete runs of the expander: the kernel evaluates a run with a given fuel. -/

namespace Seam
open Spec

mutual
/-- Structural equality. -/
def PNode.same : PNode → PNode → Bool
  | .symbol a, .symbol b => decide (a = b)
  | .number a, .number b => decide (a = b)
  | .string a, .string b => decide (a = b)
  | .raw a, .raw b => decide (a = b)
  | .list ns s e w, .list ns' s' e' w' =>
    PNode.sames ns ns' && decide (s = s') && decide (e = e') && decide (w = w')
  | .attr k n s w, .attr k' n' s' w' =>
    decide (k = k') && PNode.same n n' && decide (s = s') && decide (w = w')
  | _, _ => false
def PNode.sames : List PNode → List PNode → Bool
  | [], [] => true
  | n :: ns, m :: ms => PNode.same n m && PNode.sames ns ms
  | _, _ => false
end

mutual
theorem PNode.same_sound : ∀ (n m : PNode), PNode.same n m = true → n = m
  | .symbol a, m, h => by cases m <;> simp_all [PNode.same]
  | .number a, m, h => by cases m <;> simp_all [PNode.same]
  | .string a, m, h => by cases m <;> simp_all [PNode.same]
  | .raw a, m, h => by cases m <;> simp_all [PNode.same]
  | .list ns s e w, m, h => by
    cases m with
    | list ns' s' e' w' =>
      simp only [PNode.same, Bool.and_eq_true, decide_eq_true_eq] at h
      obtain ⟨⟨⟨h1, h2⟩, h3⟩, h4⟩ := h
      rw [PNode.sames_sound ns ns' h1, h2, h3, h4]
    | _ => simp [PNode.same] at h
  | .attr k n s w, m, h => by
    cases m with
    | attr k' n' s' w' =>
      simp only [PNode.same, Bool.and_eq_true, decide_eq_true_eq] at h
      obtain ⟨⟨⟨h1, h2⟩, h3⟩, h4⟩ := h
      rw [PNode.same_sound n n' h2, h1, h3, h4]
    | _ => simp [PNode.same] at h
theorem PNode.sames_sound : ∀ (ns ms : List PNode), PNode.sames ns ms = true → ns = ms
  | [], m, h => by cases m <;> simp_all [PNode.sames]
  | n :: ns, m, h => by
    cases m with
    | nil => simp [PNode.sames] at h
    | cons m ms =>
      simp only [PNode.sames, Bool.and_eq_true] at h
      rw [PNode.same_sound n m h.1, PNode.sames_sound ns ms h.2]
end

theorem PNode.same_iff {n m : PNode} (h : PNode.same n m = true) : n = m := PNode.same_sound n m h

/-- A finished run with a given result and a property of the final state. -/
theorem evals_ok_of {ext : Ext} {ns out : List PNode} {s : St} (fuel : Nat) (p : St → Bool)
    (h : ((expandNodes (run ext fuel) ns s).1.okP (PNode.sames · out) &&
      p (expandNodes (run ext fuel) ns s).2) = true) :
    ∃ t, Evals ext ns s (.ok out) t ∧ p t = true := by
  rw [Bool.and_eq_true] at h
  obtain ⟨a, h1, h2⟩ := Res.okP_elim h.1
  have := PNode.sames_sound _ _ h2
  subst this
  exact ⟨_, ⟨by simp, fuel, Prod.ext h1 rfl⟩, h.2⟩

theorem evals_ok_at {ext : Ext} {ns out : List PNode} {s : St} (fuel : Nat)
    (h : ((expandNodes (run ext fuel) ns s).1.okP (PNode.sames · out)) = true) : ∃ t, Evals ext ns s (.ok out) t := by
  obtain ⟨a, h1, h2⟩ := Res.okP_elim h
  have := PNode.sames_sound _ _ h2
  subst this
  exact ⟨_, by simp, fuel, Prod.ext h1 rfl⟩

/-- A finished run that fails. -/
theorem evals_err_of {ext : Ext} {ns : List PNode} {s : St} (fuel : Nat) (p : Err → Bool)
    (h : (expandNodes (run ext fuel) ns s).1.errP p = true) :
    ∃ e t, Evals ext ns s (.err e) t ∧ p e = true := by
  obtain ⟨a, h1, h2⟩ := Res.errP_elim h
  exact ⟨a, _, ⟨by simp, fuel, Prod.ext h1 rfl⟩, h2⟩

/-- A finished run that panics. -/
theorem evals_panic_of {ext : Ext} {ns : List PNode} {s : St} (fuel : Nat)
    (h : (expandNodes (run ext fuel) ns s).1.isPanic = true) : ∃ t, Evals ext ns s .panic t :=
  ⟨_, by simp, fuel, Prod.ext (Res.isPanic_elim h) rfl⟩

/-- An outside world for examples: one include directory with one file. -/
def exExt : Ext where
  unescape s := some s
  floatCmp _ _ := none
  siteHash _ line _ _ _ := line
  includes := [str! "."]
  join a b := a ++ ['/'] ++ b
  sexPath s := some (s ++ str! ".sex")
  readFile s := if s = str! "./f.sex" then some (str! "(p a)") else none
  envVar _ := none
  formatOk _ := true
  formatText _ _ := none
  mdHtml _ := none
  mdFront _ := .none
  yaml _ := ([], true)
  toml _ := none
  fixed _ := none
  localOffset := 0
  validTime _ := true
  date _ _ _ := none
  zonedTime _ _ := none
  naiveTime _ _ := none
  glob _ := none

/-- The state of a new expander whose hash maps keep the order of insertion. -/
def exSt : St := St.init fun _ l => l

theorem exSt_fair : Fair exSt.order := fun _ l => List.Perm.refl l

end Seam
