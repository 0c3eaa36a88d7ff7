import Verif.Lemmas.AsksWorld
import Verif.Lemmas.AsksFinite
import Verif.Lemmas.EvalCheck
import Verif.Lemmas.Circle
import Verif.Props.Markup

/-! What an expansion asks the world around it (C97). -/

namespace Seam
open Spec

/-- C97: forbidding questions does not change a run that does not ask them. -/
theorem C97_same_run (ext : Ext) (allowed : Str → Str → Bool) (ns : List PNode) (s t : St) (r : Res (List PNode))
    (h : AskEvals ext allowed ns s r t) : Evals ext ns s r t := askEvals_evals h

/-- C97: a run that asks for allowed files, patterns and environment variables only goes the same way,
to the same result, error and log, in every world that answers these questions alike. -/
theorem C97_unread (ext : Ext) (allowed : Str → Str → Bool) (files env : Str → Option Str)
    (dirs : Str → Option (List (Option (Option GFile)))) (hs : SameAnswers allowed ext (around ext files env dirs)) (ns : List PNode)
    (s t : St) (r : Res (List PNode)) (h : AskEvals ext allowed ns s r t) : Evals (around ext files env dirs) ns s r t :=
  askEvals_world hs h

/-- C97: every expansion that finishes asks finitely many questions. -/
theorem C97_finite (ext : Ext) (ns : List PNode) (s t : St) (r : Res (List PNode)) (h : Evals ext ns s r t) :
    ∃ asked : List (Str × Str), AskEvals ext (fun name x => decide ((name, x) ∈ asked)) ns s r t := evals_asks h

/-- C97: for every expansion that finishes there are finitely many files, environment variables and
patterns such that nothing else in the world makes a difference. -/
theorem C97_world (ext : Ext) (ns : List PNode) (s t : St) (r : Res (List PNode)) (h : Evals ext ns s r t) :
    ∃ (paths vars patterns : List Str), ∀ (files env : Str → Option Str) (dirs : Str → Option (List (Option (Option GFile)))),
      (∀ f ∈ paths, files f = ext.readFile f) → (∀ x ∈ vars, env x = ext.envVar x) → (∀ x ∈ patterns, dirs x = ext.glob x) →
      Evals (around ext files env dirs) ns s r t := by
  obtain ⟨l, h⟩ := evals_asks h
  refine ⟨l.flatMap fun q => includeFiles ext q.2 ++ embedFiles ext q.2, l.map (·.2), l.map (·.2), fun files env dirs hf he hd => ?_⟩
  refine askEvals_world ⟨fun path hp file code => ?_, fun path hp file code => ?_, fun x hx => ?_, fun x hx => ?_⟩ h
  · refine firstRead_agree (ext' := around ext files env dirs) (fun f hm => ?_) file code
    exact hf f (List.mem_flatMap.2 ⟨_, of_decide_eq_true hp, List.mem_append_left _ hm⟩)
  · refine firstRead_agree (ext' := around ext files env dirs) (fun f hm => ?_) file code
    exact hf f (List.mem_flatMap.2 ⟨_, of_decide_eq_true hp, List.mem_append_right _ hm⟩)
  · exact (hd x (List.mem_map.2 ⟨_, of_decide_eq_true hx, rfl⟩)).symm
  · exact (he x (List.mem_map.2 ⟨_, of_decide_eq_true hx, rfl⟩)).symm

/-- C97: the same for a document from its source text on: with enough fuel its expansion in another
world is the same if this world has the same in finitely many places. -/
theorem C97_document (ext : Ext) (order : Order) (path code : Str) (fuel : Nat) (h : (expand ext order fuel path code).1 ≠ .diverge) :
    ∃ (paths vars patterns : List Str), ∀ (files env : Str → Option Str) (dirs : Str → Option (List (Option (Option GFile)))),
      (∀ f ∈ paths, files f = ext.readFile f) → (∀ x ∈ vars, env x = ext.envVar x) → (∀ x ∈ patterns, dirs x = ext.glob x) →
      ∃ fuel', expand (around ext files env dirs) order fuel' path code = expand ext order fuel path code := by
  have hu : ∀ files env dirs, (around ext files env dirs).unescape = ext.unescape := fun _ _ _ => rfl
  unfold expand at h ⊢
  rcases hp : parse ext.unescape { path := path, id := 1, code := code } with tree | e | _ | _
  · rw [hp] at h
    obtain ⟨ps, vs, xs, hw⟩ := C97_world ext tree (St.init order) _ _ ⟨h, fuel, rfl⟩
    refine ⟨ps, vs, xs, fun files env dirs h1 h2 h3 => ?_⟩
    obtain ⟨_, fuel', hf⟩ := hw files env dirs h1 h2 h3
    refine ⟨fuel', ?_⟩
    rw [hu, hp]
    exact hf
  all_goals
    refine ⟨[], [], [], fun files env dirs _ _ _ => ⟨fuel, ?_⟩⟩
    rw [hu, hp]

/-- A file with the text `(p (%os/env v))`, an environment variable and a directory. -/
def exAsked : Ext := { exExt with
  readFile := fun p => if p = str! "./x.sex" then some (str! "(p (%os/env v))") else if p = str! "./y" then some ['y'] else none
  envVar := fun x => if x = ['v'] then some (str! "one") else none
  glob := fun _ => some [] }

/-- `(%include x)(%glob "*")`. -/
def exAsking : List PNode := [exList [exSym (str! "%include"), exSym ['x'] [' ']], exList [exSym (str! "%glob"), exStr ['*'] [' ']]]

/-- The questions of this document. -/
def exQuestions (name x : Str) : Bool :=
  (name == str! "include" && x == ['x']) || (name == str! "os/env" && x == ['v']) || (name == str! "glob" && x == ['*'])

example : ∃ out t, AskEvals exAsked exQuestions exAsking exSt (.ok out) t ∧ textNodes out = str! "(pone)" := by
  obtain ⟨out, t, h1, h2⟩ := asks_some_of (ext := exAsked) (allowed := exQuestions) (ns := exAsking) (s := exSt)
    20 (fun out => decide (textNodes out = str! "(pone)")) (by decide +kernel)
  exact ⟨out, t, h1, of_decide_eq_true h2⟩

/-- Other files and variables, the same where it matters. -/
example : SameAnswers exQuestions exAsked (around exAsked
    (fun p => if p = str! "./x.sex" then some (str! "(p (%os/env v))") else if p = str! "./x" then none else some ['z'])
    (fun x => if x = ['v'] then some (str! "one") else some ['z']) (fun x => if x = ['*'] then some [] else none)) := by
  refine ⟨fun path hp file code => firstRead_agree (fun f hf => ?_) file code, fun path hp => absurd hp ?_, fun x hx => ?_, fun x hx => ?_⟩
  · have : path = ['x'] := by simpa [exQuestions] using hp
    subst this
    revert f
    decide
  · simp [exQuestions]
  · have : x = ['*'] := by simpa [exQuestions] using hx
    subst this
    rfl
  · have : x = ['v'] := by simpa [exQuestions] using hx
    subst this
    rfl

/-- Where it matters it does make a difference. -/
example : ∃ out t, Evals (around exAsked exAsked.readFile (fun _ => some (str! "two")) exAsked.glob) exAsking exSt (.ok out) t ∧
    textNodes out = str! "(ptwo)" := by
  obtain ⟨out, t, h1, h2⟩ := evals_some_of (ext := around exAsked exAsked.readFile (fun _ => some (str! "two")) exAsked.glob)
    (ns := exAsking) (s := exSt) 20 (fun out => decide (textNodes out = str! "(ptwo)")) (by decide +kernel)
  exact ⟨out, t, h1, of_decide_eq_true h2⟩

end Seam
