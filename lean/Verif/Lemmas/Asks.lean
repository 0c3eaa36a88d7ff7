import Verif.Spec.Asks
import Verif.Lemmas.Mono
import Verif.Lemmas.Include

/-! Runs depend on what they ask only, and ask finitely many questions. -/

namespace Seam
open Spec

/-! ## Restricted runs are runs -/

theorem ask_le (ext : Ext) (allowed : Str → Str → Bool) : ∀ fuel, LeRec (askRun ext allowed fuel) (run ext fuel)
  | 0 => fun _ _ => Or.inl rfl
  | fuel + 1 => by
    intro c s
    have ih := step_le (ext := ext) (ask_le ext allowed fuel) c s
    cases c with
    | node n => exact ih
    | invoke name call params =>
      unfold askRun
      split
      · split
        · split
          · exact ih
          · exact Or.inl rfl
        · exact ih
      · exact ih

theorem literalValue_atomic (n : PNode) : literalValue n = n.atomic?.map (·.value) := by cases n <;> rfl

/-! ## Answers -/

theorem findInclude_same {ext ext' : Ext} {path : Str}
    (h : ∀ file code, FirstRead ext (includeFiles ext path) file code ↔ FirstRead ext' (includeFiles ext' path) file code) :
    findInclude ext path ext.includes = findInclude ext' path ext'.includes := by
  have h1 := fun file code => (findInclude_iff (ext := ext) (path := path) (dirs := ext.includes) (file := file) (code := code)).trans
    ((h file code).trans (findInclude_iff (ext := ext') (path := path) (dirs := ext'.includes) (file := file) (code := code)).symm)
  rcases hx : findInclude ext path ext.includes with _ | ⟨file, code⟩
  · rcases hy : findInclude ext' path ext'.includes with _ | ⟨file, code⟩
    · rfl
    · rw [(h1 file code).2 hy] at hx; cases hx
  · exact ((h1 file code).1 hx).symm

theorem findEmbed_same {ext ext' : Ext} {path : Str}
    (h : ∀ file code, FirstRead ext (embedFiles ext path) file code ↔ FirstRead ext' (embedFiles ext' path) file code) :
    findEmbed ext path ext.includes = findEmbed ext' path ext'.includes := by
  have h1 := fun code => (findEmbed_iff (ext := ext) (path := path) (dirs := ext.includes) (code := code)).trans
    ((exists_congr fun file => h file code).trans (findEmbed_iff (ext := ext') (path := path) (dirs := ext'.includes) (code := code)).symm)
  rcases hx : findEmbed ext path ext.includes with _ | code
  · rcases hy : findEmbed ext' path ext'.includes with _ | code
    · rfl
    · rw [(h1 code).2 hy] at hx; cases hx
  · exact ((h1 code).1 hx).symm

end Seam
