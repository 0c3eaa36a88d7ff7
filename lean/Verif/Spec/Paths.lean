import Verif.Spec.Glob
import Verif.Spec.Cli

/-!
What a path written as text names (the documentation of `std::path::Path::components`, Unix).
-/

namespace Seam.Spec

open Seam

/-- Pieces with slashes between them. -/
def joinPieces : List Str → Str
  | [] => []
  | [p] => p
  | p :: ps => p ++ '/' :: joinPieces ps

/-- What a piece between slashes stands for: nothing (an empty piece and `.`), the directory above,
or a name. -/
def pieceOf (p : Str) : Option PComp :=
  if p = [] ∨ p = str! "." then none else if p = str! ".." then some .parent else some (.normal p)

/-- The components of a path: what its pieces stand for, only that a path that starts with a slash
starts at the root, and that a `.` at the start is kept. -/
inductive PathOf : Str → List PComp → Prop
  | empty : PathOf [] []
  | root (ps : List Str) : ps ≠ [] → (∀ p ∈ ps, '/' ∉ p) → PathOf ('/' :: joinPieces ps) (.root :: ps.filterMap pieceOf)
  | cur (ps : List Str) : (∀ p ∈ ps, '/' ∉ p) → PathOf (joinPieces (str! "." :: ps)) (.cur :: ps.filterMap pieceOf)
  | rel (p : Str) (ps : List Str) : p ≠ [] → p ≠ str! "." → (∀ q ∈ p :: ps, '/' ∉ q) →
      PathOf (joinPieces (p :: ps)) ((p :: ps).filterMap pieceOf)

/-- The path `a` comes before the path `b`. -/
def PathBefore (a b : Str) : Prop := ∃ p q, PathOf a p ∧ PathOf b q ∧ PathLt p q

/-- Two spellings of one path. -/
def SamePath (a b : Str) : Prop := ∃ p, PathOf a p ∧ PathOf b p

end Seam.Spec
