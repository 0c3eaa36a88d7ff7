import Verif.Spec.Dom
import Verif.Spec.Marks

/-! # The names in what a reader of markup finds, and programs that make no markup -/

namespace Seam.Spec
open Seam

mutual
/-- The names of the elements and of their attributes in what a reader of markup finds. -/
def domMarks : Dom → List Mark
  | .char _ | .decl _ => []
  | .elem name attrs inner => .name name :: (attrs.map (fun a => Mark.key a.1) ++ domMarksAll inner)
/-- The same for several. -/
def domMarksAll : List Dom → List Mark
  | [] => []
  | d :: ds => domMarks d ++ domMarksAll ds
end

/-- The macros that neither make raw text or names from texts nor read data or files of the program. -/
def textOnly : List Builtin := [
  .define, .match_, .ifdef, .do_, .get, .string, .number, .embed, .namespace_, .glob, .for_, .reverse, .date, .timestamp,
  .join, .concat, .splat, .list, .strip, .log, .format, .osEnv, .lambda, .apply, .map, .filter, .sort]

/-- The macros that call other macros by name. -/
def calling : List Builtin := [.apply, .map, .filter, .sort]

/-- The only macros of seam that are named are those in `textOnly`: with a `%`, and, where one of the
macros that call others is named, without it. -/
def NamesTextOnly (P : Mark → Prop) : Prop :=
  (∀ t b, P (.name ('%' :: t)) → builtin? t = some b → b ∈ textOnly) ∧
  ((∃ t b, P (.name ('%' :: t)) ∧ builtin? t = some b ∧ b ∈ calling) → ∀ t b, P (.name t) → builtin? t = some b → b ∈ textOnly)

end Seam.Spec
