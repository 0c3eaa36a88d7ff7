import Verif.Spec.Dom
import Verif.Spec.Nodes

/-!
# Documents that can be written

Which documents (as a reader of markup finds them) there should be a program for.
-/

namespace Seam.Spec

mutual
/-- A document that is to be had: any text; elements with a name that is a word, does not start like a macro, and is not one of
`special`; attribute names that are words; attribute values of any kind; void elements are empty. -/
inductive Sayable (d : Dialect) (special : Str → Bool) : Dom → Prop
  | char (c : Char) : Sayable d special (.char c)
  | elem (name : Str) (as : List (Str × Str)) (inner : List Dom) : NameOk name → Word symbolStart name →
      name.head? ≠ some '%' → special name = false → (d.void name = true → inner = []) →
      (∀ a ∈ as, NameOk a.1 ∧ ∀ c ∈ a.1, identChar c = true) → Sayables d special inner → Sayable d special (.elem name as inner)
/-- The same for several parts. -/
inductive Sayables (d : Dialect) (special : Str → Bool) : List Dom → Prop
  | nil : Sayables d special []
  | cons (x : Dom) (xs : List Dom) : Sayable d special x → Sayables d special xs → Sayables d special (x :: xs)
end

/-- A text between quotes: with a backslash before each quote and each backslash. -/
def backslashed (v : Str) : Str := v.flatMap fun c => if c = '"' ∨ c = '\\' then ['\\', c] else [c]

/-- What is assumed of the unescaping of string literals: `\"` and `\\` are a quote and a backslash, other
characters are themselves. -/
def UnescapesQuotes (u : Unescape) : Prop := ∀ v, u (backslashed v) = some v

end Seam.Spec
