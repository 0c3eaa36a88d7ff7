import Verif.Spec.Styles
import Verif.Spec.Reader

/-!
# Style sheets that can be said

Which lists of declarations and rules can be the meaning of a style sheet.
-/

namespace Seam.Spec

/-- A text without white space around it, in which all brackets and quotes are closed. -/
def Neat (t : Str) : Prop := Sealed t ∧ Trimmed t t

/-- A declaration: a name that can be written as a keyword, and any neat value. -/
def SayableDecl (k v : Str) : Prop :=
  Neat v ∧ Sealed k ∧ k ≠ [] ∧ (∀ c ∈ k, ¬ Space c ∧ c ≠ ':' ∧ identChar c = true) ∧ k.head? ≠ some '@'

/-- `AtText at t`: the `@`-word `at`, alone or with a neat text behind it. -/
def AtText (at_ t : Str) : Prop := t = at_ ∨ ∃ rest, rest ≠ [] ∧ Neat rest ∧ t = at_ ++ str! " " ++ rest

mutual
/-- A rule: any neat text in front of declarations; an `@`-rule on one line; an `@`-rule with rules in it. -/
inductive SayableRule : CssItem → Prop
  | rule (head : Str) (ds : List (Str × Str)) : Neat head → head ∉ blockRules → head ∉ lineRules → ds ≠ [] →
      (∀ d ∈ ds, SayableDecl d.1 d.2) → SayableRule (.block head (ds.map fun d => .decl d.1 d.2))
  | line (at_ t : Str) : at_ ∈ lineRules → AtText at_ t → SayableRule (.line t)
  | block (at_ t : Str) (is : List CssItem) : at_ ∈ blockRules → AtText at_ t → is ≠ [] → SayableRules is →
      SayableRule (.block t is)
/-- Some rules. -/
inductive SayableRules : List CssItem → Prop
  | nil : SayableRules []
  | cons (i : CssItem) (is : List CssItem) : SayableRule i → SayableRules is → SayableRules (i :: is)
end

end Seam.Spec
