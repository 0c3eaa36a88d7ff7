import Verif.Spec.Markup
import Verif.Spec.Pairs

/-!
# Style sheets: braces, rules, and the trees they are written from
-/

namespace Seam.Spec

/-- Reading braces: the nesting depth after a text that starts at depth `n`;
`none` when a brace is closed that is not open. -/
def depth : Nat → Str → Option Nat
  | n, [] => some n
  | n, c :: cs =>
    if c = '{' then depth (n + 1) cs
    else if c = '}' then if n = 0 then none else depth (n - 1) cs
    else depth n cs

/-- Braces are properly paired. -/
def Balanced (s : Str) : Prop := depth 0 s = some 0

/-- No braces. -/
def NoBrace (s : Str) : Prop := '{' ∉ s ∧ '}' ∉ s

mutual
/-- All texts of a tree: values, keywords and whitespace. -/
def texts : PNode → List Str
  | .symbol n | .number n | .string n | .raw n => [n.value, n.lw]
  | .list ns _ e w => w :: e.lw :: textss ns
  | .attr k n _ w => k :: w :: texts n
/-- The same for several nodes. -/
def textss : List PNode → List Str
  | [] => []
  | n :: ns => texts n ++ textss ns
end

/-- The rules with nested rules. -/
def blockRules : List Str := [
  str! "@counter-style", str! "@document", str! "@font-feature-values", str! "@keyframes", str! "@media",
  str! "@supports"]

/-- The rules on one line. -/
def lineRules : List Str := [str! "@charset", str! "@import", str! "@namespace"]

/-- A rule: its head is an atom; the lists in a rule with nested rules are rules
themselves.  With `body`, such a rule has at least one nested rule. -/
inductive RuleOk (body : Bool) : List PNode → Prop
  | mk (h : PNode) (a : Node) (rest : List PNode) : IsAtom h a →
      (a.value ∈ blockRules → body = true → ∃ ns s e w, PNode.list ns s e w ∈ rest) →
      (a.value ∈ blockRules → ∀ ns s e w, PNode.list ns s e w ∈ rest → RuleOk body ns) → RuleOk body (h :: rest)

/-- A style sheet: rules only. -/
def SheetOk (body : Bool) (tree : List PNode) : Prop :=
  ∀ n ∈ tree, ∃ ns s e w, n = .list ns s e w ∧ RuleOk body ns

end Seam.Spec
