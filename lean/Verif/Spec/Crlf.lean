import Verif.Spec.Layout
import Verif.Spec.Sites

/-! Source texts with the line ends of Windows. -/

namespace Seam.Spec

/-- The text with a carriage return before every newline. -/
def crlf : Str → Str
  | [] => []
  | c :: s => if c = '\n' then '\r' :: '\n' :: crlf s else c :: crlf s

/-- The text without its carriage returns. -/
def noCr (s : Str) : Str := s.filter (· != '\r')

/-- The same blanks except for carriage returns (and none only where there were none). -/
def SameCr (w v : Str) : Prop := noCr w = noCr v ∧ (w = [] ↔ v = [])

/-- The same piece of the same line, in a file and in the file with other line ends: in both,
the same text, after the same text on its line, and as many lines from the top. -/
def SameSpot (path code : Str) (p q : Site) : Prop :=
  p.line = q.line ∧ p.buf = q.buf ∧
    ∃ above left text rest, Marks p path code above left text rest ∧ Marks q path (crlf code) (crlf above) left text (crlf rest)

/-- No token goes over the end of a line: the newlines stand between the tokens or in comments (or in a string that is
never closed).  And the text does not break off after a backslash. -/
def LinewiseTokens (b : Buf) : Prop :=
  ∃ toks e, TokensOf b toks e ∧ e ≠ .cut ∧ ∀ t ∈ toks, '\n' ∉ t.value

/-- The same output except for carriage returns, or the same error, at corresponding places. -/
inductive SameLines (S : Site → Site → Prop) : Res Str → Res Str → Prop
  | ok (x y : Str) : noCr x = noCr y → SameLines S (.ok x) (.ok y)
  | err (e e' : Err) : MovedErr S e e' → SameLines S (.err e) (.err e')
  | panic : SameLines S .panic .panic
  | diverge : SameLines S .diverge .diverge

end Seam.Spec
