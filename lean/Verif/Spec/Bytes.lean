import Verif.Model.ByteLexer
import Verif.Spec.Reader
import Verif.Spec.Pairs

/-! What it means for the byte lexer to do the same as the character lexer. -/

namespace Seam.Spec

/-- Both lexers stand at the same place: the bytes are those of the text, and the byte offset
is at the beginning of a character. -/
def SameState (b : BLex) (l : Lex) : Prop :=
  b.src = bytesOf l.buf.code ∧ b.off = l.off ∧ b.bol = l.bol ∧ b.line = l.line ∧
    ∃ before, l.buf.code = before ++ l.rest ∧ l.off = blen before

/-- The slices of the byte token are the bytes of the texts of the character token, and the
numbers of the site are the same. -/
def SameBytes (t : BToken) (t' : Token) : Prop :=
  t.kind = t'.kind ∧ t.value = bytesOf t'.value ∧ t.lw = bytesOf t'.lw ∧ t.line = t'.site.line ∧
    t.off = t'.site.off ∧ t.bol = t'.site.bol ∧ t.span = t'.site.span

/-- The same outcome.  There is no counterpart of undefined behaviour. -/
def Agree {α β : Type} (R : α → β → Prop) : BRes α → Res β → Prop
  | .ok a, .ok b => R a b
  | .err msg line off bol span, .err e =>
    e.stage = .lex ∧ e.msg = msg ∧ e.site.line = line ∧ e.site.off = off ∧ e.site.bol = bol ∧ e.site.span = span
  | .panic, .panic => True
  | .diverge, .diverge => True
  | _, _ => False

/-- How reading ends: all is read, an error, or the lexer does not return. -/
inductive BEnd
  | eof
  | err (msg : String) (line off bol span : Nat)
  | diverge

/-- Reading token after token while the end is not reached, as the parser does. -/
inductive BReads (fuel : Nat) : BLex → List BToken → BEnd → Prop
  | eof (b : BLex) : b.eof fuel = .ok true → BReads fuel b [] .eof
  | token (b b' : BLex) (t : BToken) (ts : List BToken) (e : BEnd) : b.eof fuel = .ok false →
    b.consume fuel = .ok (t, b') → BReads fuel b' ts e → BReads fuel b (t :: ts) e
  | err (b : BLex) (msg : String) (line off bol span : Nat) : b.eof fuel = .ok false →
    b.consume fuel = .err msg line off bol span → BReads fuel b [] (.err msg line off bol span)
  | diverge (b : BLex) : b.eof fuel = .ok false → b.consume fuel = .diverge → BReads fuel b [] .diverge

/-- The ending of the token grammar, with the numbers of the site. -/
def SameEnd : BEnd → Ending → Prop
  | .eof, .eof => True
  | .err msg line off bol span, .unclosed q s =>
    msg = (unclosedStringErr q s).msg ∧ line = s.line ∧ off = s.off ∧ bol = s.bol ∧ span = s.span
  | .diverge, .cut => True
  | _, _ => False

/-- The states of the byte lexer while it reads the tokens of a text. -/
inductive BReach (fuel : Nat) (code : Str) : BLex → Prop
  | start : BReach fuel code (BLex.new code)
  | next (b b' : BLex) (t : BToken) : BReach fuel code b → b.consume fuel = .ok (t, b') → BReach fuel code b'

end Seam.Spec
