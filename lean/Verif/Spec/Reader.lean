import Verif.Model.Parser

/-!
# What the text of a program is: blanks, comments, tokens, grammar

A declarative description of the surface syntax, independent of the lexer and
parser functions: only the data types (`Str`, `Token`, `Site`, `PNode`, ...) are
shared.
-/

namespace Seam.Spec

/-- Blank, tab, carriage return, newline. -/
def blank (c : Char) : Bool := c == ' ' || c == '\t' || c == '\r' || c == '\n'

/-- Only blanks. -/
def Blanks (s : Str) : Prop := ∀ c ∈ s, blank c = true

/-- `Trivia t lead`: `t` is a text of blanks and comments (`;` to the end of the
line), and `lead` is the final part of it made of blanks only: all of it when
there is no comment, and otherwise what starts with the newline that ends the
last comment. -/
inductive Trivia : Str → Str → Prop
  | blanks (w : Str) : Blanks w → Trivia w w
  | comment (w text r lead : Str) : Blanks w → '\n' ∉ text → Trivia ('\n' :: r) lead →
      Trivia (w ++ ';' :: text ++ '\n' :: r) lead

/-- Blanks and comments up to the end of the file, where the last comment need
not be ended by a newline. -/
def EndTrivia (s : Str) : Prop :=
  ∃ t lead, Trivia t lead ∧ (s = t ∨ ∃ text, '\n' ∉ text ∧ s = t ++ ';' :: text)

/-- A character that can stand in an identifier without a backslash. -/
def identChar (c : Char) : Bool := !blank c && !(c == '(' || c == ')' || c == '"' || c == '\\')

/-- A character that ends an identifier. -/
def stopChar (c : Char) : Bool := blank c || c == '(' || c == ')' || c == '"'

/-- The text of an identifier: plain characters, and backslashes each followed by
any character. -/
inductive Ident : Str → Prop
  | nil : Ident []
  | plain (c : Char) (s : Str) : identChar c = true → Ident s → Ident (c :: s)
  | esc (c : Char) (s : Str) : Ident s → Ident ('\\' :: c :: s)

/-- What may follow a complete identifier: the end of the file or a character
that ends it. -/
def Stop : Str → Prop
  | [] => True
  | c :: _ => stopChar c = true

/-- Digits and signs start a number. -/
def numberStart (c : Char) : Bool := c.isDigit || c == '+' || c == '-'

/-- Anything else that is not special starts a symbol. -/
def symbolStart (c : Char) : Bool :=
  !blank c && !numberStart c && !(c == '(' || c == ')' || c == '"' || c == ':' || c == ';')

/-- The first character satisfies `p`. -/
def Starts (p : Char → Bool) : Str → Prop
  | [] => False
  | c :: _ => p c = true

/-- The contents of a string closed by `q` (one or three quotes): `q` does not
begin anywhere inside, except after a backslash. -/
inductive Body (q : Str) : Str → Prop
  | nil : Body q []
  | plain (c : Char) (s : Str) : c ≠ '\\' → ¬ q <+: (c :: s ++ q) → Body q s → Body q (c :: s)
  | esc (c : Char) (s : Str) : Body q s → Body q ('\\' :: c :: s)

/-- Text after an opening quote in which `q` is never found (except after a
backslash), up to the end of the file. -/
inductive Unclosed (q : Str) : Str → Prop
  | nil : Unclosed q []
  | plain (c : Char) (s : Str) : c ≠ '\\' → ¬ q <+: c :: s → Unclosed q s → Unclosed q (c :: s)
  | esc (c : Char) (s : Str) : Unclosed q s → Unclosed q ('\\' :: c :: s)
  | escEnd : Unclosed q ['\\']

/-- One quote, three quotes. -/
def q1 : Str := ['"']
def q3 : Str := ['"', '"', '"']

/-- `q` are the quotes that open the string at the start of `s`: three if
possible. -/
def Opens (q s : Str) : Prop := (q = q3 ∧ q3 <+: s) ∨ (q = q1 ∧ q1 <+: s ∧ ¬ q3 <+: s)

/-- `Lexeme kind text value rest`: in front of `rest`, the text `text` is a token
of the given kind and value. -/
inductive Lexeme : Kind → Str → Str → Str → Prop
  | lparen (rest : Str) : Lexeme .lparen ['('] ['('] rest
  | rparen (rest : Str) : Lexeme .rparen [')'] [')'] rest
  | symbol (text rest : Str) : Ident text → Starts symbolStart text → Stop rest →
      Lexeme .symbol text text rest
  | number (text rest : Str) : Ident text → Starts numberStart text → Stop rest →
      Lexeme .number text text rest
  | keyword (name rest : Str) : Ident name → Stop rest → Lexeme .keyword (':' :: name) name rest
  | string (q body rest : Str) : Body q body → Opens q (q ++ body ++ q ++ rest) →
      Lexeme .string (q ++ body ++ q) body rest

/-- Number of newlines. -/
def newlines (s : Str) : Nat := s.count '\n'

/-- The part of a text after its last newline. -/
def lastLine (s : Str) : Str := (s.reverse.takeWhile (· != '\n')).reverse

/-- The site of the text `text` after `before` in the buffer `b`, with a given
line number. -/
def siteOf (b : Buf) (line : Nat) (before text : Str) : Site :=
  { path := b.path, buf := b.id, code := b.code, line := line,
    off := blen before, bol := blen (lastLine before), span := blen text }

/-- How the code counts lines: a newline among blanks counts once, a newline
inside a token (in a string, or escaped in an identifier) twice.  The token
itself carries the count before it for strings, after it for the others. -/
def tokenLine (kind : Kind) (line : Nat) (triv text : Str) : Nat :=
  line + newlines triv + (if kind = .string then 0 else 2 * newlines text)

/-- How the token sequence of a file ends: at the end of the file, at a string
that is not closed, or at an identifier cut off after a backslash. -/
inductive Ending
  | eof
  | unclosed (q : Str) (site : Site)
  | cut
deriving DecidableEq, Repr

/-- `Tokens b before line rest toks e`: with `before` already read (and the line
counter at `line`), the remaining text `rest` of the buffer is the token
sequence `toks`, and then ends in `e`. -/
inductive Tokens (b : Buf) : Str → Nat → Str → List Token → Ending → Prop
  | eof (before : Str) (line : Nat) (rest : Str) : EndTrivia rest →
      Tokens b before line rest [] .eof
  | unclosed (before : Str) (line : Nat) (triv lead q s : Str) : Trivia triv lead →
      Opens q (q ++ s) → Unclosed q s →
      Tokens b before line (triv ++ (q ++ s)) []
        (.unclosed q (siteOf b (line + newlines triv) (before ++ triv) q))
  | cut (before : Str) (line : Nat) (triv lead text : Str) : Trivia triv lead → Ident text →
      Starts (fun c => symbolStart c || numberStart c || c == ':') (text ++ ['\\']) →
      Tokens b before line (triv ++ (text ++ ['\\'])) [] .cut
  | token (before : Str) (line : Nat) (triv lead : Str) (kind : Kind) (text value rest : Str)
      (toks : List Token) (e : Ending) : Trivia triv lead → Lexeme kind text value rest →
      Tokens b (before ++ triv ++ text) (line + newlines triv + 2 * newlines text) rest toks e →
      Tokens b before line (triv ++ (text ++ rest))
        ({ kind := kind, value := value, lw := lead,
           site := siteOf b (tokenLine kind line triv text) (before ++ triv) text } :: toks) e

/-- The tokens of a whole buffer. -/
def TokensOf (b : Buf) (toks : List Token) (e : Ending) : Prop := Tokens b [] 1 b.code toks e

/-- The value of a symbol or number: the text without its backslashes. -/
def noBackslash (s : Str) : Str := s.filter (· != '\\')

mutual
/-- The grammar: `expr = symbol | number | string | '(' expr* ')' | keyword expr`.
`Expr u toks n`: the tokens `toks` are an expression and `n` is its tree; `u` is
the unescaping of string contents. -/
inductive Expr (u : Unescape) : List Token → PNode → Prop
  | symbol (t : Token) : t.kind = .symbol →
      Expr u [t] (.symbol { value := noBackslash t.value, site := t.site, lw := t.lw })
  | number (t : Token) : t.kind = .number →
      Expr u [t] (.number { value := noBackslash t.value, site := t.site, lw := t.lw })
  | string (t : Token) (v : Str) : t.kind = .string → u t.value = some v →
      Expr u [t] (.string { value := v, site := t.site, lw := t.lw })
  | list (o c : Token) (ts : List Token) (ns : List PNode) : o.kind = .lparen → c.kind = .rparen →
      Exprs u ts ns → Expr u (o :: (ts ++ [c])) (.list ns o.site c o.lw)
  | attr (k : Token) (ts : List Token) (n : PNode) : k.kind = .keyword → Expr u ts n →
      Expr u (k :: ts) (.attr k.value n k.site k.lw)
/-- `program = expr*`. -/
inductive Exprs (u : Unescape) : List Token → List PNode → Prop
  | nil : Exprs u [] []
  | cons (ts : List Token) (n : PNode) (ts' : List Token) (ns : List PNode) :
      Expr u ts n → Exprs u ts' ns → Exprs u (ts ++ ts') (n :: ns)
end

/-- The errors of the reader. -/
def strayErr (t : Token) : Err :=
  { stage := .parse, msg := "Unexpected `)' closing parenthesis.", site := t.site }
def noValueErr (t : Token) : Err :=
  { stage := .parse, msg := "Keyword expects an expression following it.", site := t.site }
def unclosedListErr (t : Token) : Err :=
  { stage := .parse, msg := "Expected `)' closing parenthesis.", site := t.site }
def badEscapeErr (t : Token) : Err :=
  { stage := .lex, msg := "Invalid escape.", site := t.site }
def unclosedStringErr (q : Str) (site : Site) : Err :=
  { stage := .lex, site := site,
    msg := if q = q3 then "Unclosed triple-quoted string." else "Unclosed string quote." }

mutual
/-- `FaultExpr u toks e err`: an expression is expected, the remaining tokens are
`toks` with ending `e`, and the first fault met is `err`. -/
inductive FaultExpr (u : Unescape) : List Token → Ending → Err → Prop
  | stray (t : Token) (ts : List Token) (e : Ending) : t.kind = .rparen →
      FaultExpr u (t :: ts) e (strayErr t)
  | unclosed (q : Str) (s : Site) : FaultExpr u [] (.unclosed q s) (unclosedStringErr q s)
  | badEscape (t : Token) (ts : List Token) (e : Ending) : t.kind = .string → u t.value = none →
      FaultExpr u (t :: ts) e (badEscapeErr t)
  | noValueEof (k : Token) : k.kind = .keyword → FaultExpr u [k] .eof (noValueErr k)
  | noValue (k t : Token) (ts : List Token) (e : Ending) : k.kind = .keyword → t.kind = .rparen →
      FaultExpr u (k :: t :: ts) e (noValueErr k)
  | value (k : Token) (ts : List Token) (e : Ending) (err : Err) : k.kind = .keyword →
      (∀ t ∈ ts.head?, t.kind ≠ .rparen) → FaultExpr u ts e err → FaultExpr u (k :: ts) e err
  | list (o : Token) (ts : List Token) (e : Ending) (err : Err) : o.kind = .lparen →
      FaultList u o ts e err → FaultExpr u (o :: ts) e err
/-- The same inside the list opened by `o`. -/
inductive FaultList (u : Unescape) : Token → List Token → Ending → Err → Prop
  | eof (o : Token) : FaultList u o [] .eof (unclosedListErr o)
  | here (o : Token) (ts : List Token) (e : Ending) (err : Err) :
      (∀ t ∈ ts.head?, t.kind ≠ .rparen) → FaultExpr u ts e err → FaultList u o ts e err
  | later (o : Token) (ts : List Token) (n : PNode) (ts' : List Token) (e : Ending) (err : Err) :
      Expr u ts n → FaultList u o ts' e err → FaultList u o (ts ++ ts') e err
end

/-- The same at the outermost level: after some complete expressions. -/
inductive Fault (u : Unescape) : List Token → Ending → Err → Prop
  | mk (ts : List Token) (ns : List PNode) (ts' : List Token) (e : Ending) (err : Err) :
      Exprs u ts ns → FaultExpr u ts' e err → Fault u (ts ++ ts') e err

mutual
/-- `CutExpr u toks`: reading an expression comes, without a fault before it, to
an identifier cut off by the end of the file after `toks`. -/
inductive CutExpr (u : Unescape) : List Token → Prop
  | here : CutExpr u []
  | value (k : Token) (ts : List Token) : k.kind = .keyword → CutExpr u ts → CutExpr u (k :: ts)
  | list (o : Token) (ts : List Token) : o.kind = .lparen → CutList u ts → CutExpr u (o :: ts)
/-- The same inside a list. -/
inductive CutList (u : Unescape) : List Token → Prop
  | here (ts : List Token) : CutExpr u ts → CutList u ts
  | later (ts : List Token) (n : PNode) (ts' : List Token) : Expr u ts n → CutList u ts' →
      CutList u (ts ++ ts')
end

end Seam.Spec
