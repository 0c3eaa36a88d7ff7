import Verif.Model.Basic

/-!
# Lexer (crates/seam/src/parse/lexer.rs, crates/seam/src/parse/tokens.rs)

The Rust lexer keeps a byte offset into an immutable `String`.  Here the
characters that are still to be read are kept as a list (`rest`), together with
the same three counters.  Slices `&source[start..offset]` become the list of
characters consumed since `start`.  `Verif.Props.Bytes` relates this to the
byte-level loops of the source.
-/

namespace Seam

/-- `tokens::Kind`, tokens.rs:122-129. -/
inductive Kind | lparen | rparen | symbol | string | number | keyword
deriving DecidableEq, Repr, Inhabited

/-- `Token`, tokens.rs:132-137. -/
structure Token where
  kind : Kind
  value : Str
  lw : Str
  site : Site
deriving DecidableEq, Repr, Inhabited

/-- `is_whitespace`, lexer.rs:28-30. -/
def isWs (c : Char) : Bool :=
  c == '\n' || c == '\r' || c == '\t' || c == ' '

/-- The range pattern `'0'..='9'`. -/
def isDigit (c : Char) : Bool := decide ('0' ≤ c) && decide (c ≤ '9')

/-- `character_kind`, lexer.rs:32-44. -/
def charKind (c : Char) : Option Kind :=
  if c == '\n' || c == '\r' || c == ' ' || c == '\t' then none
  else if c == '(' then some .lparen
  else if c == ')' then some .rparen
  else if isDigit c then some .number
  else if c == '+' || c == '-' then some .number
  else if c == ':' then some .keyword
  else if c == '"' then some .string
  else some .symbol

/-- `Lexer`, lexer.rs:49-55: the source buffer, the characters not yet read
(the Rust code has the byte offset only), and the counters `byte_offset`,
`byte_offset_line`, `line`. -/
structure Lex where
  buf : Buf
  rest : Str
  off : Nat
  bol : Nat
  line : Nat
deriving DecidableEq, Repr

/-- `Lexer::new`, lexer.rs:58-66. -/
def Lex.new (buf : Buf) : Lex :=
  { buf := buf, rest := buf.code, off := 0, bol := 0, line := 1 }

/-- `increment_byte_offsets`, lexer.rs:72-77, together with dropping the
characters that are passed over. -/
def Lex.advance (l : Lex) (n : Nat) (rest : Str) : Lex :=
  { l with rest := rest, off := l.off + n, bol := l.bol + n }

/-- `next_line`, lexer.rs:79-83. -/
def Lex.nextLine (l : Lex) : Lex :=
  { l with line := l.line + 1, bol := 0 }

/-- The loop of `consume_whitespace`, lexer.rs:94-116.  `eon` is
`inside_eon_comment`, `acc` the slice `source[start..byte_offset]`.  The Rust
loop advances byte by byte; a multi-byte character can only be passed inside a
comment and none of its bytes is `;`, blank or newline, so it is passed here in
one step.  The recursion is over the unread characters, which the Rust code
reads off `bytes[index]`. -/
def wsLoop (l : Lex) (eon : Bool) (acc : Str) : (rest : Str) → Str × Lex
  | [] => (acc, { l with rest := [] })
  | c :: cs =>
    let eon := eon || c == ';'
    if !isWs c && !eon then (acc, { l with rest := c :: cs })
    else
      let l := l.advance c.utf8Size cs
      let acc := acc ++ [c]
      match cs with
      | [] => (acc, l)
      | c' :: cs' =>
        if c == '\n' then
          if eon then wsLoop l.nextLine false [c] (c' :: cs')
          else wsLoop l.nextLine eon acc (c' :: cs')
        else wsLoop l eon acc (c' :: cs')

/-- `consume_whitespace`, lexer.rs:87-120. -/
def Lex.consumeWs (l : Lex) : Str × Lex := wsLoop l false [] l.rest

/-- `peek_char`, lexer.rs:124-132. -/
def Lex.peekChar (l : Lex) : Option Char := l.rest.head?

/-- `starts_with`, lexer.rs:135-137. -/
def Lex.startsWith (l : Lex) (p : Str) : Bool := p.isPrefixOf l.rest

/-- `consume_char`, lexer.rs:141-151.  At the end of the source the offset is
moved past the length, where `is_char_boundary` is false for every index, so
the `while` loop of line 144 does not end. -/
def Lex.consumeChar (l : Lex) : Res (Char × Lex) :=
  match l.rest with
  | [] => .diverge
  | c :: cs =>
    let l := l.advance c.utf8Size cs
    .ok (c, if c == '\n' then l.nextLine else l)

/-- `Lexer::site`, lexer.rs:300-303 (`file_offset ≤ byte_offset` at all call
sites, so the subtraction is exact; see `C02_columns_from_line_start`). -/
def Lex.site (l : Lex) (fileOff lineOff : Nat) : Site :=
  { path := l.buf.path, buf := l.buf.id, code := l.buf.code, line := l.line,
    off := fileOff, bol := lineOff, span := l.off - fileOff }

/-- The loop of `consume_identifier_string`, lexer.rs:182-205.  The result is
the consumed text.  In the escape branch both `consume_char` calls are written
out: the first passes the backslash, the second (which does not return at the
end of the source) passes the escaped character, with `next_line` called once
by `consume_char` and once more on line 191 if it is a newline. -/
def identLoop (l : Lex) (acc : Str) : (rest : Str) → Res (Str × Lex)
  | [] => .ok (acc, { l with rest := [] })
  | c :: cs =>
    match charKind c with
    | none => .ok (acc, { l with rest := c :: cs })
    | some k =>
      if c == '\\' then
        match cs with
        | [] => .diverge
        | e :: es =>
          let l := l.advance c.utf8Size (e :: es)
          let l := l.advance e.utf8Size es
          let l := if e == '\n' then l.nextLine.nextLine else l
          identLoop l (acc ++ [c, e]) es
      else if k = .symbol ∨ k = .number ∨ k = .keyword then
        identLoop (l.advance c.utf8Size cs) (acc ++ [c]) cs
      else .ok (acc, { l with rest := c :: cs })

/-- `consume_identifier_string`, lexer.rs:182-205. -/
def Lex.consumeIdent (l : Lex) : Res (Str × Lex) := identLoop l [] l.rest

/-- `consume_lparen` / `consume_rparen`, lexer.rs:153-169.  The `assert_eq!` on
the character is a panic. -/
def Lex.consumeParen (l : Lex) (k : Kind) (p : Char) (ws : Str) : Res (Token × Lex) := do
  let (c, l') ← l.consumeChar
  if c = p then .ok ({ kind := k, value := [c], lw := ws, site := l'.site l.off l.bol }, l')
  else .panic

/-- `consume_number` / `consume_symbol`, lexer.rs:171-177 and 208-214. -/
def Lex.consumeAtom (l : Lex) (k : Kind) (ws : Str) : Res (Token × Lex) := do
  let (v, l') ← l.consumeIdent
  .ok ({ kind := k, value := v, lw := ws, site := l'.site l.off l.bol }, l')

/-- `consume_keyword`, lexer.rs:290-297. -/
def Lex.consumeKeyword (l : Lex) (ws : Str) : Res (Token × Lex) := do
  let (c, l1) ← l.consumeChar
  if c = ':' then
    let (v, l2) ← l1.consumeIdent
    if 1 ≤ l1.off ∧ 1 ≤ l1.bol then
      .ok ({ kind := .keyword, value := v, lw := ws, site := l2.site (l1.off - 1) (l1.bol - 1) }, l2)
    else .panic
  else .panic

/-- One iteration of either string loop, lexer.rs:230-245 / 261-276, after the
end-of-string test: `next_line` for a newline (line 236/267), then
`consume_char`, which calls `next_line` again. -/
def Lex.stringStep (l : Lex) (c : Char) (cs : Str) : Lex :=
  let l := if c == '\n' then l.nextLine else l
  let l := l.advance c.utf8Size cs
  if c == '\n' then l.nextLine else l

/-- The loop of a string with `n` quotes (1 or 3), lexer.rs:229-246 and
260-277.  `none` means that the end of the source was reached. -/
def stringLoop (quotes : Str) (l : Lex) (esc : Bool) (acc : Str) : (rest : Str) → Option (Str × Lex)
  | [] => none
  | c :: cs =>
    if quotes.isPrefixOf (c :: cs) && !esc then
      some (acc, { l with rest := c :: cs })
    else
      stringLoop quotes (l.stringStep c cs) (if !esc then c == '\\' else false) (acc ++ [c]) cs

/-- `consume_string`, lexer.rs:217-288. -/
def Lex.consumeString (l : Lex) (ws : Str) : Res (Token × Lex) :=
  match l.peekChar with
  | some '"' =>
    let quotes : Str := if l.startsWith ['"', '"', '"'] then ['"', '"', '"'] else ['"']
    let msg := if l.startsWith ['"', '"', '"'] then "Unclosed triple-quoted string."
               else "Unclosed string quote."
    let l1 := l.advance quotes.length (l.rest.drop quotes.length)
    match stringLoop quotes l1 false [] l1.rest with
    | none =>
      .err { stage := .lex, msg := msg,
             site := { path := l.buf.path, buf := l.buf.id, code := l.buf.code, line := l.line,
                       off := l.off, bol := l.bol, span := quotes.length } }
    | some (v, l2) =>
      let l3 := l2.advance quotes.length (l2.rest.drop quotes.length)
      .ok ({ kind := .string, value := v, lw := ws,
             site := { l3.site l.off l.bol with line := l.line } }, l3)
  | _ => .panic

/-- `consume`, lexer.rs:305-320. -/
def Lex.consume (l : Lex) : Res (Token × Lex) :=
  let (ws, l) := l.consumeWs
  match l.peekChar with
  | none => .panic
  | some c =>
    match charKind c with
    | some .lparen => l.consumeParen .lparen '(' ws
    | some .rparen => l.consumeParen .rparen ')' ws
    | some .number => l.consumeAtom .number ws
    | some .string => l.consumeString ws
    | some .symbol => l.consumeAtom .symbol ws
    | some .keyword => l.consumeKeyword ws
    | none => .panic

/-- `peek`, lexer.rs:344-348: `restore` puts the state back, so only the token
remains. -/
def Lex.peek (l : Lex) : Res Token := do
  let (t, _) ← l.consume
  .ok t

/-- `eof`, lexer.rs:351-356. -/
def Lex.eof (l : Lex) : Bool := l.consumeWs.2.peekChar.isNone

end Seam
