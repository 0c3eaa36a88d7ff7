import Verif.Model.Parser

/-!
# The work of the reader

The functions of parser.rs once more, with the steps of the lexer counted.  A step is one byte passed over, or one
look at a character that is not passed over.  The loops of lexer.rs pass over at least one character in each turn and do
a fixed amount of work besides (`peek_char`, `starts_with` with one or three quotes, setting the counters), as do the functions
outside of loops (`site`, slices, `Token::new`); that is not counted.  Looking ahead (`peek`, `eof`) is counted each time, since
the text is read again afterwards.
-/

namespace Seam

/-- The turns of the loop of `consume_whitespace`, lexer.rs:94-116, counted in bytes. -/
def wsSteps (eon : Bool) : Str → Nat
  | [] => 0
  | c :: cs =>
    let eon := eon || c == ';'
    if !isWs c && !eon then 1
    else c.utf8Size + wsSteps (if c == '\n' then false else eon) cs

/-- The turns of the loop of `consume_identifier_string`, lexer.rs:182-205. -/
def identSteps : Str → Nat
  | [] => 1
  | c :: cs =>
    match charKind c with
    | none => 1
    | some k =>
      if c == '\\' then
        match cs with
        | [] => c.utf8Size
        | e :: es => c.utf8Size + e.utf8Size + identSteps es
      else if k = .symbol ∨ k = .number ∨ k = .keyword then c.utf8Size + identSteps cs
      else 1

/-- The turns of the loops of `consume_string`, lexer.rs:229-246 and 260-277. -/
def stringSteps (quotes : Str) (esc : Bool) : Str → Nat
  | [] => 1
  | c :: cs =>
    if quotes.isPrefixOf (c :: cs) && !esc then 1
    else c.utf8Size + stringSteps quotes (if !esc then c == '\\' else false) cs

/-- The steps of `consume`, lexer.rs:305-320: the whitespace, a look at the next character, and the token. -/
def Lex.consumeSteps (l : Lex) : Nat :=
  let rest := l.consumeWs.2.rest
  let quotes : Str := if ['"', '"', '"'].isPrefixOf rest then ['"', '"', '"'] else ['"']
  wsSteps false l.rest + 1 +
    match rest with
    | [] => 0
    | c :: cs =>
      match charKind c with
      | some .lparen | some .rparen => 1
      | some .number | some .symbol => identSteps (c :: cs)
      | some .keyword => 1 + identSteps cs
      | some .string => 2 * quotes.length + stringSteps quotes false ((c :: cs).drop quotes.length)
      | none => 0

/-- The steps of `eof`, lexer.rs:351-356. -/
def Lex.eofSteps (l : Lex) : Nat := wsSteps false l.rest + 1

/-- An outcome and the steps that were needed. -/
def Counted (α : Type) : Type := Res α × Nat

namespace Counted

/-- Go on after a success. -/
def bind {α β : Type} (r : Counted α) (f : α → Counted β) : Counted β :=
  match r with
  | (.ok a, n) => ((f a).1, n + (f a).2)
  | (.err e, n) => (.err e, n)
  | (.panic, n) => (.panic, n)
  | (.diverge, n) => (.diverge, n)

instance : Monad Counted where
  pure a := (.ok a, 0)
  bind := bind

end Counted

/-- An outcome that needs `n` steps. -/
def steps {α : Type} (r : Res α) (n : Nat) : Counted α := (r, n)

/-- `consume`. -/
def Lex.consumeCounted (l : Lex) : Counted (Token × Lex) := steps l.consume l.consumeSteps
/-- `peek`, lexer.rs:344-348. -/
def Lex.peekCounted (l : Lex) : Counted Token := steps l.peek l.consumeSteps
/-- `eof`, lexer.rs:351-356. -/
def Lex.eofCounted (l : Lex) : Counted Bool := steps (.ok l.eof) l.eofSteps

/-- `parse_atomic`, parser.rs:473-485.  Removing the backslashes or replacing the escapes is a pass over the text of
the token. -/
def parseAtomicCounted (u : Unescape) (l : Lex) : Counted (Node × Lex) := do
  let (t, l) ← l.consumeCounted
  let v ← match t.kind with
    | .symbol | .number | .keyword => steps (.ok (escapeSanitize t.value)) (blen t.value)
    | .string => steps (escapeString u t.value t.site) (blen t.value)
    | _ => steps .panic 0
  steps (.ok ({ value := v, site := t.site, lw := t.lw }, l)) 0

mutual
/-- `parse_expr`, parser.rs:430-443.  The fuel is that of `parseExpr`. -/
def parseExprCounted (u : Unescape) : (fuel : Nat) → Lex → Counted (PNode × Lex)
  | 0, _ => steps .diverge 0
  | fuel + 1, l => do
    let t ← l.peekCounted
    match t.kind with
    | .lparen => parseListCounted u fuel l
    | .rparen => steps (.err (parseErr "Unexpected `)' closing parenthesis." t.site)) 0
    | .keyword => parseKeywordCounted u fuel l
    | .symbol => do let (n, l) ← parseAtomicCounted u l; steps (.ok (.symbol n, l)) 0
    | .string => do let (n, l) ← parseAtomicCounted u l; steps (.ok (.string n, l)) 0
    | .number => do let (n, l) ← parseAtomicCounted u l; steps (.ok (.number n, l)) 0

/-- `parse_keyword`, parser.rs:446-469. -/
def parseKeywordCounted (u : Unescape) : (fuel : Nat) → Lex → Counted (PNode × Lex)
  | 0, _ => steps .diverge 0
  | fuel + 1, l => do
    let (t, l) ← l.consumeCounted
    if t.kind = .keyword then do
      let done ← l.eofCounted
      if done then steps (.err (parseErr "Keyword expects an expression following it." t.site)) 0
      else do
        let t' ← l.peekCounted
        if t'.kind = .rparen then steps (.err (parseErr "Keyword expects an expression following it." t.site)) 0
        else do
          let (v, l) ← parseExprCounted u fuel l
          steps (.ok (.attr t.value v t.site t.lw, l)) 0
    else steps .panic 0

/-- `parse_list`, parser.rs:488-517. -/
def parseListCounted (u : Unescape) : (fuel : Nat) → Lex → Counted (PNode × Lex)
  | 0, _ => steps .diverge 0
  | fuel + 1, l => do
    let (t, l) ← l.consumeCounted
    if t.kind = .lparen then do
      let (ns, r, l) ← parseElemsCounted u fuel l
      match r with
      | none => steps (.err (parseErr "Expected `)' closing parenthesis." t.site)) 0
      | some e => steps (.ok (.list ns t.site e t.lw, l)) 0
    else steps .panic 0

/-- The `while` loop of `parse_list`, parser.rs:495-504. -/
def parseElemsCounted (u : Unescape) : (fuel : Nat) → Lex → Counted (List PNode × Option Token × Lex)
  | 0, _ => steps .diverge 0
  | fuel + 1, l => do
    let done ← l.eofCounted
    if done then steps (.ok ([], none, l)) 0
    else do
      let t ← l.peekCounted
      if t.kind = .rparen then do
        let (e, l) ← l.consumeCounted
        steps (.ok ([], some e, l)) 0
      else do
        let (n, l) ← parseExprCounted u fuel l
        let (ns, r, l) ← parseElemsCounted u fuel l
        steps (.ok (n :: ns, r, l)) 0
end

/-- The `while` loop of `Parser::parse`, parser.rs:420-427. -/
def parseRootCounted (u : Unescape) : (fuel : Nat) → Lex → Counted (List PNode)
  | 0, _ => steps .diverge 0
  | fuel + 1, l => do
    let done ← l.eofCounted
    if done then steps (.ok []) 0
    else do
      let (n, l) ← parseExprCounted u fuel l
      let ns ← parseRootCounted u fuel l
      steps (.ok (n :: ns)) 0

/-- `Parser::parse`, parser.rs:420-427, with its steps. -/
def parseCounted (u : Unescape) (b : Buf) : Counted (List PNode) :=
  parseRootCounted u (parseFuel b.code.length) (Lex.new b)

end Seam
