import Verif.Model.Lexer
import Verif.Model.Site

/-!
# The lexer on bytes (crates/seam/src/parse/lexer.rs)

The Rust lexer holds a `String` and a byte offset.  It reads single bytes, slices
the text (a slice that does not lie on character boundaries panics) and converts
bytes to text with `from_utf8_unchecked` (undefined behaviour if they are not
UTF-8).  This file models it on the bytes and offsets, with all these outcomes
as values; `Verif.Props.Bytes` relates it to the character model of
`Verif.Model.Lexer`.
-/

namespace Seam

/-- Outcome of a function of the byte lexer: a value, a `LexError` (message, line, offset,
offset in the line, span), a panic, undefined behaviour, or no return. -/
inductive BRes (α : Type) where
  | ok (a : α)
  | err (msg : String) (line off bol span : Nat)
  | panic
  | undefined
  | diverge
deriving DecidableEq, Repr

/-- Sequencing. -/
def BRes.bind {α β : Type} (r : BRes α) (f : α → BRes β) : BRes β :=
  match r with
  | .ok a => f a
  | .err m l o b s => .err m l o b s
  | .panic => .panic
  | .undefined => .undefined
  | .diverge => .diverge

instance : Monad BRes where
  pure := .ok
  bind := BRes.bind

/-- The decoder behind `Chars::next` (`next_code_point` of the standard library): the code
point and the bytes after it.  Bit operations are written as arithmetic; `none` where the
Rust code relies on a further byte that does not exist. -/
def nextCodePoint : List UInt8 → Option (Nat × List UInt8)
  | [] => none
  | x :: r =>
    if x.toNat < 128 then some (x.toNat, r)
    else
      match r with
      | [] => none
      | y :: r =>
        if x.toNat < 224 then some (x.toNat % 32 * 64 + y.toNat % 64, r)
        else
          match r with
          | [] => none
          | z :: r =>
            if x.toNat < 240 then some (x.toNat % 32 * 4096 + (y.toNat % 64 * 64 + z.toNat % 64), r)
            else
              match r with
              | [] => none
              | w :: r =>
                some (x.toNat % 8 * 262144 + (y.toNat % 64 * 64 + z.toNat % 64) * 64 + w.toNat % 64, r)

/-- Decodes up to `n` characters; `none` if the bytes are not UTF-8. -/
def utf8Loop : Nat → List UInt8 → Option Str
  | _, [] => some []
  | 0, _ :: _ => none
  | n + 1, b :: bs =>
    match nextCodePoint (b :: bs) with
    | none => none
    | some (p, r) =>
      if String.utf8EncodeChar (Char.ofNat p) ++ r = b :: bs then (utf8Loop n r).map (Char.ofNat p :: ·)
      else none

/-- The text of which these are the UTF-8 bytes, if there is one. -/
def utf8? (bs : List UInt8) : Option Str := utf8Loop bs.length bs

/-- `Lexer`, lexer.rs:49-55: `source.as_bytes()` and the three counters. -/
structure BLex where
  src : List UInt8
  off : Nat
  bol : Nat
  line : Nat
deriving DecidableEq, Repr

/-- `Lexer::new`, lexer.rs:58-66. -/
def BLex.new (code : Str) : BLex := { src := bytesOf code, off := 0, bol := 0, line := 1 }

/-- `increment_byte_offsets`, lexer.rs:72-77. -/
def BLex.inc (b : BLex) (n : Nat) : BLex := { b with off := b.off + n, bol := b.bol + n }

/-- `next_line`, lexer.rs:79-83. -/
def BLex.nextLine (b : BLex) : BLex := { b with line := b.line + 1, bol := 0 }

/-- `from_utf8_unchecked(&bytes[i..j])`. -/
def uncheckedText (src : List UInt8) (i j : Nat) : BRes (List UInt8) :=
  if i ≤ j ∧ j ≤ src.length then
    match utf8? ((src.drop i).take (j - i)) with
    | some _ => .ok ((src.drop i).take (j - i))
    | none => .undefined
  else .panic

/-- `str::is_char_boundary`: the start, the end, or a byte that does not continue a
character (`(b as i8) >= -0x40`). -/
def isCharBoundary (src : List UInt8) (i : Nat) : Bool :=
  if i = 0 then true
  else
    match src[i]? with
    | none => i == src.length
    | some b => b.toNat < 128 || 192 ≤ b.toNat

/-- `&self.source[i..j]`. -/
def checkedSlice (src : List UInt8) (i j : Nat) : BRes (List UInt8) :=
  if i ≤ j ∧ isCharBoundary src i = true ∧ isCharBoundary src j = true then .ok ((src.drop i).take (j - i)) else .panic

/-- `is_whitespace(byte as char)`, lexer.rs:28-30. -/
def isWsByte (b : UInt8) : Bool := b == 10 || b == 13 || b == 9 || b == 32

/-- The loop of `consume_whitespace`, lexer.rs:94-116; the result is `start`. -/
def bWsLoop : (fuel : Nat) → BLex → (start : Nat) → (eon : Bool) → BRes (Nat × BLex)
  | 0, _, _, _ => .diverge
  | fuel + 1, b, start, eon =>
    match b.src[b.off]? with
    | none => .panic
    | some byte =>
      let eon := eon || byte == 59
      if !isWsByte byte && !eon then .ok (start, b)
      else
        let index := b.off
        let b := b.inc 1
        if b.src.length ≤ b.off then .ok (start, b)
        else if byte == 10 then
          let b := b.nextLine
          if eon then bWsLoop fuel b index false else bWsLoop fuel b start eon
        else bWsLoop fuel b start eon

/-- `consume_whitespace`, lexer.rs:87-120. -/
def BLex.consumeWs (fuel : Nat) (b : BLex) : BRes (List UInt8 × BLex) :=
  if b.src.length ≤ b.off then .ok ([], b)
  else do
    let (start, b') ← bWsLoop fuel b b.off false
    let text ← uncheckedText b'.src start b'.off
    .ok (text, b')

/-- `peek_char`, lexer.rs:124-132. -/
def BLex.peekChar (b : BLex) : BRes (Option Char) :=
  if b.off ≤ b.src.length then
    match utf8? (b.src.drop b.off) with
    | some s => .ok s.head?
    | none => .undefined
  else .panic

/-- `starts_with`, lexer.rs:135-137. -/
def BLex.startsWith (b : BLex) (p : Str) : BRes Bool :=
  if isCharBoundary b.src b.off = true then .ok ((bytesOf p).isPrefixOf (b.src.drop b.off)) else .panic

/-- The `while` loop of `consume_char`, lexer.rs:144-146. -/
def bBoundaryLoop : (fuel : Nat) → BLex → BRes BLex
  | 0, _ => .diverge
  | fuel + 1, b => if isCharBoundary b.src b.off = true then .ok b else bBoundaryLoop fuel (b.inc 1)

/-- `consume_char`, lexer.rs:141-151. -/
def BLex.consumeChar (fuel : Nat) (b : BLex) : BRes (Option Char × BLex) := do
  let c ← b.peekChar
  let b' ← bBoundaryLoop fuel (b.inc 1)
  .ok (c, if c = some '\n' then b'.nextLine else b')

/-- The loop of `consume_identifier_string`, lexer.rs:184-203. -/
def bIdentLoop (inner : Nat) : (fuel : Nat) → BLex → BRes BLex
  | 0, _ => .diverge
  | fuel + 1, b => do
    match ← b.peekChar with
    | none => .ok b
    | some c =>
      match charKind c with
      | none => .ok b
      | some k =>
        if c == '\\' then do
          let (_, b1) ← b.consumeChar inner
          let (esc, b2) ← b1.consumeChar inner
          bIdentLoop inner fuel (if esc = some '\n' then b2.nextLine else b2)
        else if k = .symbol ∨ k = .number ∨ k = .keyword then do
          let (_, b1) ← b.consumeChar inner
          bIdentLoop inner fuel b1
        else .ok b

/-- `consume_identifier_string`, lexer.rs:182-205. -/
def BLex.consumeIdent (fuel : Nat) (b : BLex) : BRes (List UInt8 × BLex) := do
  let b' ← bIdentLoop fuel fuel b
  let text ← checkedSlice b'.src b.off b'.off
  .ok (text, b')

/-- A token: its slices of the source and the numbers of its site. -/
structure BToken where
  kind : Kind
  value : List UInt8
  lw : List UInt8
  line : Nat
  off : Nat
  bol : Nat
  span : Nat
deriving DecidableEq, Repr

/-- A token with the site of `Lexer::site`, lexer.rs:300-303; the subtraction is checked. -/
def BLex.token (b : BLex) (kind : Kind) (value lw : List UInt8) (line fileOff lineOff : Nat) : BRes BToken :=
  if fileOff ≤ b.off then
    .ok { kind := kind, value := value, lw := lw, line := line, off := fileOff, bol := lineOff, span := b.off - fileOff }
  else .panic

/-- `consume_lparen` / `consume_rparen`, lexer.rs:153-169. -/
def BLex.consumeParen (fuel : Nat) (b : BLex) (k : Kind) (p : Char) (ws : List UInt8) : BRes (BToken × BLex) := do
  let (c, b') ← b.consumeChar fuel
  if c = some p then do
    let text ← checkedSlice b'.src b.off b'.off
    let t ← b'.token k text ws b'.line b.off b.bol
    .ok (t, b')
  else .panic

/-- `consume_number` / `consume_symbol`, lexer.rs:171-177 and 208-214. -/
def BLex.consumeAtom (fuel : Nat) (b : BLex) (k : Kind) (ws : List UInt8) : BRes (BToken × BLex) := do
  let (text, b') ← b.consumeIdent fuel
  let t ← b'.token k text ws b'.line b.off b.bol
  .ok (t, b')

/-- `consume_keyword`, lexer.rs:290-297. -/
def BLex.consumeKeyword (fuel : Nat) (b : BLex) (ws : List UInt8) : BRes (BToken × BLex) := do
  let (c, b1) ← b.consumeChar fuel
  if c = some ':' then do
    let (text, b2) ← b1.consumeIdent fuel
    if 1 ≤ b1.off ∧ 1 ≤ b1.bol then do
      let t ← b2.token .keyword text ws b2.line (b1.off - 1) (b1.bol - 1)
      .ok (t, b2)
    else .panic
  else .panic

/-- The end-of-string test, lexer.rs:237 and 268. -/
def BLex.atQuotes (b : BLex) (triple : Bool) (c : Char) : BRes Bool :=
  if triple then b.startsWith ['"', '"', '"'] else .ok (c == '"')

/-- The loop of a string, lexer.rs:229-246 (`triple`) and 260-277; `none` at the end of the
source. -/
def bStringLoop (triple : Bool) (inner : Nat) : (fuel : Nat) → BLex → (esc : Bool) → BRes (Option BLex)
  | 0, _, _ => .diverge
  | fuel + 1, b, esc => do
    match ← b.peekChar with
    | none => .ok none
    | some c =>
      let b := if c == '\n' then b.nextLine else b
      let stop ← b.atQuotes triple c
      if stop && !esc then .ok (some b)
      else do
        let (_, b') ← b.consumeChar inner
        bStringLoop triple inner fuel b' (if !esc then c == '\\' else false)

/-- `consume_string`, lexer.rs:217-288. -/
def BLex.consumeString (fuel : Nat) (b : BLex) (ws : List UInt8) : BRes (BToken × BLex) := do
  match ← b.peekChar with
  | some '"' => do
    let triple ← b.startsWith ['"', '"', '"']
    let n := if triple then 3 else 1
    let msg := if triple then "Unclosed triple-quoted string." else "Unclosed string quote."
    let b1 := b.inc n
    match ← bStringLoop triple fuel fuel b1 false with
    | none => .err msg b.line b.off b.bol n
    | some b2 => do
      let b3 := b2.inc n
      let text ← checkedSlice b3.src b1.off b2.off
      let t ← b3.token .string text ws b.line b.off b.bol
      .ok (t, b3)
  | _ => .panic

/-- `consume`, lexer.rs:305-320. -/
def BLex.consume (fuel : Nat) (b : BLex) : BRes (BToken × BLex) := do
  let (ws, b) ← b.consumeWs fuel
  match ← b.peekChar with
  | none => .panic
  | some c =>
    match charKind c with
    | some .lparen => b.consumeParen fuel .lparen '(' ws
    | some .rparen => b.consumeParen fuel .rparen ')' ws
    | some .number => b.consumeAtom fuel .number ws
    | some .string => b.consumeString fuel ws
    | some .symbol => b.consumeAtom fuel .symbol ws
    | some .keyword => b.consumeKeyword fuel ws
    | none => .panic

/-- `eof`, lexer.rs:351-356. -/
def BLex.eof (fuel : Nat) (b : BLex) : BRes Bool := do
  let (_, b') ← b.consumeWs fuel
  let c ← b'.peekChar
  .ok c.isNone

end Seam
