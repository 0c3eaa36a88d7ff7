import Verif.Model.Basic

/-!
# Byte slices and sites (crates/seam/src/parse/tokens.rs)
-/

namespace Seam

/-- The first `n` bytes of a string, `none` if that is not a character
boundary inside the string (a panicking slice). -/
def takeBytes : Str → Nat → Option Str
  | _, 0 => some []
  | [], _ + 1 => none
  | c :: cs, n + 1 =>
    if c.utf8Size ≤ n + 1 then (takeBytes cs (n + 1 - c.utf8Size)).map (c :: ·) else none

/-- The string after the first `n` bytes, `none` as for `takeBytes`. -/
def dropBytes : Str → Nat → Option Str
  | s, 0 => some s
  | [], _ + 1 => none
  | c :: cs, n + 1 =>
    if c.utf8Size ≤ n + 1 then dropBytes cs (n + 1 - c.utf8Size) else none

/-- `&s[a..b]`: `none` is the panic of an invalid slice. -/
def sliceBytes (s : Str) (a b : Nat) : Option Str :=
  if a ≤ b then (dropBytes s a).bind fun t => takeBytes t (b - a) else none

/-- The UTF-8 bytes of a string (`str::as_bytes`). -/
def bytesOf : Str → List UInt8
  | [] => []
  | c :: cs => String.utf8EncodeChar c ++ bytesOf cs

/-- `Site::start_of_line`, tokens.rs:55-57; `none` is an underflow. -/
def Site.startOfLine (s : Site) : Option Nat :=
  if s.bol ≤ s.off then some (s.off - s.bol) else none

/-- The loop of `Site::end_of_line`, tokens.rs:63-69, over the bytes from index
`i` on. -/
def eolLoop (i : Nat) : List UInt8 → Nat
  | [] => i
  | b :: bs => if b = 10 then i else eolLoop (i + 1) bs

/-- `Site::end_of_line`, tokens.rs:60-70. -/
def Site.endOfLine (s : Site) : Nat := eolLoop s.off ((bytesOf s.code).drop s.off)

/-- `Site::view`, tokens.rs:74-78; `none` is a panic. -/
def Site.view (s : Site) : Option Str := sliceBytes s.code s.off (s.off + s.span)

/-- `Site::line_slice`, tokens.rs:81-83; `none` is a panic. -/
def Site.lineSlice (s : Site) : Option Str :=
  s.startOfLine.bind fun a => sliceBytes s.code a s.endOfLine

/-- The text before the site on its line, tokens.rs:96 (argument of
`line_column`); `none` is a panic. -/
def Site.preceding (s : Site) : Option Str :=
  s.startOfLine.bind fun a => sliceBytes s.code a s.off

end Seam
