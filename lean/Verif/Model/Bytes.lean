import Verif.Model.Assemble

/-!
# `escape_xml` on bytes

The Rust function works on the bytes of UTF-8 text and uses `from_utf8_unchecked`.
This file models it literally over bytes; `C18_bytes` in `Verif.Props.Markup` relates it to
the character-level model.
-/

namespace Seam

/-- The `match` of `escape_xml` on a byte, assemble/mod.rs:120-127. -/
def escapeXmlByte (b : UInt8) : List UInt8 :=
  if b == 60 then [38, 108, 116, 59]
  else if b == 62 then [38, 103, 116, 59]
  else if b == 34 then [38, 113, 117, 111, 116, 59]
  else if b == 39 then [38, 97, 112, 111, 115, 59]
  else if b == 38 then [38, 97, 109, 112, 59]
  else [b]

/-- `escape_xml`, assemble/mod.rs:116-132, on bytes. -/
def escapeXmlBytes : List UInt8 → List UInt8
  | [] => []
  | b :: bs => escapeXmlByte b ++ escapeXmlBytes bs

end Seam
