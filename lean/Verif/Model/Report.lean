import Verif.Model.Site
import Verif.Model.Data

/-!
# How errors are printed

The four `Display` implementations of errors (parse/lexer.rs:12-24,
parse/parser.rs:387-400, parse/expander.rs:40-54, assemble/mod.rs:28-47) print the
same three lines and differ only in the heading.  Colours (crate `colored`) are left out.
-/

namespace Seam

/-- `Site::line_column`, tokens.rs:95-98.  `width` is `UnicodeWidthStr::width`; `none` is
the panic of an invalid slice. -/
def Site.lineColumn (width : Str → Nat) (s : Site) : Option Nat :=
  s.preceding.map fun t => width t + 1

/-- `Site::width`, tokens.rs:87-90. -/
def Site.width (width : Str → Nat) (s : Site) : Option Nat := s.view.map width

/-- `Display for Site`, tokens.rs:111-118. -/
def Site.display (width : Str → Nat) (s : Site) : Option Str :=
  (s.lineColumn width).map fun col => '(' :: s.path ++ ':' :: natStr s.line ++ ':' :: natStr col ++ [')']

/-- `"  {} |"`, lexer.rs:15. -/
def linePrefix (s : Site) : Str := str! "  " ++ natStr s.line ++ str! " |"

/-- `{:>n$}` for a text of `k` characters: the padding. -/
def padding (n k : Nat) : Str := List.replicate (n - k) ' '

/-- `Display::fmt` of an error, lexer.rs:12-24 (and the three others, see above) with the
heading `what` and the message `msg`; `none` is a panic. -/
def report (width : Str → Nat) (what msg : Str) (s : Site) : Option Str := do
  let line ← s.lineSlice
  let col ← s.lineColumn width
  let len ← s.width width
  let place ← s.display width
  some (linePrefix s ++ ' ' :: line ++ '\n' ::
    (padding (width (linePrefix s)) 1 ++ '|' :: ' ' :: List.replicate (col - 1) '~' ++ List.replicate len '^' ++ '\n' ::
    (str! "[**] " ++ what ++ ' ' :: place ++ str! ": " ++ msg)))

/-- `Display::fmt` of an error (lexer.rs:12-24 and the three others) in versions of Rust that keep the widths of
`{:>prefix_offset$} {:~>text_offset$}{:^>length$}` in 16 bits and panic if one of them is larger than
`limit` = 65535 (since Rust 1.87; rust-toolchain.toml asks for the current nightly version). -/
def reportIn (limit : Nat) (width : Str → Nat) (what msg : Str) (s : Site) : Option Str := do
  let col ← s.lineColumn width
  let len ← s.width width
  if limit < width (linePrefix s) then none
  else if limit < col - 1 then none
  else if limit < len then none
  else report width what msg s

/-- What `%log` prints, expander.rs:1003-1004. -/
def logLine (width : Str → Nat) (words : List Str) (s : Site) : Option Str :=
  (s.display width).map fun place => str! "[#] log " ++ place ++ str! ": " ++ joinStr [' '] words

end Seam
