import Verif.Spec.Tree
import Verif.Model.Expander
import Verif.Model.Data

/-! What it means for a site to mark a piece of a line of a source file. -/

namespace Seam.Spec

/-- The site `s` marks `text` in the file `path` with the contents `code`: `above` are the
complete lines above it, `left` is what stands before it on its line and `rest` what follows. -/
structure Marks (s : Site) (path code above left text rest : Str) : Prop where
  code_eq : code = above ++ left ++ text ++ rest
  lines : above = [] ∨ ∃ a, above = a ++ ['\n']
  sameLine : '\n' ∉ left
  text_ne : text ≠ []
  path_eq : s.path = path
  buffer : s.code = code
  off : s.off = blen (above ++ left)
  bol : s.bol = blen left
  span : s.span = blen text

/-- The file is the main source or can be read in the file system. -/
def Source (ext : Ext) (path code p c : Str) : Prop := p = path ∧ c = code ∨ ext.readFile p = some c

/-- The site marks a piece of the main source or of a readable file. -/
def FromFiles (ext : Ext) (path code : Str) (s : Site) : Prop :=
  ∃ p c above left text rest, Source ext path code p c ∧ Marks s p c above left text rest

/-- The text up to the end of the line. -/
def upToNewline (s : Str) : Str := s.takeWhile (· != '\n')

/-- The text of an error about `text`: its line, with the rest of the line as `shown`; below it
marks, with the two bars one below the other; and the place and the message. -/
def errorText (width : Str → Nat) (what msg path : Str) (line : Nat) (left text shown : Str) : Str :=
  str! "  " ++ natStr line ++ str! " | " ++ left ++ shown ++ str! "\n" ++
  List.replicate ((natStr line).length + 3) ' ' ++ str! "| " ++
    List.replicate (width left) '~' ++ List.replicate (width text) '^' ++ str! "\n" ++
  str! "[**] " ++ what ++ str! " (" ++ path ++ str! ":" ++ natStr line ++ str! ":" ++ natStr (width left + 1) ++ str! "): " ++ msg

/-- Printable ASCII characters take one column each. -/
def AsciiColumns (width : Str → Nat) : Prop :=
  ∀ s : Str, (∀ c ∈ s, 32 ≤ c.toNat ∧ c.toNat < 127) → width s = s.length

end Seam.Spec
