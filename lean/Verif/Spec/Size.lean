import Verif.Model.Cli

/-! # Specification: sizes of texts in bytes -/

namespace Seam.Spec

/-- Removing escapes does not make a text longer (as in the crate `unescape`: an escape is
never shorter than the character it stands for). -/
def NoLonger (u : Unescape) : Prop := ∀ s v, u s = some v → blen v ≤ blen s

/-- Quoting makes a text at most six times as long, and adds two quotes (as `{:?}` of
Rust: the longest escapes are those like `\u{7f}` for one byte). -/
def SixFold (dbg : Str → Str) : Prop := ∀ s, blen (dbg s) ≤ 6 * blen s + 2

end Seam.Spec
