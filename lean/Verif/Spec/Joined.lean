import Verif.Spec.Layout
import Verif.Spec.More

/-! Positions in a text to which another text was joined. -/

namespace Seam.Spec

/-- The position `q` in the buffer `b` is the position `p` of another buffer, so many lines and
bytes later, and at the same distance from the beginning of its line. -/
def ShiftedTo (b : Buf) (lines bytes : Nat) (p q : Site) : Prop :=
  q = { path := b.path, buf := b.id, code := b.code, line := p.line + lines, off := p.off + bytes, bol := p.bol, span := p.span }

/-- The blanks `v`, or the same after a line break and other blanks. -/
def AfterBreak (v w : Str) : Prop := w = v ∨ ∃ x, Blanks x ∧ w = x ++ '\n' :: v

/-- A place in one of two texts, and the same place in the text `b` made by joining them (or
a place in some other file, which may have been read another time). -/
def JoinedAt (b : Buf) (lines bytes : Nat) (p q : Site) : Prop :=
  Reread p q ∨ ShiftedTo b 0 0 p q ∨ ShiftedTo b lines bytes p q

/-- The expander, except that a call of `%lambda`, `%string`, `%raw` or `%namespace`, and a
call of `%ifdef` for a name that is not defined, has no outcome. -/
def soloRun (ext : Ext) : (fuel : Nat) → Rec
  | 0, _ => M.lift .diverge
  | fuel + 1, .node n => step ext (soloRun ext fuel) (.node n)
  | fuel + 1, .invoke name call params => fun s =>
    if asksUndefined s.scope name params || (builtin? name).any seesLayout then (.diverge, s)
    else step ext (soloRun ext fuel) (.invoke name call params) s

/-- Expanding the nodes `ns` in the state `s` finishes with outcome `r` and state `s'`, and on
the way none of these calls is made. -/
def SoloEvals (ext : Ext) (ns : List PNode) (s : St) (r : Res (List PNode)) (s' : St) : Prop :=
  r ≠ .diverge ∧ ∃ fuel, expandNodes (soloRun ext fuel) ns s = (r, s')

end Seam.Spec
