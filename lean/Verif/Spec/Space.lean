import Verif.Spec.Eval
import Verif.Spec.Written
import Verif.Spec.Pairs

/-!
The whitespace in front of a macro call.
-/

namespace Seam.Spec

open Seam

/-- The macros whose result begins with the whitespace in front of the call. -/
def keepSpace : List Str := [
  str! "ifdef", str! "include", str! "embed", str! "markdown", str! "date", str! "timestamp", str! "format",
  str! "raw", str! "string", str! "sort", str! "join", str! "concat", str! "list", str! "lambda"]

/-- The macros that hand their call on to the macro they are given. -/
def passSpace : List Str := [str! "apply", str! "map", str! "filter"]

/-- The same node, but for the whitespace in front of it. -/
def SameButGap (m m' : PNode) : Prop := ∃ w, m' = withGap w m

/-- The nodes, with other whitespace in front of the first. -/
def respaced (w : Str) : List PNode → List PNode
  | [] => []
  | n :: ns => withGap w n :: ns

end Seam.Spec
