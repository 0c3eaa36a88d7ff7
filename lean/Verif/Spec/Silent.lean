import Verif.Spec.Exchange

/-!
Parts of programs that only print lines while the program is expanded.
-/

namespace Seam.Spec

open Seam

/-- From every state the nodes have the empty result, and do nothing but print some lines. -/
def OnlyPrints (ext : Ext) (ns : List PNode) : Prop := ∀ s, ∃ lines, Evals ext ns s (.ok []) { s with log := s.log ++ lines }

/-- If the nodes have a result, it is empty, and they did nothing but print some lines. -/
def PrintsOnly (ext : Ext) (ns : List PNode) : Prop := ∀ s vs t, Evals ext ns s (.ok vs) t →
  vs = [] ∧ ∃ lines, t = { s with log := s.log ++ lines }

/-- The second program is the first one without some of the parts that only print, wherever nodes are expanded. -/
def Silenced (ext : Ext) : List PNode → List PNode → Prop := Exchanged fun as bs => bs = [] ∧ OnlyPrints ext as

end Seam.Spec
