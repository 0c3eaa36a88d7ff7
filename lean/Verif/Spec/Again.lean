import Verif.Spec.Nodes

/-! How raw text is written as source. -/

namespace Seam.Spec

mutual
/-- The node with every piece of raw text `v` written as the macro call `(%raw "v")`. -/
def rawCalls : PNode → PNode
  | .raw n => .list [.symbol { value := str! "%raw", site := n.site, lw := [] }, .string { n with lw := [' '] }] n.site
      { kind := .rparen, value := [')'], lw := [], site := n.site } n.lw
  | .list ns s e w => .list (rawCallss ns) s e w
  | .attr k n s w => .attr k (rawCalls n) s w
  | n => n
/-- The same for several nodes. -/
def rawCallss : List PNode → List PNode
  | [] => []
  | n :: ns => rawCalls n :: rawCallss ns
end

end Seam.Spec
