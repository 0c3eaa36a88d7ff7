import Verif.Spec.Markup

/-! Trees without the positions of their nodes. -/

namespace Seam.Spec

mutual
/-- The node with every position in it forgotten; what is left are its texts, its
whitespace and its structure. -/
def unplaced : PNode → PNode
  | .symbol n => .symbol { n with site := default }
  | .number n => .number { n with site := default }
  | .string n => .string { n with site := default }
  | .raw n => .raw { n with site := default }
  | .list ns _ e w => .list (unplaceds ns) default { (default : Token) with lw := e.lw } w
  | .attr k n _ w => .attr k (unplaced n) default w
/-- The same for several nodes. -/
def unplaceds : List PNode → List PNode
  | [] => []
  | n :: ns => unplaced n :: unplaceds ns
end

end Seam.Spec
