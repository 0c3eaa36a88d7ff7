import Verif.Model.Arena

/-! # Counting lists (specification) -/

namespace Seam.Spec

mutual
/-- The number of lists, at any depth, whose first element is a symbol. -/
def symbolLists : PNode → Nat
  | .list ns _ _ _ => (match ns with | .symbol _ :: _ => 1 | _ => 0) + symbolListsIn ns
  | .attr _ n _ _ => symbolLists n
  | _ => 0
/-- The same in several nodes. -/
def symbolListsIn : List PNode → Nat
  | [] => 0
  | n :: ns => symbolLists n + symbolListsIn ns
end

end Seam.Spec
