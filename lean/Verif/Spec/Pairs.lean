/-! Two lists related element by element. -/

namespace Seam.Spec

/-- The lists have the same length, and elements at the same place are related. -/
inductive Pairs {α β : Type} (R : α → β → Prop) : List α → List β → Prop
  | nil : Pairs R [] []
  | cons {a : α} {b : β} {as : List α} {bs : List β} : R a b → Pairs R as bs → Pairs R (a :: as) (b :: bs)

end Seam.Spec
