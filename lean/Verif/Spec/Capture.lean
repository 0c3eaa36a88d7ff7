import Verif.Spec.Bind

/-! The definitions in force while the body of a macro is expanded. -/

namespace Seam.Spec

/-- The definitions `sc`, except that the names `xs` stand for the values `vs`. -/
def given : List Str → List PNode → Scope → Scope
  | x :: xs, v :: vs, sc => given xs vs (bound sc x [v])
  | _, _, sc => sc

mutual
/-- The name `x` is bound by the pattern. -/
inductive Binder (x : Str) : PNode → Prop
  | symbol (a : Node) : a.value = x → Binder x (.symbol a)
  | attr (k : Str) (p : PNode) (s : Site) (w : Str) : Binder x p → Binder x (.attr k p s w)
  | list (ps : List PNode) (s : Site) (e : Token) (w : Str) : ParamName x ps → Binder x (.list ps s e w)
/-- The name `x` is bound by the parameters: it is in one of the plain patterns, or it is the name of a rest
parameter or of a named parameter. -/
inductive ParamName (x : Str) : List PNode → Prop
  | plain (ps : List PNode) (p : PNode) : p ∈ plainParams ps → Binder x p → ParamName x ps
  | rest (ps : List PNode) : x ∈ restNames ps ∨ x ∈ kwRestNames ps → ParamName x ps
  | named (ps : List PNode) (d : PNode) : lastNamed x ps = some d → ParamName x ps
end

end Seam.Spec
