import Verif.Spec.Builtins
import Verif.Spec.Moved

/-! Files with an include guard. -/

namespace Seam.Spec

/-- The same nodes, but for their positions. -/
def Alike (ns ms : List PNode) : Prop := Moveds (fun _ _ => True) ns ms

/-- A file with an include guard: the path it is included by, the name of the guard, the text that
stands for a further inclusion, and its content. -/
structure GuardFile where
  path : Str
  guard : Str
  skip : Str
  body : List PNode

/-- The file is found under its path, and is written
`(%ifdef guard "skip" (%do (%define guard value...) body...))`. -/
def Guarded (ext : Ext) (F : GuardFile) : Prop :=
  ∃ file code, FirstRead ext (includeFiles ext F.path) file code ∧ ∃ c cond no d a yes x value body,
    parse ext.unescape { path := file, id := 1, code := code } = .ok [c] ∧
    IsCall (str! "ifdef") [cond, .string yes, no] c ∧ Literal cond a ∧ a.value = F.guard ∧ yes.value = F.skip ∧
    IsCall (str! "do") (d :: body) no ∧ Alike F.body body ∧ IsCall (str! "define") (.symbol x :: value) d ∧ x.value = F.guard ∧ MacrosFree value

/-- `(%include path)`. -/
def Includes (path : Str) (c : PNode) : Prop :=
  ∃ p a, IsCall (str! "include") [p] c ∧ Literal p a ∧ MacroFree p ∧ a.value = path

/-- `Walk files seen ns out seen'`: what including means when every file is taken once.  The nodes `ns`
become `out` when the files with the guards `seen` have been taken before; afterwards those with
the guards `seen'` have. -/
inductive Walk (files : List GuardFile) : List Str → List PNode → List PNode → List Str → Prop
  | nil (seen : List Str) : Walk files seen [] [] seen
  /-- Nodes without macros stay. -/
  | plain (seen seen' : List Str) (n : PNode) (ns out : List PNode) : MacroFree n → Walk files seen ns out seen' →
      Walk files seen (n :: ns) (n :: out) seen'
  /-- Lists are walked through. -/
  | list (seen seen₁ seen' : List Str) (ks ns out₁ out : List PNode) (s : Site) (e : Token) (w : Str) :
      (∀ a t name, ks = .symbol a :: t → a.value ≠ '%' :: name) → Walk files seen ks out₁ seen₁ → Walk files seen₁ ns out seen' →
      Walk files seen (.list ks s e w :: ns) (.list out₁ s e w :: out) seen'
  /-- A file that was taken before. -/
  | again (seen seen' : List Str) (F : GuardFile) (c : PNode) (ns out : List PNode) : F ∈ files → Includes F.path c → F.guard ∈ seen →
      Walk files seen ns out seen' → Walk files seen (c :: ns) (.string ⟨F.skip, c.site, c.lw⟩ :: out) seen'
  /-- A file that was not taken yet: its content, in place of the call. -/
  | first (seen seen₁ seen' : List Str) (F : GuardFile) (c : PNode) (ns out₁ out : List PNode) : F ∈ files → Includes F.path c → F.guard ∉ seen →
      Walk files (F.guard :: seen) F.body out₁ seen₁ → Walk files seen₁ ns out seen' →
      Walk files seen (c :: ns) (firstSpaced c.lw out₁ ++ out) seen'

/-- The guards that are defined are those of `seen`. -/
def Knows (files : List GuardFile) (seen : List Str) (s : St) : Prop := ∀ F ∈ files, (s.scope F.guard).isSome ↔ F.guard ∈ seen

mutual
/-- Nodes without macros other than the inclusion of the files. -/
inductive OnlyIncludes (files : List GuardFile) : PNode → Prop
  | plain (n : PNode) : MacroFree n → OnlyIncludes files n
  | list (ks : List PNode) (s : Site) (e : Token) (w : Str) : (∀ a t name, ks = .symbol a :: t → a.value ≠ '%' :: name) →
      OnlyIncludess files ks → OnlyIncludes files (.list ks s e w)
  | include_ (F : GuardFile) (c : PNode) : F ∈ files → Includes F.path c → OnlyIncludes files c
/-- The same for several nodes. -/
inductive OnlyIncludess (files : List GuardFile) : List PNode → Prop
  | nil : OnlyIncludess files []
  | cons (n : PNode) (ns : List PNode) : OnlyIncludes files n → OnlyIncludess files ns → OnlyIncludess files (n :: ns)
end

end Seam.Spec
