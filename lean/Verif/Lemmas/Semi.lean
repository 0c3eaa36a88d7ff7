import Verif.Lemmas.Closed

/-!
# Predicates that hold for every computation that does not ask what is undefined

Like `Closed`, except that the predicate need not hold for looking up a name as such, but
only for looking up a name that must be defined.  Then it holds for all macros except
`%ifdef` and `%namespace`.
-/

namespace Seam
open Spec

/-- The predicate holds for effects that do not look at the definitions. -/
structure Flat (P : (α : Type) → M α → Prop) : Prop where
  pure : ∀ {α : Type} (a : α), P _ (pure a : M α)
  lift : ∀ {α : Type} (r : Res α), P _ (M.lift r)
  define : ∀ name m, P _ (M.define name m)
  tick : P _ M.tick
  emit : ∀ l, P _ (M.emit l)
  bindEnd : ∀ acc vs, P _ (bindEnd acc vs)
  bind : ∀ {α β : Type} {m : M α} {f : α → M β}, P _ m → (∀ a, P _ (f a)) → P _ (m >>= f)

theorem Flat.fail {P : (α : Type) → M α → Prop} (hP : Flat P) {α : Type} (msg : String) (site : Site) :
    P _ (M.fail msg site : M α) := hP.lift _
theorem Flat.panic {P : (α : Type) → M α → Prop} (hP : Flat P) {α : Type} : P _ (M.panic : M α) := hP.lift _
theorem Flat.arguments {P : (α : Type) → M α → Prop} (hP : Flat P) (p : List ArgRule) (t : Option ArgType) (call : PNode)
    (ps : List PNode) : P _ (arguments p t call ps) := hP.lift _

/-- Walk through a do block. -/
macro "semi_walk" h:term:max "[" ts:term,* "]" : tactic => do
  let ts := ts.getElems
  `(tactic| repeat' (first
    | with_reducible exact Flat.pure $h _
    | with_reducible exact Flat.lift $h _
    | with_reducible exact Flat.fail $h _ _
    | with_reducible exact Flat.panic $h
    | with_reducible exact Flat.define $h _ _
    | with_reducible exact Flat.tick $h
    | with_reducible exact Flat.emit $h _
    | with_reducible exact Flat.arguments $h _ _ _ _
    $[| with_reducible apply $ts]*
    | (with_reducible refine Flat.bind $h ?_ (fun _ => ?_))
    | dsimp only
    | split))

section
variable {P : (α : Type) → M α → Prop} (hP : Flat P)
include hP

mutual
theorem bind_semi : ∀ (p v : PNode), P _ (bind p v)
  | .attr k0 n0 _ _, v => by
    have hrec := bind_semi n0
    unfold bind
    semi_walk hP [hrec]
  | .list ns0 _ _ _, v => by
    have hrec := bindLoop_semi ns0
    unfold bind
    semi_walk hP [hrec]
  | .symbol a, v => by unfold bind; semi_walk hP []
  | .number a, v => by unfold bind; semi_walk hP []
  | .string a, v => by unfold bind; semi_walk hP []
  | .raw a, v => by unfold bind; semi_walk hP []
theorem bindLoop_semi : ∀ (ps : List PNode) (assigned : PNode) (acc : BindAcc) (vs : List PNode),
    P _ (bindLoop assigned acc ps vs)
  | [], assigned, acc, vs => by unfold bindLoop; exact hP.bindEnd _ _
  | p :: ps, assigned, acc, vs => by
    have h1 := bind_semi p
    have h2 := bindLoop_semi ps
    cases p <;> simp only [bindLoop] <;> semi_walk hP [h1, h2]
end

theorem yScalar_semi (site : Site) (sep v : Str) (k : YSink) : P _ (yScalar site sep v k) := by
  unfold yScalar
  semi_walk hP []

theorem yEnd_semi (site : Site) (sep : Str) (k : YSink) : P _ (yEnd site sep k) := by
  unfold yEnd
  semi_walk hP []

theorem yEvents_semi (site : Site) (sep : Str) : ∀ (es : List YEvent) (k : YSink), P _ (yEvents site sep k es)
  | [], k => hP.pure _
  | e :: es, k => by
    have h := yEvents_semi site sep es
    have h1 := yScalar_semi hP site sep
    have h2 := yEnd_semi hP site sep
    unfold yEvents yEvent
    semi_walk hP [h, h1, h2]

theorem expandYaml_semi (ext : Ext) (text sep : Str) (site : Site) : P _ (expandYaml ext text sep site) := by
  have h := yEvents_semi hP site sep
  unfold expandYaml
  semi_walk hP [h]

mutual
theorem tomlValue_semi (site : Site) (sep : Str) : ∀ (v : TVal) (pref : List Str) (b : Bool),
    P _ (tomlValue site sep pref b v)
  | .str _, _, _ => by unfold tomlValue; semi_walk hP []
  | .num _, _, _ => by unfold tomlValue; semi_walk hP []
  | .sym _, _, _ => by unfold tomlValue; semi_walk hP []
  | .arr vs, _, _ => by
    have h := tomlArray_semi site sep vs
    unfold tomlValue; semi_walk hP [h]
  | .tab kvs, _, _ => by
    have h := tomlTable_semi site sep kvs
    unfold tomlValue; semi_walk hP [h]
theorem tomlArray_semi (site : Site) (sep : Str) : ∀ (vs : List TVal) (pref : List Str) (b : Bool) (i : Nat),
    P _ (tomlArray site sep pref b i vs)
  | [], _, _, _ => by unfold tomlArray; semi_walk hP []
  | v :: vs, _, _, _ => by
    have h := tomlValue_semi site sep v
    have h' := tomlArray_semi site sep vs
    unfold tomlArray; semi_walk hP [h, h']
theorem tomlTable_semi (site : Site) (sep : Str) : ∀ (kvs : List (Str × TVal)) (pref : List Str) (b : Bool),
    P _ (tomlTable site sep pref b kvs)
  | [], _, _ => by unfold tomlTable; semi_walk hP []
  | (_, v) :: kvs, _, _ => by
    have h := tomlValue_semi site sep v
    have h' := tomlTable_semi site sep kvs
    unfold tomlTable; semi_walk hP [h, h']
end

theorem expandToml_semi (ext : Ext) (text sep : Str) (site : Site) : P _ (expandToml ext text sep site) := by
  have h := tomlTable_semi hP site sep
  unfold expandToml
  semi_walk hP [h]

theorem frontmatter_semi (ext : Ext) (text sep : Str) (call : PNode) (site : Site) :
    P _ (frontmatter ext text sep call site) := by
  have h := expandYaml_semi hP ext
  have h' := expandToml_semi hP ext
  unfold frontmatter
  semi_walk hP [h, h']

theorem createMacro_semi (name : Str) (ps body : List PNode) : P _ (createMacro name ps body) := by
  unfold createMacro
  semi_walk hP []

end

/-- The predicate holds for everything that looks up no names. -/
structure Core (P : (α : Type) → M α → Prop) : Prop extends Flat P where
  inner : ∀ {α : Type} {m : M α}, P _ m → P _ (M.inner m)
  rethrow : ∀ {α : Type} {m : M α} msg site, P _ m → P _ (rethrow msg site m)
  matchBind : ∀ {α : Type} (p v : PNode) {body rest : M α}, P _ body → P _ rest → P _ (matchStep (Seam.bind p v) body rest)
  front : ∀ ext text sep call site, P _ (ignoreErr (frontmatter ext text sep call site))

/-- The predicate holds for everything that looks up only names that must be defined. -/
structure Semi (P : (α : Type) → M α → Prop) : Prop extends Core P where
  lookupOr : ∀ {α : Type} (name : Str) (msg : String) (site : Site) {f : Macro → M α}, (∀ m, P _ (f m)) →
    P _ (M.lookup name >>= fun d => match d with | none => M.fail msg site | some m => f m)

section
variable {P : (α : Type) → M α → Prop} (hP : Core P)
include hP

/-- The recursive calls satisfy the predicate. -/
def SemiRec (P : (α : Type) → M α → Prop) (rec : Rec) : Prop := ∀ c, P _ (rec c)

variable {rec : Rec}

theorem expandNodes_semi (h : SemiRec P rec) : ∀ ns, P _ (expandNodes rec ns)
  | [] => hP.pure _
  | _ :: ns => hP.bind (h _) fun _ => hP.bind (expandNodes_semi h ns) fun _ => hP.pure _

theorem matchLoop_semi (h : SemiRec P rec) (expr : PNode) : ∀ ps, P _ (matchLoop rec expr ps)
  | [] => hP.pure _
  | p :: ps => by
    unfold matchLoop
    split
    · exact hP.toFlat.fail _ _
    · refine hP.bind (h _) fun pats => ?_
      rcases pats with _ | ⟨pat', _ | ⟨_, _⟩⟩ <;> dsimp only
      · exact hP.toFlat.fail _ _
      · exact hP.matchBind pat' expr (expandNodes_semi hP h _) (matchLoop_semi h expr ps)
      · exact hP.toFlat.fail _ _
    · exact hP.toFlat.fail _ _

theorem forLoop_semi (h : SemiRec P rec) (it : PNode) (body : List PNode) : ∀ ns, P _ (forLoop rec it body ns)
  | [] => hP.pure _
  | _ :: ns => hP.bind (bind_semi hP.toFlat _ _) fun _ => hP.bind (expandNodes_semi hP h _) fun _ =>
      hP.bind (forLoop_semi h it body ns) fun _ => hP.pure _

theorem mapLoop_semi (h : SemiRec P rec) (call : PNode) (f : Str) : ∀ ns, P _ (mapLoop rec call f ns)
  | [] => hP.pure _
  | _ :: ns => hP.bind (h _) fun _ => hP.bind (mapLoop_semi h call f ns) fun _ => hP.pure _

theorem filterLoop_semi (h : SemiRec P rec) (call : PNode) (f : Str) : ∀ ns, P _ (filterLoop rec call f ns)
  | [] => hP.pure _
  | _ :: ns => hP.bind (h _) fun _ => hP.bind (filterLoop_semi h call f ns) fun _ => hP.pure _

theorem sortKeys_semi (h : SemiRec P rec) (call : PNode) (f : Str) (site : Site) :
    ∀ ns, P _ (sortKeys rec call f site ns)
  | [] => hP.pure _
  | n :: ns => by
    have ih := sortKeys_semi h call f site ns
    unfold sortKeys
    refine hP.bind ?_ fun _ => ?_
    · exact hP.rethrow _ _ (h (.invoke f call [n]))
    · semi_walk hP.toFlat [ih]

theorem defineMacro_semi (h : SemiRec P rec) (call : PNode) (ps : List PNode) :
    P _ (defineMacro rec call ps) := by
  have h1 := expandNodes_semi hP h
  have h2 := createMacro_semi hP.toFlat
  have h := fun c => h c
  unfold defineMacro
  semi_walk hP.toFlat [h1, h2, h]

theorem includeMacro_semi (ext : Ext) (h : SemiRec P rec) (call : PNode) (ps : List PNode) :
    P _ (includeMacro ext rec call ps) := by
  have h1 := expandNodes_semi hP h
  have h := fun c => h c
  unfold includeMacro
  semi_walk hP.toFlat [h1, h]

theorem embedMacro_semi (ext : Ext) (h : SemiRec P rec) (call : PNode) (ps : List PNode) :
    P _ (embedMacro ext rec call ps) := by
  have h1 := expandNodes_semi hP h
  have h := fun c => h c
  unfold embedMacro
  semi_walk hP.toFlat [h1, h]

theorem getMacro_semi (h : SemiRec P rec) (call : PNode) (ps : List PNode) :
    P _ (getMacro rec call ps) := by
  have h1 := expandNodes_semi hP h
  have h := fun c => h c
  unfold getMacro
  semi_walk hP.toFlat [h1, h]

theorem rawMacro_semi (h : SemiRec P rec) (call : PNode) (ps : List PNode) :
    P _ (rawMacro rec call ps) := by
  have h1 := expandNodes_semi hP h
  have h := fun c => h c
  unfold rawMacro
  semi_walk hP.toFlat [h1, h]

theorem stringMacro_semi (h : SemiRec P rec) (call : PNode) (ps : List PNode) :
    P _ (stringMacro rec call ps) := by
  have h1 := expandNodes_semi hP h
  have h := fun c => h c
  unfold stringMacro
  semi_walk hP.toFlat [h1, h]

theorem numberMacro_semi (h : SemiRec P rec) (call : PNode) (ps : List PNode) :
    P _ (numberMacro rec call ps) := by
  have h1 := expandNodes_semi hP h
  have h := fun c => h c
  unfold numberMacro
  semi_walk hP.toFlat [h1, h]

theorem symbolMacro_semi (h : SemiRec P rec) (call : PNode) (ps : List PNode) :
    P _ (symbolMacro rec call ps) := by
  have h1 := expandNodes_semi hP h
  have h := fun c => h c
  unfold symbolMacro
  semi_walk hP.toFlat [h1, h]

theorem markdownMacro_semi (ext : Ext) (h : SemiRec P rec) (call : PNode) (ps : List PNode) :
    P _ (markdownMacro ext rec call ps) := by
  have h1 := expandNodes_semi hP h
  have h2 := frontmatter_semi hP.toFlat ext
  have h3 := fun text sep site => hP.front ext text sep call site
  have h := fun c => h c
  unfold markdownMacro
  semi_walk hP.toFlat [h1, h2, h3, h]

theorem yamlMacro_semi (ext : Ext) (h : SemiRec P rec) (call : PNode) (ps : List PNode) :
    P _ (yamlMacro ext rec call ps) := by
  have h1 := expandNodes_semi hP h
  have h2 := expandYaml_semi hP.toFlat ext
  have h := fun c => h c
  unfold yamlMacro
  semi_walk hP.toFlat [h1, h2, h]

theorem tomlMacro_semi (ext : Ext) (h : SemiRec P rec) (call : PNode) (ps : List PNode) :
    P _ (tomlMacro ext rec call ps) := by
  have h1 := expandNodes_semi hP h
  have h2 := expandToml_semi hP.toFlat ext
  have h := fun c => h c
  unfold tomlMacro
  semi_walk hP.toFlat [h1, h2, h]

theorem globMacro_semi (ext : Ext) (h : SemiRec P rec) (call : PNode) (ps : List PNode) :
    P _ (globMacro ext rec call ps) := by
  have h1 := expandNodes_semi hP h
  have h := fun c => h c
  unfold globMacro
  semi_walk hP.toFlat [h1, h]

theorem sortMacro_semi (ext : Ext) (h : SemiRec P rec) (call : PNode) (ps : List PNode) :
    P _ (sortMacro ext rec call ps) := by
  have h1 := expandNodes_semi hP h
  have h2 := sortKeys_semi hP h call
  have h := fun c => h c
  unfold sortMacro
  semi_walk hP.toFlat [h1, h2, h]

theorem reverseMacro_semi (h : SemiRec P rec) (call : PNode) (ps : List PNode) :
    P _ (reverseMacro rec call ps) := by
  have h1 := expandNodes_semi hP h
  have h := fun c => h c
  unfold reverseMacro
  semi_walk hP.toFlat [h1, h]

theorem dateMacro_semi (ext : Ext) (h : SemiRec P rec) (call : PNode) (ps : List PNode) :
    P _ (dateMacro ext rec call ps) := by
  have h1 := expandNodes_semi hP h
  have h := fun c => h c
  unfold dateMacro timezone
  semi_walk hP.toFlat [h1, h]

theorem timestampMacro_semi (ext : Ext) (h : SemiRec P rec) (call : PNode) (ps : List PNode) :
    P _ (timestampMacro ext rec call ps) := by
  have h1 := expandNodes_semi hP h
  have h := fun c => h c
  unfold timestampMacro timezone
  semi_walk hP.toFlat [h1, h]

theorem joinMacro_semi (h : SemiRec P rec) (call : PNode) (ps : List PNode) :
    P _ (joinMacro rec call ps) := by
  have h1 := expandNodes_semi hP h
  have h := fun c => h c
  unfold joinMacro
  semi_walk hP.toFlat [h1, h]

theorem concatMacro_semi (h : SemiRec P rec) (call : PNode) (ps : List PNode) :
    P _ (concatMacro rec call ps) := by
  have h1 := expandNodes_semi hP h
  have h := fun c => h c
  unfold concatMacro
  semi_walk hP.toFlat [h1, h]

theorem mapMacro_semi (h : SemiRec P rec) (call : PNode) (ps : List PNode) :
    P _ (mapMacro rec call ps) := by
  have h1 := expandNodes_semi hP h
  have h2 := mapLoop_semi hP h call
  have h := fun c => h c
  unfold mapMacro
  semi_walk hP.toFlat [h1, h2, h]

theorem filterMacro_semi (h : SemiRec P rec) (call : PNode) (ps : List PNode) :
    P _ (filterMacro rec call ps) := by
  have h1 := expandNodes_semi hP h
  have h2 := filterLoop_semi hP h call
  have h := fun c => h c
  unfold filterMacro
  semi_walk hP.toFlat [h1, h2, h]

theorem listMacro_semi (h : SemiRec P rec) (call : PNode) (ps : List PNode) :
    P _ (listMacro rec call ps) := by
  have h1 := expandNodes_semi hP h
  have h := fun c => h c
  unfold listMacro
  semi_walk hP.toFlat [h1, h]

theorem applyMacro_semi (h : SemiRec P rec) (call : PNode) (ps : List PNode) :
    P _ (applyMacro rec call ps) := by
  have h1 := expandNodes_semi hP h
  have h := fun c => h c
  unfold applyMacro
  semi_walk hP.toFlat [h1, h]

theorem logMacro_semi (h : SemiRec P rec) (call : PNode) (ps : List PNode) :
    P _ (logMacro rec call ps) := by
  have h1 := expandNodes_semi hP h
  have h := fun c => h c
  unfold logMacro
  semi_walk hP.toFlat [h1, h]

theorem formatMacro_semi (ext : Ext) (h : SemiRec P rec) (call : PNode) (ps : List PNode) :
    P _ (formatMacro ext rec call ps) := by
  have h1 := expandNodes_semi hP h
  have h := fun c => h c
  unfold formatMacro
  semi_walk hP.toFlat [h1, h]

theorem osEnvMacro_semi (ext : Ext) (h : SemiRec P rec) (call : PNode) (ps : List PNode) :
    P _ (osEnvMacro ext rec call ps) := by
  have h1 := expandNodes_semi hP h
  have h := fun c => h c
  unfold osEnvMacro
  semi_walk hP.toFlat [h1, h]

theorem matchMacro_semi (h : SemiRec P rec) (call : PNode) (ps : List PNode) :
    P _ (matchMacro rec call ps) := by
  have h1 := expandNodes_semi hP h
  have h2 := matchLoop_semi hP h
  have h := fun c => h c
  unfold matchMacro
  semi_walk hP.toFlat [h1, h2, h]

theorem forMacro_semi (h : SemiRec P rec) (call : PNode) (ps : List PNode) :
    P _ (forMacro rec call ps) := by
  have h1 := expandNodes_semi hP h
  have h2 := forLoop_semi hP h
  have h3 := fun m h => hP.inner (α := List PNode) (m := m) h
  have h := fun c => h c
  unfold forMacro
  semi_walk hP.toFlat [h1, h3, h2, h]

theorem splatMacro_semi (h : SemiRec P rec) (ps : List PNode) : P _ (splatMacro rec ps) :=
  hP.bind (expandNodes_semi hP h _) fun _ => hP.pure _

theorem stripMacro_semi (h : SemiRec P rec) (ps : List PNode) : P _ (stripMacro rec ps) :=
  hP.bind (expandNodes_semi hP h _) fun _ => hP.pure _

theorem lambdaMacro_semi (ext : Ext) (call : PNode) (ps : List PNode) : P _ (lambdaMacro ext call ps) := by
  have h := createMacro_semi hP.toFlat
  unfold lambdaMacro
  semi_walk hP.toFlat [h]

theorem runBuiltin_semi (ext : Ext) (h : SemiRec P rec) (b : Builtin) (h1 : b ≠ .ifdef) (h2 : b ≠ .namespace_) (call : PNode) (ps : List PNode) :
    P _ (runBuiltin ext rec b call ps) := by
  cases b
  all_goals first
    | exact absurd rfl h1
    | exact absurd rfl h2
    | exact expandNodes_semi hP h _
    | exact lambdaMacro_semi hP _ _ _
    | exact defineMacro_semi hP h _ _
    | exact includeMacro_semi hP _ h _ _
    | exact embedMacro_semi hP _ h _ _
    | exact getMacro_semi hP h _ _
    | exact rawMacro_semi hP h _ _
    | exact stringMacro_semi hP h _ _
    | exact numberMacro_semi hP h _ _
    | exact symbolMacro_semi hP h _ _
    | exact markdownMacro_semi hP _ h _ _
    | exact yamlMacro_semi hP _ h _ _
    | exact tomlMacro_semi hP _ h _ _
    | exact globMacro_semi hP _ h _ _
    | exact sortMacro_semi hP _ h _ _
    | exact reverseMacro_semi hP h _ _
    | exact dateMacro_semi hP _ h _ _
    | exact timestampMacro_semi hP _ h _ _
    | exact joinMacro_semi hP h _ _
    | exact concatMacro_semi hP h _ _
    | exact mapMacro_semi hP h _ _
    | exact filterMacro_semi hP h _ _
    | exact listMacro_semi hP h _ _
    | exact applyMacro_semi hP h _ _
    | exact logMacro_semi hP h _ _
    | exact formatMacro_semi hP _ h _ _
    | exact osEnvMacro_semi hP _ h _ _
    | exact matchMacro_semi hP h _ _
    | exact forMacro_semi hP h _ _
    | exact splatMacro_semi hP h _
    | exact stripMacro_semi hP h _

/-- Nodes other than variables. -/
theorem expandNode_bare (h : SemiRec P rec) (n : PNode) (hn : ∀ a name, n = .symbol a → macroName? a.value = some name →
    P _ (expandVariable rec a name)) : P _ (expandNode rec n) := by
  have h1 := expandNodes_semi hP h
  have h := fun c => h c
  unfold expandNode
  split
  · split
    · exact hn _ _ rfl (by assumption)
    · exact hP.pure _
  all_goals semi_walk hP.toFlat [h1, h]

end

section
variable {P : (α : Type) → M α → Prop} (hP : Semi P)
include hP
variable {rec : Rec}

theorem userMacro_semi (h : SemiRec P rec) (name : Str) (call : PNode) (ps : List PNode) :
    P _ (userMacro rec name call ps) := by
  unfold userMacro bindList
  refine hP.bind (expandNodes_semi hP.toCore h _) fun vs => ?_
  exact hP.lookupOr _ _ _ fun m => hP.inner (hP.bind (bindLoop_semi hP.toFlat _ _ _ _) fun _ => expandNodes_semi hP.toCore h _)

theorem expandNode_semi (h : SemiRec P rec) (n : PNode) : P _ (expandNode rec n) := by
  have h1 := expandNodes_semi hP.toCore h
  have hv : ∀ a name, P _ (expandVariable rec a name) := by
    intro a name
    unfold expandVariable
    refine hP.lookupOr _ _ _ fun m => ?_
    semi_walk hP.toFlat [h1]
  have h := fun c => h c
  unfold expandNode
  semi_walk hP.toFlat [h1, hv, h]

end

end Seam
