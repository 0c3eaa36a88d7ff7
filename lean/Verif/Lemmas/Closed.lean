import Verif.Lemmas.Eval

/-!
# Predicates that hold for every computation of the expander

`Closed P`: the predicate `P` holds for the elementary effects and is preserved by
all ways in which the expander combines computations.  Then it holds for every
computation of the expander (`run_closed`).
-/

namespace Seam
open Spec

/-- What `%match` does with one pattern. -/
def matchStep {α : Type} (b : M Unit) (body rest : M α) : M α := fun s =>
  match b s with
  | (.ok (), s') => M.inner (fun _ => body s') s
  | (.err _, s') => rest { s' with scope := s.scope }
  | (.panic, s') => (.panic, { s' with scope := s.scope })
  | (.diverge, s') => (.diverge, { s' with scope := s.scope })

/-- What `%namespace` does: run in a copy of the scope, then export. -/
def exporting (m : M (List PNode)) (f : List PNode → Res (Str × List PNode)) : M (List PNode) := fun s =>
  match m s with
  | (.ok args, s') =>
    match f args with
    | .ok (pre, rest) => (.ok rest, { s' with scope := exportScope pre s'.scope s.scope })
    | .err e => (.err e, { s' with scope := s.scope })
    | .panic => (.panic, { s' with scope := s.scope })
    | .diverge => (.diverge, { s' with scope := s.scope })
  | (.err e, s') => (.err e, { s' with scope := s.scope })
  | (.panic, s') => (.panic, { s' with scope := s.scope })
  | (.diverge, s') => (.diverge, { s' with scope := s.scope })

structure Closed (P : (α : Type) → M α → Prop) : Prop where
  pure : ∀ {α : Type} (a : α), P _ (pure a : M α)
  lift : ∀ {α : Type} (r : Res α), P _ (M.lift r)
  lookup : ∀ name, P _ (M.lookup name)
  define : ∀ name m, P _ (M.define name m)
  tick : P _ M.tick
  emit : ∀ l, P _ (M.emit l)
  bindEnd : ∀ acc vs, P _ (bindEnd acc vs)
  bind : ∀ {α β : Type} {m : M α} {f : α → M β}, P _ m → (∀ a, P _ (f a)) → P _ (m >>= f)
  inner : ∀ {α : Type} {m : M α}, P _ m → P _ (M.inner m)
  rethrow : ∀ {α : Type} {m : M α} msg site, P _ m → P _ (rethrow msg site m)
  ignoreErr : ∀ {m : M Unit}, P _ m → P _ (ignoreErr m)
  matchStep : ∀ {α : Type} {b : M Unit} {body rest : M α}, P _ b → P _ body → P _ rest → P _ (matchStep b body rest)
  exporting : ∀ {m : M (List PNode)} f, P _ m → P _ (exporting m f)

theorem namespaceMacro_eq (rec : Rec) (call : PNode) (ps : List PNode) : namespaceMacro rec call ps =
    exporting (expandNodes rec ps) fun args =>
      match args with
      | [] => .err (expErr "Expected a namespace name." call.site)
      | name :: opts =>
        match name.atomic? with
        | none => .err (expErr "Expected a namespace name." call.site)
        | some ns =>
          match namespaceOpts ['/'] opts with
          | .ok (sep, rest) => .ok (ns.value ++ sep, rest)
          | .err e => .err e
          | .panic => .panic
          | .diverge => .diverge := by
  funext s
  unfold namespaceMacro exporting
  rcases expandNodes rec ps s with ⟨r, t⟩
  cases r with
  | ok args =>
    cases args with
    | nil => rfl
    | cons name opts =>
      dsimp only
      cases name.atomic? with
      | none => rfl
      | some ns =>
        dsimp only
        rcases namespaceOpts ['/'] opts with ⟨_, _⟩ | _ | _ | _ <;> rfl
  | _ => rfl

section
variable {P : (α : Type) → M α → Prop} (hP : Closed P)
include hP

theorem Closed.fail {α : Type} (msg : String) (site : Site) : P _ (M.fail msg site : M α) := hP.lift _
theorem Closed.panic {α : Type} : P _ (M.panic : M α) := hP.lift _
theorem Closed.arguments (p : List ArgRule) (t : Option ArgType) (call : PNode) (ps : List PNode) :
    P _ (arguments p t call ps) := hP.lift _

end

/-- Walk through a do block. -/
macro "closed_walk" h:term:max "[" ts:term,* "]" : tactic => do
  let ts := ts.getElems
  `(tactic| repeat' (first
    | with_reducible exact Closed.pure $h _
    | with_reducible exact Closed.lift $h _
    | with_reducible exact Closed.fail $h _ _
    | with_reducible exact Closed.panic $h
    | with_reducible exact Closed.lookup $h _
    | with_reducible exact Closed.define $h _ _
    | with_reducible exact Closed.tick $h
    | with_reducible exact Closed.emit $h _
    | with_reducible exact Closed.arguments $h _ _ _ _
    $[| with_reducible apply $ts]*
    | (with_reducible refine Closed.inner $h ?_)
    | (with_reducible refine Closed.bind $h ?_ (fun _ => ?_))
    | dsimp only
    | split))

section
variable {P : (α : Type) → M α → Prop} (hP : Closed P)
include hP

mutual
theorem bind_closed : ∀ (p v : PNode), P _ (bind p v)
  | .attr k0 n0 _ _, v => by
    have hrec := bind_closed n0
    unfold bind
    closed_walk hP [hrec]
  | .list ns0 _ _ _, v => by
    have hrec := bindLoop_closed ns0
    unfold bind
    closed_walk hP [hrec]
  | .symbol a, v => by unfold bind; closed_walk hP []
  | .number a, v => by unfold bind; closed_walk hP []
  | .string a, v => by unfold bind; closed_walk hP []
  | .raw a, v => by unfold bind; closed_walk hP []
theorem bindLoop_closed : ∀ (ps : List PNode) (assigned : PNode) (acc : BindAcc) (vs : List PNode),
    P _ (bindLoop assigned acc ps vs)
  | [], assigned, acc, vs => by unfold bindLoop; exact hP.bindEnd _ _
  | p :: ps, assigned, acc, vs => by
    have h1 := bind_closed p
    have h2 := bindLoop_closed ps
    cases p <;> simp only [bindLoop] <;> closed_walk hP [h1, h2]
end

theorem yScalar_closed (site : Site) (sep v : Str) (k : YSink) : P _ (yScalar site sep v k) := by
  unfold yScalar
  closed_walk hP []

theorem yEnd_closed (site : Site) (sep : Str) (k : YSink) : P _ (yEnd site sep k) := by
  unfold yEnd
  closed_walk hP []

theorem yEvents_closed (site : Site) (sep : Str) : ∀ (es : List YEvent) (k : YSink), P _ (yEvents site sep k es)
  | [], k => hP.pure _
  | e :: es, k => by
    have h := yEvents_closed site sep es
    have h1 := yScalar_closed hP site sep
    have h2 := yEnd_closed hP site sep
    unfold yEvents yEvent
    closed_walk hP [h, h1, h2]

theorem expandYaml_closed (ext : Ext) (text sep : Str) (site : Site) : P _ (expandYaml ext text sep site) := by
  have h := yEvents_closed hP site sep
  unfold expandYaml
  closed_walk hP [h]

mutual
theorem tomlValue_closed (site : Site) (sep : Str) : ∀ (v : TVal) (pref : List Str) (b : Bool),
    P _ (tomlValue site sep pref b v)
  | .str _, _, _ => by unfold tomlValue; closed_walk hP []
  | .num _, _, _ => by unfold tomlValue; closed_walk hP []
  | .sym _, _, _ => by unfold tomlValue; closed_walk hP []
  | .arr vs, _, _ => by
    have h := tomlArray_closed site sep vs
    unfold tomlValue; closed_walk hP [h]
  | .tab kvs, _, _ => by
    have h := tomlTable_closed site sep kvs
    unfold tomlValue; closed_walk hP [h]
theorem tomlArray_closed (site : Site) (sep : Str) : ∀ (vs : List TVal) (pref : List Str) (b : Bool) (i : Nat),
    P _ (tomlArray site sep pref b i vs)
  | [], _, _, _ => by unfold tomlArray; closed_walk hP []
  | v :: vs, _, _, _ => by
    have h := tomlValue_closed site sep v
    have h' := tomlArray_closed site sep vs
    unfold tomlArray; closed_walk hP [h, h']
theorem tomlTable_closed (site : Site) (sep : Str) : ∀ (kvs : List (Str × TVal)) (pref : List Str) (b : Bool),
    P _ (tomlTable site sep pref b kvs)
  | [], _, _ => by unfold tomlTable; closed_walk hP []
  | (_, v) :: kvs, _, _ => by
    have h := tomlValue_closed site sep v
    have h' := tomlTable_closed site sep kvs
    unfold tomlTable; closed_walk hP [h, h']
end

theorem expandToml_closed (ext : Ext) (text sep : Str) (site : Site) : P _ (expandToml ext text sep site) := by
  have h := tomlTable_closed hP site sep
  unfold expandToml
  closed_walk hP [h]

theorem frontmatter_closed (ext : Ext) (text sep : Str) (call : PNode) (site : Site) :
    P _ (frontmatter ext text sep call site) := by
  have h := expandYaml_closed hP ext
  have h' := expandToml_closed hP ext
  unfold frontmatter
  closed_walk hP [h, h']

/-- The recursive calls satisfy the predicate. -/
def ClosedRec (P : (α : Type) → M α → Prop) (rec : Rec) : Prop := ∀ c, P _ (rec c)

variable {rec : Rec}

theorem expandNodes_closed (h : ClosedRec P rec) : ∀ ns, P _ (expandNodes rec ns)
  | [] => hP.pure _
  | _ :: ns => hP.bind (h _) fun _ => hP.bind (expandNodes_closed h ns) fun _ => hP.pure _

theorem matchLoop_closed (h : ClosedRec P rec) (expr : PNode) : ∀ ps, P _ (matchLoop rec expr ps)
  | [] => hP.pure _
  | p :: ps => by
    unfold matchLoop
    split
    · exact hP.fail _ _
    · refine hP.bind (h _) fun pats => ?_
      rcases pats with _ | ⟨pat', _ | ⟨_, _⟩⟩ <;> dsimp only
      · exact hP.fail _ _
      · exact hP.matchStep (bind_closed hP pat' expr) (expandNodes_closed hP h _) (matchLoop_closed h expr ps)
      · exact hP.fail _ _
    · exact hP.fail _ _

theorem createMacro_closed (name : Str) (ps body : List PNode) : P _ (createMacro name ps body) := by
  unfold createMacro
  closed_walk hP []

theorem forLoop_closed (h : ClosedRec P rec) (it : PNode) (body : List PNode) : ∀ ns, P _ (forLoop rec it body ns)
  | [] => hP.pure _
  | _ :: ns => hP.bind (bind_closed hP _ _) fun _ => hP.bind (expandNodes_closed hP h _) fun _ =>
      hP.bind (forLoop_closed h it body ns) fun _ => hP.pure _

theorem mapLoop_closed (h : ClosedRec P rec) (call : PNode) (f : Str) : ∀ ns, P _ (mapLoop rec call f ns)
  | [] => hP.pure _
  | _ :: ns => hP.bind (h _) fun _ => hP.bind (mapLoop_closed h call f ns) fun _ => hP.pure _

theorem filterLoop_closed (h : ClosedRec P rec) (call : PNode) (f : Str) : ∀ ns, P _ (filterLoop rec call f ns)
  | [] => hP.pure _
  | _ :: ns => hP.bind (h _) fun _ => hP.bind (filterLoop_closed h call f ns) fun _ => hP.pure _

theorem sortKeys_closed (h : ClosedRec P rec) (call : PNode) (f : Str) (site : Site) :
    ∀ ns, P _ (sortKeys rec call f site ns)
  | [] => hP.pure _
  | n :: ns => by
    have ih := sortKeys_closed h call f site ns
    unfold sortKeys
    refine hP.bind ?_ fun _ => ?_
    · exact hP.rethrow _ _ (h (.invoke f call [n]))
    · closed_walk hP [ih]

theorem namespaceMacro_closed (h : ClosedRec P rec) (call : PNode) (ps : List PNode) :
    P _ (namespaceMacro rec call ps) := by
  rw [namespaceMacro_eq]
  exact hP.exporting _ (expandNodes_closed hP h ps)

theorem defineMacro_closed (h : ClosedRec P rec) (call : PNode) (ps : List PNode) :
    P _ (defineMacro rec call ps) := by
  have h1 := expandNodes_closed hP h
  have h2 := createMacro_closed hP
  have h := fun c => h c
  unfold defineMacro
  closed_walk hP [h1, h2, h]

theorem ifdefMacro_closed (h : ClosedRec P rec) (call : PNode) (ps : List PNode) :
    P _ (ifdefMacro rec call ps) := by
  have h1 := expandNodes_closed hP h
  have h := fun c => h c
  unfold ifdefMacro
  closed_walk hP [h1, h]

theorem includeMacro_closed (ext : Ext) (h : ClosedRec P rec) (call : PNode) (ps : List PNode) :
    P _ (includeMacro ext rec call ps) := by
  have h1 := expandNodes_closed hP h
  have h := fun c => h c
  unfold includeMacro
  closed_walk hP [h1, h]

theorem embedMacro_closed (ext : Ext) (h : ClosedRec P rec) (call : PNode) (ps : List PNode) :
    P _ (embedMacro ext rec call ps) := by
  have h1 := expandNodes_closed hP h
  have h := fun c => h c
  unfold embedMacro
  closed_walk hP [h1, h]

theorem getMacro_closed (h : ClosedRec P rec) (call : PNode) (ps : List PNode) :
    P _ (getMacro rec call ps) := by
  have h1 := expandNodes_closed hP h
  have h := fun c => h c
  unfold getMacro
  closed_walk hP [h1, h]

theorem rawMacro_closed (h : ClosedRec P rec) (call : PNode) (ps : List PNode) :
    P _ (rawMacro rec call ps) := by
  have h1 := expandNodes_closed hP h
  have h := fun c => h c
  unfold rawMacro
  closed_walk hP [h1, h]

theorem stringMacro_closed (h : ClosedRec P rec) (call : PNode) (ps : List PNode) :
    P _ (stringMacro rec call ps) := by
  have h1 := expandNodes_closed hP h
  have h := fun c => h c
  unfold stringMacro
  closed_walk hP [h1, h]

theorem numberMacro_closed (h : ClosedRec P rec) (call : PNode) (ps : List PNode) :
    P _ (numberMacro rec call ps) := by
  have h1 := expandNodes_closed hP h
  have h := fun c => h c
  unfold numberMacro
  closed_walk hP [h1, h]

theorem symbolMacro_closed (h : ClosedRec P rec) (call : PNode) (ps : List PNode) :
    P _ (symbolMacro rec call ps) := by
  have h1 := expandNodes_closed hP h
  have h := fun c => h c
  unfold symbolMacro
  closed_walk hP [h1, h]

theorem markdownMacro_closed (ext : Ext) (h : ClosedRec P rec) (call : PNode) (ps : List PNode) :
    P _ (markdownMacro ext rec call ps) := by
  have h1 := expandNodes_closed hP h
  have h2 := frontmatter_closed hP ext
  have h3 := fun text sep site => hP.ignoreErr (frontmatter_closed hP ext text sep call site)
  have h := fun c => h c
  unfold markdownMacro
  closed_walk hP [h1, h2, h3, h]

theorem yamlMacro_closed (ext : Ext) (h : ClosedRec P rec) (call : PNode) (ps : List PNode) :
    P _ (yamlMacro ext rec call ps) := by
  have h1 := expandNodes_closed hP h
  have h2 := expandYaml_closed hP ext
  have h := fun c => h c
  unfold yamlMacro
  closed_walk hP [h1, h2, h]

theorem tomlMacro_closed (ext : Ext) (h : ClosedRec P rec) (call : PNode) (ps : List PNode) :
    P _ (tomlMacro ext rec call ps) := by
  have h1 := expandNodes_closed hP h
  have h2 := expandToml_closed hP ext
  have h := fun c => h c
  unfold tomlMacro
  closed_walk hP [h1, h2, h]

theorem globMacro_closed (ext : Ext) (h : ClosedRec P rec) (call : PNode) (ps : List PNode) :
    P _ (globMacro ext rec call ps) := by
  have h1 := expandNodes_closed hP h
  have h := fun c => h c
  unfold globMacro
  closed_walk hP [h1, h]

theorem sortMacro_closed (ext : Ext) (h : ClosedRec P rec) (call : PNode) (ps : List PNode) :
    P _ (sortMacro ext rec call ps) := by
  have h1 := expandNodes_closed hP h
  have h2 := sortKeys_closed hP h call
  have h := fun c => h c
  unfold sortMacro
  closed_walk hP [h1, h2, h]

theorem reverseMacro_closed (h : ClosedRec P rec) (call : PNode) (ps : List PNode) :
    P _ (reverseMacro rec call ps) := by
  have h1 := expandNodes_closed hP h
  have h := fun c => h c
  unfold reverseMacro
  closed_walk hP [h1, h]

theorem dateMacro_closed (ext : Ext) (h : ClosedRec P rec) (call : PNode) (ps : List PNode) :
    P _ (dateMacro ext rec call ps) := by
  have h1 := expandNodes_closed hP h
  have h := fun c => h c
  unfold dateMacro timezone
  closed_walk hP [h1, h]

theorem timestampMacro_closed (ext : Ext) (h : ClosedRec P rec) (call : PNode) (ps : List PNode) :
    P _ (timestampMacro ext rec call ps) := by
  have h1 := expandNodes_closed hP h
  have h := fun c => h c
  unfold timestampMacro timezone
  closed_walk hP [h1, h]

theorem joinMacro_closed (h : ClosedRec P rec) (call : PNode) (ps : List PNode) :
    P _ (joinMacro rec call ps) := by
  have h1 := expandNodes_closed hP h
  have h := fun c => h c
  unfold joinMacro
  closed_walk hP [h1, h]

theorem concatMacro_closed (h : ClosedRec P rec) (call : PNode) (ps : List PNode) :
    P _ (concatMacro rec call ps) := by
  have h1 := expandNodes_closed hP h
  have h := fun c => h c
  unfold concatMacro
  closed_walk hP [h1, h]

theorem mapMacro_closed (h : ClosedRec P rec) (call : PNode) (ps : List PNode) :
    P _ (mapMacro rec call ps) := by
  have h1 := expandNodes_closed hP h
  have h2 := mapLoop_closed hP h call
  have h := fun c => h c
  unfold mapMacro
  closed_walk hP [h1, h2, h]

theorem filterMacro_closed (h : ClosedRec P rec) (call : PNode) (ps : List PNode) :
    P _ (filterMacro rec call ps) := by
  have h1 := expandNodes_closed hP h
  have h2 := filterLoop_closed hP h call
  have h := fun c => h c
  unfold filterMacro
  closed_walk hP [h1, h2, h]

theorem listMacro_closed (h : ClosedRec P rec) (call : PNode) (ps : List PNode) :
    P _ (listMacro rec call ps) := by
  have h1 := expandNodes_closed hP h
  have h := fun c => h c
  unfold listMacro
  closed_walk hP [h1, h]

theorem applyMacro_closed (h : ClosedRec P rec) (call : PNode) (ps : List PNode) :
    P _ (applyMacro rec call ps) := by
  have h1 := expandNodes_closed hP h
  have h := fun c => h c
  unfold applyMacro
  closed_walk hP [h1, h]

theorem logMacro_closed (h : ClosedRec P rec) (call : PNode) (ps : List PNode) :
    P _ (logMacro rec call ps) := by
  have h1 := expandNodes_closed hP h
  have h := fun c => h c
  unfold logMacro
  closed_walk hP [h1, h]

theorem formatMacro_closed (ext : Ext) (h : ClosedRec P rec) (call : PNode) (ps : List PNode) :
    P _ (formatMacro ext rec call ps) := by
  have h1 := expandNodes_closed hP h
  have h := fun c => h c
  unfold formatMacro
  closed_walk hP [h1, h]

theorem osEnvMacro_closed (ext : Ext) (h : ClosedRec P rec) (call : PNode) (ps : List PNode) :
    P _ (osEnvMacro ext rec call ps) := by
  have h1 := expandNodes_closed hP h
  have h := fun c => h c
  unfold osEnvMacro
  closed_walk hP [h1, h]

theorem matchMacro_closed (h : ClosedRec P rec) (call : PNode) (ps : List PNode) :
    P _ (matchMacro rec call ps) := by
  have h1 := expandNodes_closed hP h
  have h2 := matchLoop_closed hP h
  have h := fun c => h c
  unfold matchMacro
  closed_walk hP [h1, h2, h]

theorem forMacro_closed (h : ClosedRec P rec) (call : PNode) (ps : List PNode) :
    P _ (forMacro rec call ps) := by
  have h1 := expandNodes_closed hP h
  have h2 := forLoop_closed hP h
  have h := fun c => h c
  unfold forMacro
  closed_walk hP [h1, h2, h]

theorem splatMacro_closed (h : ClosedRec P rec) (ps : List PNode) : P _ (splatMacro rec ps) :=
  hP.bind (expandNodes_closed hP h _) fun _ => hP.pure _

theorem stripMacro_closed (h : ClosedRec P rec) (ps : List PNode) : P _ (stripMacro rec ps) :=
  hP.bind (expandNodes_closed hP h _) fun _ => hP.pure _

theorem lambdaMacro_closed (ext : Ext) (call : PNode) (ps : List PNode) : P _ (lambdaMacro ext call ps) := by
  have h := createMacro_closed hP
  unfold lambdaMacro
  closed_walk hP [h]

theorem userMacro_closed (h : ClosedRec P rec) (name : Str) (call : PNode) (ps : List PNode) :
    P _ (userMacro rec name call ps) := by
  unfold userMacro bindList
  have h1 := expandNodes_closed hP h
  have h2 := bindLoop_closed hP
  closed_walk hP [h1, h2]

theorem runBuiltin_closed (ext : Ext) (h : ClosedRec P rec) (b : Builtin) (call : PNode) (ps : List PNode) :
    P _ (runBuiltin ext rec b call ps) := by
  cases b
  all_goals first
    | exact expandNodes_closed hP h _
    | exact lambdaMacro_closed hP _ _ _
    | exact defineMacro_closed hP h _ _
    | exact ifdefMacro_closed hP h _ _
    | exact includeMacro_closed hP _ h _ _
    | exact embedMacro_closed hP _ h _ _
    | exact getMacro_closed hP h _ _
    | exact rawMacro_closed hP h _ _
    | exact stringMacro_closed hP h _ _
    | exact numberMacro_closed hP h _ _
    | exact symbolMacro_closed hP h _ _
    | exact markdownMacro_closed hP _ h _ _
    | exact yamlMacro_closed hP _ h _ _
    | exact tomlMacro_closed hP _ h _ _
    | exact globMacro_closed hP _ h _ _
    | exact sortMacro_closed hP _ h _ _
    | exact reverseMacro_closed hP h _ _
    | exact dateMacro_closed hP _ h _ _
    | exact timestampMacro_closed hP _ h _ _
    | exact joinMacro_closed hP h _ _
    | exact concatMacro_closed hP h _ _
    | exact mapMacro_closed hP h _ _
    | exact filterMacro_closed hP h _ _
    | exact listMacro_closed hP h _ _
    | exact applyMacro_closed hP h _ _
    | exact logMacro_closed hP h _ _
    | exact formatMacro_closed hP _ h _ _
    | exact osEnvMacro_closed hP _ h _ _
    | exact matchMacro_closed hP h _ _
    | exact forMacro_closed hP h _ _
    | exact splatMacro_closed hP h _
    | exact stripMacro_closed hP h _
    | exact namespaceMacro_closed hP h _ _

theorem step_closed (ext : Ext) (h : ClosedRec P rec) : ClosedRec P (step ext rec) := by
  intro c
  cases c with
  | node n =>
    have h1 := expandNodes_closed hP h
    have h := fun c => h c
    show P _ (expandNode rec n)
    unfold expandNode expandVariable
    closed_walk hP [h1, h]
  | invoke name call ps =>
    show P _ (expandInvocation ext rec name call ps)
    unfold expandInvocation
    split
    · exact runBuiltin_closed hP _ h _ _ _
    · exact userMacro_closed hP h _ _ _

theorem run_closed (ext : Ext) : ∀ fuel, ClosedRec P (run ext fuel)
  | 0 => fun _ => hP.lift _
  | fuel + 1 => step_closed hP ext (run_closed ext fuel)

theorem expandNodes_run_closed (ext : Ext) (fuel : Nat) (ns : List PNode) : P _ (expandNodes (run ext fuel) ns) :=
  expandNodes_closed hP (run_closed hP ext fuel) ns

end

end Seam
