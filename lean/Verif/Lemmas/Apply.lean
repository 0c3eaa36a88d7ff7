import Verif.Lemmas.Lists

/-! `%apply`, `%map`, `%filter`, `%lambda`. -/

namespace Seam
open Spec

/-! ## The call node -/

theorem bindLoop_site {c c' : PNode} (h : c.site = c'.site) : ∀ (ps : List PNode) (acc : BindAcc) (vs : List PNode),
    bindLoop c acc ps vs = bindLoop c' acc ps vs
  | [], acc, vs => by simp only [bindLoop]
  | p :: ps, acc, vs => by
    have ih := fun acc vs => bindLoop_site h ps acc vs
    cases p with
    | attr k d s w => simp only [bindLoop, ih]
    | _ => simp only [bindLoop, ih, h]

/-- Two call nodes with the same text position, spaces and closing parenthesis. -/
structure SameCall (rec : Rec) (c c' : PNode) : Prop where
  calls : ∀ name args, rec (.invoke name c args) = rec (.invoke name c' args)

theorem mapLoop_call {rec : Rec} {c c' : PNode} (h : SameCall rec c c') (f : Str) : ∀ ns, mapLoop rec c f ns = mapLoop rec c' f ns
  | [] => rfl
  | n :: ns => by simp only [mapLoop, h.calls, mapLoop_call h f ns]

theorem filterLoop_call {rec : Rec} {c c' : PNode} (h : SameCall rec c c') (f : Str) :
    ∀ ns, filterLoop rec c f ns = filterLoop rec c' f ns
  | [] => rfl
  | n :: ns => by simp only [filterLoop, h.calls, filterLoop_call h f ns]

theorem sortKeys_call {rec : Rec} {c c' : PNode} (h : SameCall rec c c') (f : Str) (site : Site) :
    ∀ ns, sortKeys rec c f site ns = sortKeys rec c' f site ns
  | [] => rfl
  | n :: ns => by simp only [sortKeys, h.calls, sortKeys_call h f site ns]

theorem runBuiltin_call {ext : Ext} {rec : Rec} {ns ns' : List PNode} {s : Site} {e : Token} {w : Str}
    (h : SameCall rec (.list ns s e w) (.list ns' s e w)) (b : Builtin) (args : List PNode) :
    runBuiltin ext rec b (.list ns s e w) args = runBuiltin ext rec b (.list ns' s e w) args := by
  cases b with
  | sort =>
    show sortMacro ext rec _ args = sortMacro ext rec _ args
    unfold sortMacro
    simp only [sortKeys_call h]
    rfl
  | map =>
    show mapMacro rec _ args = mapMacro rec _ args
    unfold mapMacro
    simp only [mapLoop_call h]
    rfl
  | filter =>
    show filterMacro rec _ args = filterMacro rec _ args
    unfold filterMacro
    simp only [filterLoop_call h]
    rfl
  | apply =>
    show applyMacro rec _ args = applyMacro rec _ args
    unfold applyMacro
    simp only [h.calls]
    rfl
  | _ => rfl

theorem invoke_call {ext : Ext} {ns ns' : List PNode} {s : Site} {e : Token} {w : Str} : ∀ (f : Nat),
    SameCall (run ext f) (.list ns s e w) (.list ns' s e w)
  | 0 => ⟨fun _ _ => rfl⟩
  | f + 1 => ⟨fun name args => by
    show expandInvocation ext (run ext f) name _ args = expandInvocation ext (run ext f) name _ args
    unfold expandInvocation
    cases builtin? name with
    | some b => exact runBuiltin_call (invoke_call f) b args
    | none =>
      show userMacro _ _ _ _ = userMacro _ _ _ _
      unfold userMacro bindList
      simp only [bindLoop_site (c := .list ns s e w) (c' := .list ns' s e w) rfl]
      rfl⟩

theorem invokes_call {ext : Ext} {ns ns' : List PNode} {si : Site} {e : Token} {w : Str} {name : Str} {args : List PNode}
    {s t : St} {r : Res (List PNode)} :
    Invokes ext name (.list ns si e w) args s r t ↔ Invokes ext name (.list ns' si e w) args s r t := by
  unfold Invokes
  simp only [(invoke_call (ext := ext) _).calls (c := .list ns si e w) (c' := .list ns' si e w)]

/-! ## The macros -/

theorem apply_mem : (str! "apply", schemaEntries [.symbol []] [], some (.any [])) ∈ eagerMacros := by
  simp [eagerMacros, schemaEntries]
theorem map_mem : (str! "map", schemaEntries [.symbol []] [], some (.any [])) ∈ eagerMacros := by
  simp [eagerMacros, schemaEntries]
theorem filter_mem : (str! "filter", schemaEntries [.symbol []] [], some (.any [])) ∈ eagerMacros := by
  simp [eagerMacros, schemaEntries]

/-- The macros that take a function. -/
theorem function_runs {ext : Ext} {name : Str} {args vs back : List PNode} {c : PNode} {f : Node} {b : Builtin}
    (hc : IsCall name args c) (hb : builtin? name = some b)
    (hm : (name, schemaEntries [.symbol []] [], some (.any [])) ∈ eagerMacros)
    (G : Str → List PNode → Rec → M (List PNode)) (hG : ∀ f ns, Mon (G f ns))
    (h : ∀ rec, runBuiltin ext rec b c args =
      expandNodes rec args >>= fun vs => arguments (rulesOf (schemaEntries [.symbol []] [])) (some (.any [])) c vs >>= fun p =>
        M.lift (p.posNode c 1) >>= fun f => G f.value p.trailing rec)
    {s u : St} (ha : Evals ext args s (.ok vs) u) (hp : positional vs = .symbol f :: back) {r : Res (List PNode)} {t : St} :
    Evals ext [c] s r t ↔ Runs ext (G f.value (dropPositional 1 vs)) u r t := by
  obtain ⟨p, hp', h⟩ := eager_extract hc hb hm (H := fun vs p rec => M.lift (p.posNode c 1) >>= fun f => G f.value p.trailing rec) h
    (fun _ _ => Mon.bind (Mon.const _) fun _ => hG _ _)
    ha (front := [.symbol f]) (back := back) hp (.cons _ _ _ _ (hasType_symbol_iff.2 ⟨f, rfl, Or.inl rfl⟩) .nil)
    (fun v hv => ⟨_, rfl, hasType_any _⟩)
    (fun k v s w hm => ⟨fun t ht => by simp at ht, fun _ => ⟨_, rfl, hasType_any _⟩⟩)
  rw [h]
  have h1 : p.posNode c 1 = .ok f := extracted_node hp' (i := 0) (by simp) (by rw [hp]; rfl) (.symbol f) c
  have h2 : p.trailing = dropPositional 1 vs := hp'.all rfl
  rw [h1, h2]
  exact runs_congr fun rec => rfl

theorem function_rejects {ext : Ext} {name : Str} {args vs : List PNode} {c : PNode} (hc : IsCall name args c)
    (hm : (name, schemaEntries [.symbol []] [], some (.any [])) ∈ eagerMacros)
    {s u : St} (ha : Evals ext args s (.ok vs) u) (hn : ¬ ∃ f back, positional vs = .symbol f :: back) :
    ∃ e, Evals ext [c] s (.err e) u := by
  refine eager_rejects hm hc ha fun hacc => hn ?_
  obtain ⟨front, back, h1, h2, h3, h4⟩ := (accepts_schema (eager_wellDeclared _ hm)).1 hacc
  cases h2 with
  | cons _ p _ _ h5 h6 =>
    cases h6
    obtain ⟨a, rfl, _⟩ := hasType_symbol_iff.1 h5
    exact ⟨a, back, h1⟩

theorem evals_apply {ext : Ext} {args vs back : List PNode} {c : PNode} {f : Node} (hc : IsCall (str! "apply") args c)
    {s u : St} (ha : Evals ext args s (.ok vs) u) (hp : positional vs = .symbol f :: back) {r : Res (List PNode)} {t : St} :
    Evals ext [c] s r t ↔ Invokes ext f.value c (dropPositional 1 vs) u r t := by
  rw [function_runs hc (b := .apply) rfl apply_mem (fun f ns rec => rec (.invoke f c ns)) (fun f ns => Mon.call _) (fun _ => rfl) ha hp]
  exact runs_invoke

/-- A loop that calls a macro on each node and combines the results. -/
theorem calls_loop {ext : Ext} {f : Str} {c : PNode} (L : Rec → List PNode → M (List PNode))
    (g : List PNode → List PNode → List PNode) (agg : List (List PNode) → List PNode)
    (hnil : ∀ rec, L rec [] = pure []) (hcons : ∀ rec n ns, L rec (n :: ns) = rec (.invoke f c [n]) >>= fun as =>
      L rec ns >>= fun rs => pure (g as rs)) (hmon : ∀ ns, Mon fun rec => L rec ns)
    (anil : agg [] = []) (acons : ∀ a as, agg (a :: as) = g a (agg as)) :
    ∀ {ns : List PNode} {s t : St} {r : Res (List PNode)},
    Runs ext (fun rec => L rec ns) s r t ↔ ∃ r', Calls ext f c ns s r' t ∧ r = mapRes agg r'
  | [], s, t, r => by
    have : (fun rec => L rec []) = fun _ : Rec => (pure [] : M (List PNode)) := funext hnil
    rw [this, runs_pure]
    constructor
    · rintro ⟨rfl, rfl⟩; exact ⟨_, .nil _, by rw [mapRes, anil]⟩
    · rintro ⟨r', h, rfl⟩; cases h; exact ⟨by rw [mapRes, anil], rfl⟩
  | n :: ns, s, t, r => by
    have ih := fun {s t : St} {r : Res (List PNode)} => calls_loop (ext := ext) (f := f) (c := c) L g agg hnil hcons hmon anil acons
      (ns := ns) (s := s) (t := t) (r := r)
    have heq : (fun rec => L rec (n :: ns)) = fun rec : Rec => rec (.invoke f c [n]) >>= fun as =>
      L rec ns >>= fun rs => pure (g as rs) := funext fun rec => hcons rec n ns
    rw [heq, runs_bind (Mon.call _) (fun as => Mon.bind (hmon ns) fun _ => Mon.const _)]
    constructor
    · rintro ⟨q, u, h1, h2⟩
      rw [runs_invoke] at h1
      cases q with
      | ok as =>
        rw [then_ok, runs_bind (hmon ns) (fun _ => Mon.const _)] at h2
        obtain ⟨q, v, h2, h3⟩ := h2
        obtain ⟨r', h4, h5⟩ := ih.1 h2
        subst h5
        cases r' with
        | ok rs =>
          obtain ⟨rfl, rfl⟩ := (runs_pure (ext := ext)).1 h3
          exact ⟨_, .cons _ _ _ _ _ _ _ h1 h4, by rw [mapRes, acons]⟩
        | err er => obtain ⟨rfl, rfl⟩ := h3; exact ⟨_, .later _ _ _ _ _ _ _ h1 h4 (by simp), rfl⟩
        | panic => obtain ⟨rfl, rfl⟩ := h3; exact ⟨_, .later _ _ _ _ _ _ _ h1 h4 (by simp), rfl⟩
        | diverge => exact h3.elim
      | err er => obtain ⟨rfl, rfl⟩ := h2; exact ⟨_, .err _ _ _ _ _ h1, rfl⟩
      | panic => obtain ⟨rfl, rfl⟩ := h2; exact ⟨_, .panic _ _ _ _ h1, rfl⟩
      | diverge => exact h2.elim
    · rintro ⟨r', h, rfl⟩
      cases h with
      | cons _ _ as rest _ u _ h1 h2 =>
        refine ⟨.ok as, u, runs_invoke.2 h1, ?_⟩
        rw [then_ok, runs_bind (hmon ns) (fun _ => Mon.const _)]
        refine ⟨.ok (agg rest), t, ih.2 ⟨_, h2, rfl⟩, ?_⟩
        rw [then_ok, runs_pure, mapRes, acons]
        exact ⟨rfl, rfl⟩
      | later _ _ as r _ u _ h1 h2 h3 =>
        refine ⟨.ok as, u, runs_invoke.2 h1, ?_⟩
        rw [then_ok, runs_bind (hmon ns) (fun _ => Mon.const _)]
        refine ⟨_, t, ih.2 ⟨_, h2, rfl⟩, ?_⟩
        cases r' with
        | ok x => exact absurd rfl (h3 x)
        | err => exact ⟨rfl, rfl⟩
        | panic => exact ⟨rfl, rfl⟩
        | diverge => exact ((ih.2 ⟨_, h2, rfl⟩).1 rfl).elim
      | err _ _ e _ _ h1 => exact ⟨.err e, t, runs_invoke.2 h1, rfl, rfl⟩
      | panic _ _ _ _ h1 => exact ⟨.panic, t, runs_invoke.2 h1, rfl, rfl⟩


theorem evals_map {ext : Ext} {args vs back : List PNode} {c : PNode} {f : Node} (hc : IsCall (str! "map") args c)
    {s u : St} (ha : Evals ext args s (.ok vs) u) (hp : positional vs = .symbol f :: back) {r : Res (List PNode)} {t : St} :
    Evals ext [c] s r t ↔ ∃ r', Calls ext f.value c (dropPositional 1 vs) u r' t ∧ r = mapRes List.flatten r' := by
  rw [function_runs hc (b := .map) rfl map_mem (fun f ns rec => mapLoop rec c f ns) (fun f ns _ _ h => mapLoop_le h c f ns)
    (fun _ => rfl) ha hp]
  exact calls_loop (fun rec ns => mapLoop rec c f.value ns) (fun a b => a ++ b) List.flatten (fun _ => rfl) (fun _ _ _ => rfl)
    (fun ns _ _ h => mapLoop_le h c f.value ns) rfl (fun _ _ => List.flatten_cons)

theorem isNull_eq (ns : List PNode) : isNull ns = emptyList ns := by
  cases ns with
  | nil => rfl
  | cons n ns =>
    cases ns with
    | nil =>
      cases n with
      | list ms s e w => cases ms <;> rfl
      | _ => rfl
    | cons m ms =>
      cases n with
      | list ks s e w => cases ks <;> rfl
      | _ => rfl

theorem evals_filter {ext : Ext} {args vs back : List PNode} {c : PNode} {f : Node} (hc : IsCall (str! "filter") args c)
    {s u : St} (ha : Evals ext args s (.ok vs) u) (hp : positional vs = .symbol f :: back) {r : Res (List PNode)} {t : St} :
    Evals ext [c] s r t ↔ ∃ r', Calls ext f.value c (dropPositional 1 vs) u r' t ∧
      r = mapRes (fun rs => (rs.filter fun x => !emptyList x).flatten) r' := by
  rw [function_runs hc (b := .filter) rfl filter_mem (fun f ns rec => filterLoop rec c f ns) (fun f ns _ _ h => filterLoop_le h c f ns)
    (fun _ => rfl) ha hp]
  refine calls_loop (fun rec ns => filterLoop rec c f.value ns) (fun a b => if isNull a then b else a ++ b)
    (fun rs => (rs.filter fun x => !emptyList x).flatten) (fun _ => rfl) (fun _ _ _ => rfl)
    (fun ns _ _ h => filterLoop_le h c f.value ns) rfl (fun a as => ?_)
  rw [isNull_eq]
  cases h : emptyList a <;> simp [h]

/-! ## Values for each element -/

theorem calls_length {ext : Ext} {f : Str} {c : PNode} {ns : List PNode} {s t : St} {r : Res (List (List PNode))}
    (h : Calls ext f c ns s r t) : ∀ rs, r = .ok rs → rs.length = ns.length := by
  induction h with
  | nil => rintro _ ⟨⟩; rfl
  | cons _ _ _ _ _ _ _ _ _ ih => rintro _ ⟨⟩; simp [ih _ rfl]
  | later _ _ _ r _ _ _ _ _ h => intro rs hr; exact absurd hr (h rs)
  | err => rintro _ ⟨⟩
  | panic => rintro _ ⟨⟩

/-! ## `%lambda` -/

theorem lambda_runs {ext : Ext} {args back : List PNode} {c head : PNode} (hc : IsCall (str! "lambda") args c)
    (hp : positional args = head :: back) {s t : St} {r : Res (List PNode)} :
    Evals ext [c] s r t ↔ r ≠ .diverge ∧ ((match head with
      | .list ns _ _ _ => pure ns
      | .symbol a => pure [PNode.symbol a]
      | n => M.fail "Expected argument(s) as symbol or list of arguments." n.site : M (List PNode)) >>= fun ps =>
        createMacro (str! "__lambda" ++ ext.uuid c.site) ps (dropPositional 1 args) >>= fun _ =>
        (pure [.symbol ⟨str! "__lambda" ++ ext.uuid c.site, c.site, c.lw⟩] : M (List PNode))) s = (r, t) := by
  have hw : WellDeclared (schemaEntries [.any []] []) := wellDeclared_of (by decide +kernel)
  have hacc : Accepts (schemaEntries [.any []] []) (some (.any [])) args :=
    (accepts_schema hw).2 ⟨[head], back, hp, .cons _ _ _ _ (hasType_any _) .nil, fun v _ => ⟨_, rfl, hasType_any _⟩,
      fun k v s w _ => ⟨fun t ht => by simp at ht, fun _ => ⟨_, rfl, hasType_any _⟩⟩⟩
  rw [evals_builtin_iff hc (b := .lambda) rfl]
  show Runs ext (fun _ => lambdaMacro ext c args) s r t ↔ _
  rw [runs_const]
  unfold lambdaMacro
  rcases arguments_cases hw (some (.any [])) c args with ⟨p, h1, h2, _⟩ | ⟨e, _, h2⟩
  · have hx := parsed_extracted h2
    have h3 : p.pos c 1 = .ok head := hx.pos 0 head c (by simp) (by rw [hp]; rfl)
    have h4 : p.trailing = dropPositional 1 args := hx.all rfl
    have h5 : arguments [mandatory 1 (.any [])] (some (.any [])) c args = pure p := h1
    rw [h5]
    have : ∀ (k : ArgParser → M (List PNode)), (pure p >>= k) = k p := fun k => rfl
    rw [this, h3, h4]
    cases head <;> exact Iff.rfl
  · exact absurd hacc h2

/-! ## Defining macros -/

theorem restParams_length : ∀ ps : List PNode, (restParams ps).length = (restNames ps).length
  | [] => rfl
  | p :: ps => by
    have ih := restParams_length ps
    unfold restParams restNames at ih ⊢
    rw [List.filter_cons, List.filterMap_cons, isKwRest_eq]
    cases hk : kwRestName? p with
    | some r =>
      obtain ⟨_, _, _, h⟩ := kwRestName?_some hk
      simp [h, ih]
    | none =>
      rw [isRest_eq p hk]
      cases restName? p <;> simp [ih]

theorem kwRestParams_length : ∀ ps : List PNode, (kwRestParams ps).length = (kwRestNames ps).length
  | [] => rfl
  | p :: ps => by
    have ih := kwRestParams_length ps
    unfold kwRestParams kwRestNames at ih ⊢
    rw [List.filter_cons, List.filterMap_cons, isKwRest_eq]
    cases kwRestName? p <;> simp [ih]

theorem createMacro_ok {ps : List PNode} (h1 : (restNames ps).length ≤ 1) (h2 : (kwRestNames ps).length ≤ 1)
    (name : Str) (body : List PNode) (s : St) :
    createMacro name ps body s = (.ok (), { s with scope := s.scope.insert name { params := ps, body := body } }) := by
  rw [← restParams_length] at h1
  rw [← kwRestParams_length] at h2
  unfold createMacro
  rcases hr : restParams ps with _ | ⟨a, _ | ⟨b, l⟩⟩ <;> rcases hk : kwRestParams ps with _ | ⟨a', _ | ⟨b', l'⟩⟩ <;>
    simp only [hr, hk, List.length_cons] at h1 h2 <;> first | rfl | omega

theorem createMacro_err {ps : List PNode} (h : ¬ ((restNames ps).length ≤ 1 ∧ (kwRestNames ps).length ≤ 1))
    (name : Str) (body : List PNode) (s : St) : ∃ e, createMacro name ps body s = (.err e, s) := by
  rw [← restParams_length, ← kwRestParams_length] at h
  unfold createMacro
  rcases hr : restParams ps with _ | ⟨a, _ | ⟨b, l⟩⟩ <;> rcases hk : kwRestParams ps with _ | ⟨a', _ | ⟨b', l'⟩⟩ <;>
    simp only [hr, hk, List.length_cons, List.length_nil] at h <;> first | exact ⟨_, rfl⟩ | omega

theorem evals_define_function {ext : Ext} {c : PNode} {f : Node} {ps body : List PNode} {si : Site} {e : Token} {w : Str}
    (hc : IsCall (str! "define") (.list (.symbol f :: ps) si e w :: body) c) {s t : St} {r : Res (List PNode)} :
    Evals ext [c] s r t ↔ r ≠ .diverge ∧ (createMacro f.value ps body >>= fun _ => (pure [] : M (List PNode))) s = (r, t) := by
  rw [evals_builtin_iff hc (b := .define) rfl]
  show Runs ext (fun _ => createMacro f.value ps body >>= fun _ => (pure [] : M (List PNode))) s r t ↔ _
  rw [runs_const]

theorem dropPositional_symbol (a : Node) (vs : List PNode) : dropPositional 1 (.symbol a :: vs) = vs := by
  cases vs <;> simp [dropPositional]

/-! ## Calls of user macros by name -/

theorem invokes_user_ok {ext : Ext} {name : Str} {args vs : List PNode} {c : PNode}
    (hb : builtin? name = none) {s u v : St} {m : Macro} (ha : Evals ext args s (.ok vs) u)
    (hm : u.scope name = some m) (hbd : bindList c m.params vs u = (.ok (), v)) {r : Res (List PNode)} {t : St} :
    Invokes ext name c args s r t ↔ ∃ t', Evals ext m.body v r t' ∧ t = { t' with scope := u.scope } := by
  constructor
  · intro h
    obtain ⟨g, hg⟩ := ha.ev
    obtain ⟨k, hk⟩ := h.ev
    have h1 := hk (max g k + 1) (by omega)
    have h2 := hg (max g k) (by omega)
    simp only [run, step, expandInvocation, hb] at h1
    rw [userMacro_eq _ _ _ _ _ _ _ _ h2 hm, M.inner_def, M.bind_ok hbd] at h1
    obtain ⟨h3, h4⟩ := Prod.mk.inj h1
    exact ⟨_, ⟨h.1, max g k, Prod.ext h3 rfl⟩, h4.symm⟩
  · rintro ⟨t', h, rfl⟩
    rw [invokes_user hb]
    obtain ⟨g, hg⟩ := ha.ev
    obtain ⟨k, hk⟩ := h.ev
    refine ⟨h.1, max g k, ?_⟩
    show userMacro _ _ _ _ _ = _
    rw [userMacro_eq _ _ _ _ _ _ _ _ (hg (max g k) (by omega)) hm, M.inner_def, M.bind_ok hbd, hk (max g k) (by omega)]

theorem invokes_user_err {ext : Ext} {name : Str} {args vs : List PNode} {c : PNode}
    (hb : builtin? name = none) {s u v : St} {m : Macro} {e : Err} (ha : Evals ext args s (.ok vs) u)
    (hm : u.scope name = some m) (hbd : bindList c m.params vs u = (.err e, v)) :
    Invokes ext name c args s (.err e) { v with scope := u.scope } := by
  rw [invokes_user hb]
  obtain ⟨g, hg⟩ := ha.ev
  refine ⟨by simp, g, ?_⟩
  show userMacro _ _ _ _ _ = _
  rw [userMacro_eq _ _ _ _ _ _ _ _ (hg g (Nat.le_refl _)) hm, M.inner_def, M.bind_err hbd]

theorem builtin?_lambda (x : Str) : builtin? (str! "__lambda" ++ x) = none := by
  unfold builtin? amGet
  rfl

/-- The parameters that the first argument of `%lambda` declares. -/
theorem lambda_ok {ext : Ext} {args back ps : List PNode} {c head : PNode} (hc : IsCall (str! "lambda") args c)
    (hp : positional args = head :: back) (hh : LambdaParams head ps)
    (h1 : (restNames ps).length ≤ 1) (h2 : (kwRestNames ps).length ≤ 1) (s : St) :
    Evals ext [c] s (.ok [.symbol ⟨str! "__lambda" ++ ext.uuid c.site, c.site, c.lw⟩])
      { s with scope := s.scope.insert (str! "__lambda" ++ ext.uuid c.site) { params := ps, body := dropPositional 1 args } } := by
  refine (lambda_runs hc hp).2 ⟨by simp, ?_⟩
  cases hh with
  | one a => exact M.bind_ok (createMacro_ok h1 h2 _ _ s)
  | list ns si e w => exact M.bind_ok (createMacro_ok h1 h2 _ _ s)

theorem lambda_err {ext : Ext} {args back : List PNode} {c head : PNode} (hc : IsCall (str! "lambda") args c)
    (hp : positional args = head :: back)
    (h : ¬ ∃ ps, LambdaParams head ps ∧ (restNames ps).length ≤ 1 ∧ (kwRestNames ps).length ≤ 1) (s : St) :
    ∃ e, Evals ext [c] s (.err e) s := by
  have key : ∀ ps, LambdaParams head ps → ∃ e, (createMacro (str! "__lambda" ++ ext.uuid c.site) ps (dropPositional 1 args) >>= fun _ =>
        (pure [.symbol ⟨str! "__lambda" ++ ext.uuid c.site, c.site, c.lw⟩] : M (List PNode))) s = (.err e, s) := by
    intro ps hps
    obtain ⟨e, he⟩ := createMacro_err (fun hh => h ⟨ps, hps, hh⟩) (str! "__lambda" ++ ext.uuid c.site) (dropPositional 1 args) s
    exact ⟨e, M.bind_err he⟩
  cases head with
  | symbol a =>
    obtain ⟨e, he⟩ := key _ (.one a)
    exact ⟨e, (lambda_runs hc hp).2 ⟨by simp, he⟩⟩
  | list ns si e w =>
    obtain ⟨e, he⟩ := key _ (.list ns si e w)
    exact ⟨e, (lambda_runs hc hp).2 ⟨by simp, he⟩⟩
  | _ => exact ⟨_, (lambda_runs hc hp).2 ⟨by simp, rfl⟩⟩

theorem lambda_none {ext : Ext} {args : List PNode} {c : PNode} (hc : IsCall (str! "lambda") args c)
    (hp : positional args = []) (s : St) : ∃ e, Evals ext [c] s (.err e) s := by
  have hw : WellDeclared (schemaEntries [.any []] []) := wellDeclared_of (by decide +kernel)
  have hacc : ¬ Accepts (schemaEntries [.any []] []) (some (.any [])) args := by
    intro h
    obtain ⟨front, back, h1, h2, _⟩ := (accepts_schema hw).1 h
    rw [hp] at h1
    cases h2
    cases h1
  rcases arguments_cases hw (some (.any [])) c args with ⟨p, _, _, h⟩ | ⟨e, h1, _⟩
  · exact absurd h hacc
  · refine ⟨e, (evals_builtin_iff hc (b := .lambda) rfl).2 ?_⟩
    show Runs ext (fun _ => lambdaMacro ext c args) s _ _
    rw [runs_const]
    unfold lambdaMacro
    have h5 : arguments [mandatory 1 (.any [])] (some (.any [])) c args = M.lift (.err e) := h1
    rw [h5]
    exact ⟨by simp, rfl⟩

end Seam
