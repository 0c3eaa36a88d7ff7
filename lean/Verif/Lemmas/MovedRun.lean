import Verif.Lemmas.Moved

/-! # Every macro treats moved arguments alike -/

namespace Seam
open Spec
set_option linter.unusedSectionVars false

section
variable {S : Site → Site → Prop} {W : Str → Str → Prop} [Blanking W]

/-! ## Arguments -/

/-- A type without predicate functions: its check does not look at positions. -/
def blindPred : ArgPred → Bool
  | .satisfying _ => false
  | _ => true

mutual
/-- A type without predicate functions. -/
def blind : ArgType → Bool
  | .literal p | .string p | .symbol p | .number p | .symbolic p | .any p => p.all blindPred
  | .list ts => blinds ts
/-- The same for several types. -/
def blinds : List ArgType → Bool
  | [] => true
  | t :: ts => blind t && blinds ts
end

theorem predCheck_moved {p : ArgPred} (hp : blindPred p = true) {n m : PNode} (h : Laid S W n m) : p.check n = p.check m := by
  have ha := h.atomic
  cases p with
  | satisfying => cases hp
  | exactly v =>
    simp only [ArgPred.check]
    revert ha
    generalize n.atomic? = x
    generalize m.atomic? = y
    intro ha
    cases ha with
    | none => rfl
    | some h => simp only [h.value]
  | matching re =>
    simp only [ArgPred.check]
    revert ha
    generalize n.atomic? = x
    generalize m.atomic? = y
    intro ha
    cases ha with
    | none => rfl
    | some h => simp only [h.value]
theorem predAny_moved {n m : PNode} (h : Laid S W n m) : ∀ {ps : List ArgPred}, ps.all blindPred = true →
    ps.any (·.check n) = ps.any (·.check m)
  | [], _ => rfl
  | p :: ps, hp => by
    simp only [List.all_cons, Bool.and_eq_true] at hp
    simp only [List.any_cons, predCheck_moved hp.1 h, predAny_moved h hp.2]
theorem checkAll_same {ps : List ArgPred} (hp : ps.all blindPred = true) {n m : PNode} (h : Laid S W n m) :
    SameR S anyR (checkAll ps n) (checkAll ps m) := by
  unfold checkAll
  rw [predAny_moved h hp]
  split
  · trivial
  · split
    · trivial
    · exact .err h.site

mutual
theorem check_same : ∀ (n : PNode) {m : PNode} {t : ArgType}, blind t = true → Laid S W n m → SameR S anyR (t.check n) (t.check m)
  | .symbol a, _, t, ht, h => by
    cases h with | symbol a b h =>
    cases t <;> first
      | exact checkAll_same ht (.symbol _ _ h)
      | exact .err h.site
  | .number a, _, t, ht, h => by
    cases h with | number a b h =>
    cases t <;> first
      | exact checkAll_same ht (.number _ _ h)
      | exact .err h.site
  | .string a, _, t, ht, h => by
    cases h with | string a b h =>
    cases t <;> first
      | exact checkAll_same ht (.string _ _ h)
      | exact .err h.site
  | .raw a, _, t, ht, h => by
    cases h with | raw a b h =>
    cases t <;> first
      | exact checkAll_same ht (.raw _ _ h)
      | exact .err h.site
  | .attr k n s w, _, t, ht, h => by
    cases h with | attr k n m s s' w v hn hs hbl =>
    cases t <;> first
      | exact checkAll_same ht (.attr _ _ _ _ _ _ _ hn hs hbl)
      | exact .err hs
  | .list ns s e w, _, t, ht, h => by
    cases h with | list _ ms _ s' _ e' _ _ hn hs he hes hbl =>
    cases t with
    | any p => exact checkAll_same ht (.list _ _ _ _ _ _ _ _ hn hs he hes hbl)
    | list ts =>
      simp only [ArgType.check]
      rw [hn.length]
      split
      · exact .err hs
      · exact checkZip_same ns (by simpa only [blind] using ht) hn
    | _ => exact .err hs
theorem checkZip_same : ∀ (ns : List PNode) {ms : List PNode} {ts : List ArgType}, blinds ts = true → Laids S W ns ms →
    SameR S anyR (ArgType.checkZip ts ns) (ArgType.checkZip ts ms)
  | [], _, ts, ht, h => by cases h; cases ts <;> trivial
  | n :: ns, _, [], ht, h => by cases h; trivial
  | n :: ns, _, t :: ts, ht, h => by
    cases h with | cons _ m _ ms h1 h2 =>
    simp only [blinds, Bool.and_eq_true] at ht
    simp only [ArgType.checkZip]
    exact SameR.bind (check_same n ht.1 h1) fun _ _ _ => checkZip_same ns ht.2 h2
end

/-- A parsed argument list, moved. -/
structure LaidArgs (S : Site → Site → Prop) (W : Str → Str → Prop) (p q : ArgParser) : Prop where
  positional : LaidMap S W p.positional q.positional
  named : LaidMap S W p.named q.named
  trailing : Laids S W p.trailing q.trailing

/-- The state of the loop over the arguments, moved. -/
structure LaidLoop (S : Site → Site → Prop) (W : Str → Str → Prop) (p q : ArgLoop) : Prop where
  parser : LaidArgs S W p.parser q.parser
  position : p.position = q.position
  count : p.count = q.count

/-- Is a schema without predicate functions? -/
def blindRules (rules : ArgRules) : Bool :=
  rules.patterns.all (fun r => blind r.type) && (match rules.trailing with | some t => blind t | none => true)

theorem find_blind {rules : ArgRules} (hr : blindRules rules = true) {pos : ArgPos} {r : ArgRule}
    (h : rules.patterns.find? (fun r => r.pattern pos) = some r) : blind r.type = true := by
  simp only [blindRules, Bool.and_eq_true, List.all_eq_true] at hr
  exact hr.1 r (List.mem_of_find?_eq_some h)

theorem argFound_same {rules : ArgRules} (hr : blindRules rules = true) {st st' : ArgLoop} (hst : LaidLoop S W st st')
    {pos : ArgPos} {n m p q : PNode} {k : Nat} (h : Laid S W n m) (hp : Laid S W p q)
    {f f' : ArgParser} (hf : LaidArgs S W f f') :
    SameR S (LaidLoop S W)
      (match rules.patterns.find? (fun r => r.pattern pos) with
        | some rule => do
          let _ ← rule.type.check n
          .ok { parser := f, position := k, count := if rule.mandatory then st.count + 1 else st.count }
        | none =>
          match rules.trailing with
          | some t => do
            let _ ← t.check p
            .ok { st with position := k, parser := { st.parser with trailing := st.parser.trailing ++ [p] } }
          | none => .err (expErr "Unexpected argument." p.site))
      (match rules.patterns.find? (fun r => r.pattern pos) with
        | some rule => do
          let _ ← rule.type.check m
          .ok { parser := f', position := k, count := if rule.mandatory then st'.count + 1 else st'.count }
        | none =>
          match rules.trailing with
          | some t => do
            let _ ← t.check q
            .ok { st' with position := k, parser := { st'.parser with trailing := st'.parser.trailing ++ [q] } }
          | none => .err (expErr "Unexpected argument." q.site)) := by
  cases hfd : rules.patterns.find? (fun r => r.pattern pos) with
  | some rule =>
    refine SameR.bind (check_same n (find_blind hr hfd) h) fun _ _ _ => ⟨hf, rfl, ?_⟩
    dsimp only
    rw [hst.count]
  | none =>
    cases ht : rules.trailing with
    | none => exact .err hp.site
    | some t =>
      have hb : blind t = true := by
        simp only [blindRules, ht, Bool.and_eq_true] at hr
        exact hr.2
      exact SameR.bind (check_same p hb hp) fun _ _ _ =>
        ⟨⟨hst.parser.positional, hst.parser.named, hst.parser.trailing.append (.one hp)⟩, rfl, hst.count⟩

theorem argStep_same {rules : ArgRules} (hr : blindRules rules = true) {st st' : ArgLoop} (hst : LaidLoop S W st st')
    {p q : PNode} (h : Laid S W p q) : SameR S (LaidLoop S W) (argStep rules st p) (argStep rules st' q) := by
  have pos : ∀ {p q : PNode}, Laid S W p q → SameR S (LaidLoop S W)
      (match rules.patterns.find? (fun r => r.pattern (.int (st.position + 1))) with
        | some rule => do
          let _ ← rule.type.check p
          .ok { parser := { st.parser with positional := amInsert (st.position + 1) p st.parser.positional },
                position := st.position + 1, count := if rule.mandatory then st.count + 1 else st.count }
        | none =>
          match rules.trailing with
          | some t => do
            let _ ← t.check p
            .ok { st with position := st.position + 1, parser := { st.parser with trailing := st.parser.trailing ++ [p] } }
          | none => .err (expErr "Unexpected argument." p.site))
      (match rules.patterns.find? (fun r => r.pattern (.int (st'.position + 1))) with
        | some rule => do
          let _ ← rule.type.check q
          .ok { parser := { st'.parser with positional := amInsert (st'.position + 1) q st'.parser.positional },
                position := st'.position + 1, count := if rule.mandatory then st'.count + 1 else st'.count }
        | none =>
          match rules.trailing with
          | some t => do
            let _ ← t.check q
            .ok { st' with position := st'.position + 1, parser := { st'.parser with trailing := st'.parser.trailing ++ [q] } }
          | none => .err (expErr "Unexpected argument." q.site)) := by
    intro p q h
    rw [← hst.position]
    exact argFound_same hr hst h h ⟨hst.parser.positional.insert h, hst.parser.named, hst.parser.trailing⟩
  cases h with
  | symbol a b h => exact pos (.symbol a b h)
  | number a b h => exact pos (.number a b h)
  | string a b h => exact pos (.string a b h)
  | raw a b h => exact pos (.raw a b h)
  | list ns ms s t e f w v h1 h2 h3 h4 hbl => exact pos (.list ns ms s t e f w v h1 h2 h3 h4 hbl)
  | attr k n m s t w v h1 h2 hbl =>
    unfold argStep
    dsimp only
    rw [← hst.position]
    exact argFound_same hr hst h1 (.attr k n m s t w v h1 h2 hbl)
      ⟨hst.parser.positional, hst.parser.named.insert h1, hst.parser.trailing⟩
theorem argLoop_same {rules : ArgRules} (hr : blindRules rules = true) : ∀ {ns ms : List PNode} {st st' : ArgLoop}, LaidLoop S W st st' →
    Laids S W ns ms → SameR S (LaidLoop S W) (argLoop rules st ns) (argLoop rules st' ms)
  | [], _, st, st', hst, h => by cases h; exact hst
  | n :: ns, _, st, st', hst, h => by
    cases h with | cons _ m _ ms h1 h2 =>
    simp only [argLoop]
    exact SameR.bind (argStep_same hr hst h1) fun _ _ hst => argLoop_same hr hst h2
theorem newArgs_same {rules : ArgRules} (hr : blindRules rules = true) {call call' : PNode} (hc : Laid S W call call')
    {ns ms : List PNode} (h : Laids S W ns ms) : SameR S (LaidArgs S W) (ArgParser.new rules call ns) (ArgParser.new rules call' ms) := by
  unfold ArgParser.new
  refine SameR.bind (argLoop_same hr ⟨⟨.nil, .nil, .nil⟩, rfl, rfl⟩ h) fun st st' hst => ?_
  rw [hst.count]
  split
  · have hl := h.last
    revert hl
    generalize ns.getLast? = x
    generalize ms.getLast? = y
    intro hl
    cases hl with
    | none => exact .err hc.site
    | some h => exact .err h.site
  · exact hst.parser
theorem arguments_sim {patterns : List ArgRule} {tr : Option ArgType} (hr : blindRules ⟨patterns, tr⟩ = true) {call call' : PNode}
    (hc : Laid S W call call') {ns ms : List PNode} (h : Laids S W ns ms) :
    Sim S W (LaidArgs S W) (arguments patterns tr call ns) (arguments patterns tr call' ms) :=
  .lift (newArgs_same hr hc h)

theorem toNode_same {n m : PNode} (h : Laid S W n m) : SameR S (LaidAtom S W) (toNode n) (toNode m) := by
  have ha := h.atomic
  unfold toNode
  revert ha
  generalize n.atomic? = x
  generalize m.atomic? = y
  intro ha
  cases ha with
  | none => trivial
  | some h => exact h
theorem toNodes_same {n m : PNode} (h : Laid S W n m) : SameR S (Laids S W) (toNodes n) (toNodes m) := by
  have ha := h.list?
  unfold toNodes
  revert ha
  generalize n.list? = x
  generalize m.list? = y
  intro ha
  cases ha with
  | none => trivial
  | some h => exact h
section
variable {p q : ArgParser} {call call' : PNode}
theorem pos_same (h : LaidArgs S W p q) (hc : Laid S W call call') (i : Nat) : SameR S (Laid S W) (p.pos call i) (q.pos call' i) := by
  have hg : OptR (Laid S W) (amGet i p.positional) (amGet i q.positional) := h.positional.get
  unfold ArgParser.pos
  revert hg
  generalize amGet i p.positional = x
  generalize amGet i q.positional = y
  intro hg
  cases hg with
  | none => exact .err hc.site
  | some h => exact h
theorem posNode_same (h : LaidArgs S W p q) (hc : Laid S W call call') (i : Nat) : SameR S (LaidAtom S W) (p.posNode call i) (q.posNode call' i) :=
  SameR.bind (pos_same h hc i) fun _ _ h => toNode_same h
theorem posList_same (h : LaidArgs S W p q) (hc : Laid S W call call') (i : Nat) : SameR S (Laids S W) (p.posList call i) (q.posList call' i) :=
  SameR.bind (pos_same h hc i) fun _ _ h => toNodes_same h
theorem optNode_same {x y : Option PNode} (h : OptR (Laid S W) x y) : SameR S (OptR (LaidAtom S W)) (optNode x) (optNode y) := by
  cases h with
  | none => exact OptR.none
  | some h => exact SameR.bind (toNode_same h) fun _ _ h => OptR.some h
theorem posOpt_same (h : LaidArgs S W p q) (i : Nat) : SameR S (OptR (LaidAtom S W)) (p.posOpt i) (q.posOpt i) := optNode_same h.positional.get
theorem opt_same (h : LaidArgs S W p q) (k : Str) : SameR S (OptR (LaidAtom S W)) (p.opt k) (q.opt k) := optNode_same h.named.get
theorem toNodeList_same : ∀ {ns ms : List PNode}, Laids S W ns ms → SameR S (Pairs (LaidAtom S W)) (toNodeList ns) (toNodeList ms)
  | [], _, h => by cases h; exact Pairs.nil
  | n :: ns, _, h => by
    cases h with | cons _ m _ ms h1 h2 =>
    simp only [toNodeList]
    exact SameR.bind (toNode_same h1) fun _ _ h => SameR.bind (toNodeList_same h2) fun _ _ hs => Pairs.cons h hs
theorem restNodes_same (h : LaidArgs S W p q) : SameR S (Pairs (LaidAtom S W)) p.restNodes q.restNodes := toNodeList_same h.trailing
end

theorem OptR.values {x y : Option Node} (h : OptR (LaidAtom S W) x y) : x.map (·.value) = y.map (·.value) := by
  cases h with
  | none => rfl
  | some h => simp [h.value]
theorem sepOf_moved {x y : Option Node} (h : OptR (LaidAtom S W) x y) : sepOf x = sepOf y := by
  cases h with
  | none => rfl
  | some h => simp [sepOf, h.value]
theorem isAscending_moved {x y : Option Node} (h : OptR (LaidAtom S W) x y) : isAscending x = isAscending y := by
  cases h with
  | none => rfl
  | some h => simp [isAscending, h.value]
theorem pairs_values : ∀ {x y : List Node}, Pairs (LaidAtom S W) x y → x.map (·.value) = y.map (·.value)
  | _, _, .nil => rfl
  | _ :: _, _ :: _, .cons h hs => by simp [h.value, pairs_values hs]
theorem pairs_nodes {f : Node → PNode} (hf : ∀ a b, LaidAtom S W a b → Laid S W (f a) (f b)) : ∀ {x y : List Node}, Pairs (LaidAtom S W) x y →
    Laids S W (x.map f) (y.map f)
  | _, _, .nil => .nil
  | _ :: _, _ :: _, .cons h hs => .cons _ _ _ _ (hf _ _ h) (pairs_nodes hf hs)
theorem callNode_moved {call call' : PNode} (hc : Laid S W call call') (v : Str) : LaidAtom S W (callNode call v) (callNode call' v) :=
  ⟨rfl, hc.lw, hc.site⟩

/-! ## Data -/

/-- The YAML sink, moved. -/
structure LaidSink (S : Site → Site → Prop) (W : Str → Str → Prop) (k l : YSink) : Prop where
  defining : k.defining = l.defining
  nodes : Laids S W k.nodes l.nodes
  parent : Pairs (Laids S W) k.parent l.parent
  pref : k.pref = l.pref
  mode : k.mode = l.mode
  modes : k.modes = l.modes

theorem yScalar_sim {s t : Site} (hs : S s t) {sep v : Str} {k l : YSink} (h : LaidSink S W k l) :
    Sim S W (LaidSink S W) (yScalar s sep v k) (yScalar t sep v l) := by
  unfold yScalar
  rw [← h.defining, ← h.mode, ← h.pref, ← h.nodes.isEmpty, ← h.nodes.length]
  have string : ∀ w, W w w → Laid S W (.string { value := v, site := s, lw := w }) (.string { value := v, site := t, lw := w }) :=
    fun w hw => .string _ _ ⟨rfl, hw, hs⟩
  cases k.defining with
  | some name =>
    refine Sim.bind (R := anyR) (Sim.var (.one (string _ (Blanking.space))) trivial) fun _ _ _ => ?_
    cases hm : k.mode with
    | none => exact .panic
    | some m =>
      have hm' := h.mode
      rw [hm] at hm'
      cases m with
      | map => exact .pure ⟨rfl, h.nodes.append (.one (.attr _ _ _ _ _ _ _ (string _ Blanking.space) hs (Blanking.item _))), h.parent, rfl, rfl, h.modes⟩
      | seq => exact .pure ⟨rfl, h.nodes.append (.one (string _ (Blanking.item _))), h.parent, rfl, rfl, h.modes⟩
  | none =>
    cases hm : k.mode with
    | none => exact .pure ⟨rfl, h.nodes.append (.one (string _ (Blanking.item _))), h.parent, rfl, rfl, h.modes⟩
    | some m =>
      cases m with
      | map => exact .pure ⟨rfl, h.nodes, h.parent, rfl, rfl, h.modes⟩
      | seq => exact .panic
theorem yStart_moved {m : YMode} {k l : YSink} (h : LaidSink S W k l) : LaidSink S W (yStart m k) (yStart m l) := by
  unfold yStart
  refine ⟨rfl, .nil, .cons h.nodes h.parent, ?_, rfl, ?_⟩
  · dsimp only; rw [h.defining, h.pref]
  · dsimp only; rw [h.mode, h.modes]
theorem yEnd_sim {s t : Site} (hs : S s t) {sep : Str} {k l : YSink} (h : LaidSink S W k l) :
    Sim S W (LaidSink S W) (yEnd s sep k) (yEnd t sep l) := by
  have houter : Laids S W (k.parent.head?.getD []) (l.parent.head?.getD []) := by
    have hp := h.parent
    revert hp
    generalize k.parent = x
    generalize l.parent = y
    intro hp
    cases hp with
    | nil => exact .nil
    | cons h _ => exact h
  have htail : Pairs (Laids S W) k.parent.tail l.parent.tail := by
    have hp := h.parent
    revert hp
    generalize k.parent = x
    generalize l.parent = y
    intro hp
    cases hp with
    | nil => exact .nil
    | cons _ h => exact h
  have list : ∀ w, W w w → Laid S W (.list k.nodes s (dreadedRparen s) w) (.list l.nodes t (dreadedRparen t) w) :=
    fun w hw => .list _ _ _ _ _ _ _ _ h.nodes hs Blanking.nil hs hw
  unfold yEnd
  dsimp only
  rw [← h.modes, ← h.pref, ← houter.isEmpty, ← houter.length]
  rcases hp : k.pref.head? with _ | name
  · simp only
    rcases hm : k.modes.head? with _ | m
    · exact .pure ⟨rfl, houter.append (.one (list _ (Blanking.item _))), htail, rfl, rfl, rfl⟩
    · cases m with
      | map => exact Sim.bind (R := Laid S W) .panic fun a b hab =>
          .pure ⟨rfl, houter.append (.one hab), htail, rfl, rfl, rfl⟩
      | seq => exact .pure ⟨rfl, houter.append (.one (list _ (Blanking.item _))), htail, rfl, rfl, rfl⟩
  · simp only
    refine Sim.bind (R := anyR) (Sim.var (.one (list _ (Blanking.item _))) trivial) fun _ _ _ => ?_
    rcases hm : k.modes.head? with _ | m
    · exact .pure ⟨rfl, houter.append (.one (list _ (Blanking.item _))), htail, rfl, rfl, rfl⟩
    · cases m with
      | map => exact .pure ⟨rfl, houter.append (.one (.attr _ _ _ _ _ _ _ (list _ Blanking.space) hs (Blanking.item _))), htail, rfl, rfl, rfl⟩
      | seq => exact .pure ⟨rfl, houter.append (.one (list _ (Blanking.item _))), htail, rfl, rfl, rfl⟩
theorem yEvents_sim {s t : Site} (hs : S s t) {sep : Str} : ∀ {es : List YEvent} {k l : YSink}, LaidSink S W k l →
    Sim S W (LaidSink S W) (yEvents s sep k es) (yEvents t sep l es)
  | [], k, l, h => .pure h
  | e :: es, k, l, h => by
    simp only [yEvents]
    refine Sim.bind (R := LaidSink S W) ?_ fun _ _ h => yEvents_sim hs h
    cases e with
    | scalar v => exact yScalar_sim hs h
    | mapStart => exact .pure (yStart_moved h)
    | seqStart => exact .pure (yStart_moved h)
    | mapEnd => exact yEnd_sim hs h
    | seqEnd => exact yEnd_sim hs h
    | other => exact .pure h
theorem expandYaml_sim {ext : Ext} {text sep : Str} {s t : Site} (hs : S s t) :
    Sim S W (Laids S W) (expandYaml ext text sep s) (expandYaml ext text sep t) := by
  unfold expandYaml
  rcases ext.yaml text with ⟨events, ok⟩
  refine Sim.bind (yEvents_sim hs ⟨rfl, .nil, .nil, rfl, rfl, rfl⟩) fun k l h => ?_
  cases ok with
  | true => exact .pure h.nodes
  | false => exact .fail hs

mutual
theorem tomlValue_sim {s t : Site} (hs : S s t) {sep : Str} : ∀ (v : TVal) {pref : List Str} {b : Bool},
    Sim S W (Laid S W) (tomlValue s sep pref b v) (tomlValue t sep pref b v)
  | .str _, _, _ => .pure (.string _ _ ⟨rfl, Blanking.item _, hs⟩)
  | .num _, _, _ => .pure (.number _ _ ⟨rfl, Blanking.item _, hs⟩)
  | .sym _, _, _ => .pure (.symbol _ _ ⟨rfl, Blanking.item _, hs⟩)
  | .arr vs, _, _ => by
    simp only [tomlValue]
    exact Sim.bind (tomlArray_sim hs vs) fun _ _ h => .pure (.list _ _ _ _ _ _ _ _ h hs Blanking.nil hs (Blanking.item _))
  | .tab kvs, _, _ => by
    simp only [tomlValue]
    exact Sim.bind (tomlTable_sim hs kvs) fun _ _ h => .pure (.list _ _ _ _ _ _ _ _ h hs Blanking.nil hs (Blanking.item _))
theorem tomlArray_sim {s t : Site} (hs : S s t) {sep : Str} : ∀ (vs : List TVal) {pref : List Str} {b : Bool} {i : Nat},
    Sim S W (Laids S W) (tomlArray s sep pref b i vs) (tomlArray t sep pref b i vs)
  | [], _, _, _ => .pure .nil
  | v :: vs, _, _, _ => by
    simp only [tomlArray]
    exact Sim.bind (tomlValue_sim hs v) fun _ _ h => Sim.bind (R := anyR) (Sim.var (.one h) trivial) fun _ _ _ =>
      Sim.bind (tomlArray_sim hs vs) fun _ _ hs => .pure (.cons _ _ _ _ h hs)
theorem tomlTable_sim {s t : Site} (hs : S s t) {sep : Str} : ∀ (kvs : List (Str × TVal)) {pref : List Str} {b : Bool},
    Sim S W (Laids S W) (tomlTable s sep pref b kvs) (tomlTable t sep pref b kvs)
  | [], _, _ => .pure .nil
  | (k, v) :: kvs, _, _ => by
    simp only [tomlTable]
    exact Sim.bind (tomlValue_sim hs v) fun _ _ h => Sim.bind (R := anyR) (Sim.var (.one h) trivial) fun _ _ _ =>
      Sim.bind (tomlTable_sim hs kvs) fun _ _ h2 => .pure (.cons _ _ _ _ (.attr _ _ _ _ _ _ _ h hs (Blanking.item _)) h2)
end
theorem expandToml_sim {ext : Ext} {text sep : Str} {s t : Site} (hs : S s t) :
    Sim S W (Laids S W) (expandToml ext text sep s) (expandToml ext text sep t) := by
  unfold expandToml
  cases ext.toml text with
  | none => exact .fail hs
  | some table => exact Sim.bind (tomlTable_sim hs table) fun _ _ h => .pure (.one (.list _ _ _ _ _ _ _ _ h hs Blanking.nil hs Blanking.nil))

end
end Seam
