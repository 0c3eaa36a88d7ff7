import Verif.Lemmas.Exchange
import Verif.Lemmas.Control
import Verif.Lemmas.Apply
import Verif.Lemmas.Space

/-! Programs with exchanged parts do the same. -/

namespace Seam
open Spec

/-! ## A call is known by its place -/

section spot
variable (ext : Ext) {rec : Rec} (ns ms : List PNode) (si : Site) (e : Token) (w : Str)

/-- The calls that are made in the name of either list are the same. -/
def SpotRec (rec : Rec) (ns ms : List PNode) (si : Site) (e : Token) (w : Str) : Prop :=
  ∀ name ps, rec (.invoke name (.list ns si e w) ps) = rec (.invoke name (.list ms si e w) ps)

variable (h : SpotRec rec ns ms si e w)
include h

theorem mapLoop_spot (f : Str) : ∀ ps, mapLoop rec (.list ns si e w) f ps = mapLoop rec (.list ms si e w) f ps
  | [] => rfl
  | p :: ps => by rw [mapLoop, mapLoop, h, mapLoop_spot f ps]

theorem filterLoop_spot (f : Str) : ∀ ps, filterLoop rec (.list ns si e w) f ps = filterLoop rec (.list ms si e w) f ps
  | [] => rfl
  | p :: ps => by rw [filterLoop, filterLoop, h, filterLoop_spot f ps]

theorem sortKeys_spot (f : Str) (site : Site) : ∀ ps,
    sortKeys rec (.list ns si e w) f site ps = sortKeys rec (.list ms si e w) f site ps
  | [] => rfl
  | p :: ps => by rw [sortKeys, sortKeys, h, sortKeys_spot f site ps]

theorem runBuiltin_spot (b : Builtin) (ps : List PNode) :
    runBuiltin ext rec b (.list ns si e w) ps = runBuiltin ext rec b (.list ms si e w) ps := by
  cases b
  case map =>
    show mapMacro _ _ _ = mapMacro _ _ _
    unfold mapMacro
    simp only [mapLoop_spot ns ms si e w h]
    rfl
  case filter =>
    show filterMacro _ _ _ = filterMacro _ _ _
    unfold filterMacro
    simp only [filterLoop_spot ns ms si e w h]
    rfl
  case sort =>
    show sortMacro _ _ _ _ = sortMacro _ _ _ _
    unfold sortMacro
    simp only [sortKeys_spot ns ms si e w h]
    rfl
  case apply =>
    show applyMacro _ _ _ = applyMacro _ _ _
    unfold applyMacro
    have h' : ∀ name ps, rec (.invoke name (.list ns si e w) ps) = rec (.invoke name (.list ms si e w) ps) := h
    simp only [h']
    rfl
  all_goals rfl

omit h in
theorem userMacro_spot (name : Str) (ps : List PNode) :
    userMacro rec name (.list ns si e w) ps = userMacro rec name (.list ms si e w) ps := by
  have hb : ∀ (qs : List PNode) (acc : BindAcc) (vs : List PNode),
      bindLoop (.list ns si e w) acc qs vs = bindLoop (.list ms si e w) acc qs vs := by
    intro qs
    induction qs with
    | nil => intro acc vs; rw [bindLoop, bindLoop]
    | cons p qs ih =>
      intro acc vs
      cases p with
      | attr k d s l => rw [bindLoop, bindLoop]; exact ih _ _
      | _ => all_goals
        rw [bindLoop, bindLoop]
        · simp only [ih, PNode.site]
        all_goals (intro _ _ _ _ h; cases h)
  unfold userMacro bindList
  simp only [hb, PNode.site]

theorem expandInvocation_spot (name : Str) (ps : List PNode) :
    expandInvocation ext rec name (.list ns si e w) ps = expandInvocation ext rec name (.list ms si e w) ps := by
  unfold expandInvocation
  split
  · exact runBuiltin_spot ext ns ms si e w h _ ps
  · exact userMacro_spot ns ms si e w name ps

end spot

theorem run_spot (ext : Ext) (ns ms : List PNode) (si : Site) (e : Token) (w : Str) : ∀ f, SpotRec (run ext f) ns ms si e w
  | 0 => fun _ _ => rfl
  | f + 1 => fun name ps => expandInvocation_spot ext ns ms si e w (run_spot ext ns ms si e w f) name ps

/-! ## The arguments of calls -/

/-- The arguments of calls of the macro, some parts of which were exchanged. -/
inductive ArgsAlike (E : List PNode → List PNode → Prop) : Str → List PNode → List PNode → Prop
  | eager (name : Str) (as bs : List PNode) : Eager name → Exchanged E as bs → ArgsAlike E name as bs
  | value (x : Node) (as bs : List PNode) : Exchanged E as bs → ArgsAlike E (str! "define") (.symbol x :: as) (.symbol x :: bs)
  | function (f : Node) (ps as bs : List PNode) (si : Site) (e : Token) (w : Str) : Exchanged E as bs →
      ArgsAlike E (str! "define") (.list (.symbol f :: ps) si e w :: as) (.list (.symbol f :: ps) si e w :: bs)
  | lambda (head : PNode) (as bs : List PNode) : (∀ k v si w, head ≠ .attr k v si w) → Exchanged E as bs →
      ArgsAlike E (str! "lambda") (head :: as) (head :: bs)
  | ifdef (x a b : PNode) : Exchanged E [a] [b] → ArgsAlike E (str! "ifdef") [x, a] [x, b]
  | ifdefElse (x a b a' b' : PNode) : Exchanged E [a] [b] → Exchanged E [a'] [b'] →
      ArgsAlike E (str! "ifdef") [x, a, a'] [x, b, b']
  | loop (it : PNode) (k : Node) (xs ys as bs : List PNode) (si : Site) (e : Token) (w : Str) :
      (∀ k v si w, it ≠ .attr k v si w) → k.value = str! "in" → Exchanged E xs ys → Exchanged E as bs →
      ArgsAlike E (str! "for") (it :: .symbol k :: .list xs si e w :: as) (it :: .symbol k :: .list ys si e w :: bs)
  | choice (a b : PNode) (ps qs : List PNode) : a.site = b.site → Exchanged E [a] [b] → ClausePairs E ps qs →
      ArgsAlike E (str! "match") (a :: ps) (b :: qs)

theorem lambda_shape (ext : Ext) (c head : PNode) (as : List PNode) (hh : ∀ k v si w, head ≠ .attr k v si w) :
    lambdaMacro ext c (head :: as) = ((match head with
      | .list ns _ _ _ => pure ns
      | .symbol a => pure [PNode.symbol a]
      | n => M.fail "Expected argument(s) as symbol or list of arguments." n.site : M (List PNode)) >>= fun ps =>
        createMacro (str! "__lambda" ++ ext.uuid c.site) ps as >>= fun _ =>
        (pure [.symbol (callNode c (str! "__lambda" ++ ext.uuid c.site))] : M (List PNode))) := by
  have hp : positional (head :: as) = head :: positional as := by
    cases head <;> first | rfl | exact absurd rfl (hh _ _ _ _)
  have hd : dropPositional 1 (head :: as) = as := by
    cases head <;> first | exact absurd rfl (hh _ _ _ _) | (simp only [dropPositional])
  have hw : WellDeclared (schemaEntries [.any []] []) := wellDeclared_of (by decide +kernel)
  have hacc : Accepts (schemaEntries [.any []] []) (some (.any [])) (head :: as) :=
    (accepts_schema hw).2 ⟨[head], _, hp, .cons _ _ _ _ (hasType_any _) .nil, fun v _ => ⟨_, rfl, hasType_any _⟩,
      fun k v s w _ => ⟨fun t ht => by simp at ht, fun _ => ⟨_, rfl, hasType_any _⟩⟩⟩
  unfold lambdaMacro
  rcases arguments_cases hw (some (.any [])) c (head :: as) with ⟨p, h1, h2, _⟩ | ⟨e, _, h2⟩
  · have hx := parsed_extracted h2
    have h3 : p.pos c 1 = .ok head := hx.pos 0 head c (by simp) (by rw [hp]; rfl)
    have h4 : p.trailing = dropPositional 1 (head :: as) := hx.all rfl
    have h5 : arguments [mandatory 1 (.any [])] (some (.any [])) c (head :: as) = pure p := h1
    rw [h5]
    have : ∀ (k : ArgParser → M (List PNode)), (pure p >>= k) = k p := fun k => rfl
    rw [this, h3, h4, hd]
    cases head <;> rfl
  · exact absurd hacc h2

theorem for_shape (rec : Rec) (c it : PNode) (b : Node) (xs as : List PNode) (si : Site) (e : Token) (w : Str)
    (hi : ∀ k v si w, it ≠ .attr k v si w) (hb : b.value = str! "in") :
    forMacro rec c (it :: .symbol b :: .list xs si e w :: as) =
      (expandNodes rec xs >>= fun ys => M.inner (forLoop rec it as ys)) := by
  have hp : positional (it :: .symbol b :: .list xs si e w :: as) = it :: .symbol b :: .list xs si e w :: positional as := by
    cases it <;> first | rfl | exact absurd rfl (hi _ _ _ _)
  have hd : dropPositional 3 (it :: .symbol b :: .list xs si e w :: as) = as := by
    cases it <;> first | exact absurd rfl (hi _ _ _ _) | (simp only [dropPositional])
  obtain ⟨p, h1, h2, h3, h4, h5⟩ := for_parsed (call := c) hp hb
  funext s
  show (arguments forSchema (some (.any [])) c _ >>= fun p => _) s = _
  rw [M.bind_ok (show arguments forSchema (some (.any [])) c _ s = (.ok p, s) by rw [arguments, h1]; rfl),
    M.bind_ok (show M.lift (p.pos c 1) s = (.ok it, s) by rw [h2]; rfl),
    M.bind_ok (show M.lift (p.posNode c 2) s = (.ok b, s) by rw [h3]; rfl),
    M.bind_ok (show M.lift (p.posList c 3) s = (.ok xs, s) by rw [h4]; rfl), h5, hd]

section calls
variable {R : LogRel} {E : List PNode → List PNode → Prop} {recs : Nat → Rec} {rec : Rec} (ext : Ext)
  (h : KeptRec R E recs rec) (hB : KeptBodies R E recs rec)
include h hB

/-- Every macro with the same arguments. -/
theorem runBuiltin_kept (b : Builtin) (c : PNode) (ps : List PNode) :
    KeptM R E (fun l => runBuiltin ext (recs l) b c ps) (runBuiltin ext rec b c ps) := by
  have ha := expandNodes_kept h ps
  cases b
  case define => exact defineMacro_kept h c ps
  case match_ => exact match_kept h hB c ps
  case ifdef => exact ifdef_kept h c ps
  case do_ => exact ha
  case get => exact getMacro_kept h ha c
  case raw => exact rawMacro_kept h ha c
  case string => exact stringMacro_kept h ha c
  case number => exact numberMacro_kept h ha c
  case symbol => exact symbolMacro_kept h ha c
  case include_ => exact includeMacro_kept ext h ha c
  case embed => exact embedMacro_kept ext h ha c
  case namespace_ => exact namespaceMacro_kept ha c
  case markdown => exact markdownMacro_kept ext h ha c
  case yaml => exact yamlMacro_kept ext h ha c
  case toml => exact tomlMacro_kept ext h ha c
  case glob => exact globMacro_kept ext h ha c
  case for_ => exact forMacro_kept h c ps
  case sort => exact sortMacro_kept ext h ha c
  case reverse => exact reverseMacro_kept h ha c
  case date => exact dateMacro_kept ext h ha c
  case timestamp => exact timestampMacro_kept ext h ha c
  case join => exact joinMacro_kept h ha c
  case concat => exact concatMacro_kept h ha c
  case map => exact mapMacro_kept h ha c
  case filter => exact filterMacro_kept h ha c
  case splat => exact splatMacro_kept ha
  case list => exact listMacro_kept h ha c
  case strip => exact stripMacro_kept ha
  case apply => exact applyMacro_kept h ha c
  case lambda => exact lambdaMacro_kept ext c ps
  case log => exact logMacro_kept h ha c
  case format => exact formatMacro_kept ext h ha c
  case osEnv => exact osEnvMacro_kept ext h ha c

omit hB in
/-- A macro that expands its arguments. -/
theorem eager_kept {name : Str} (hn : name ∈ eager) {b : Builtin} (hb : builtin? name = some b) (c : PNode) {ps qs : List PNode}
    (ha : KeptM R E (fun l => expandNodes (recs l) qs) (expandNodes rec ps)) :
    KeptM R E (fun l => runBuiltin ext (recs l) b c qs) (runBuiltin ext rec b c ps) := by
  cases b
  case define => exact absurd hb (by revert name; decide +kernel)
  case match_ => exact absurd hb (by revert name; decide +kernel)
  case ifdef => exact absurd hb (by revert name; decide +kernel)
  case for_ => exact absurd hb (by revert name; decide +kernel)
  case lambda => exact absurd hb (by revert name; decide +kernel)
  case do_ => exact ha
  case get => exact getMacro_kept h ha c
  case raw => exact rawMacro_kept h ha c
  case string => exact stringMacro_kept h ha c
  case number => exact numberMacro_kept h ha c
  case symbol => exact symbolMacro_kept h ha c
  case include_ => exact includeMacro_kept ext h ha c
  case embed => exact embedMacro_kept ext h ha c
  case namespace_ => exact namespaceMacro_kept ha c
  case markdown => exact markdownMacro_kept ext h ha c
  case yaml => exact yamlMacro_kept ext h ha c
  case toml => exact tomlMacro_kept ext h ha c
  case glob => exact globMacro_kept ext h ha c
  case sort => exact sortMacro_kept ext h ha c
  case reverse => exact reverseMacro_kept h ha c
  case date => exact dateMacro_kept ext h ha c
  case timestamp => exact timestampMacro_kept ext h ha c
  case join => exact joinMacro_kept h ha c
  case concat => exact concatMacro_kept h ha c
  case map => exact mapMacro_kept h ha c
  case filter => exact filterMacro_kept h ha c
  case splat => exact splatMacro_kept ha
  case list => exact listMacro_kept h ha c
  case strip => exact stripMacro_kept ha
  case apply => exact applyMacro_kept h ha c
  case log => exact logMacro_kept h ha c
  case format => exact formatMacro_kept ext h ha c
  case osEnv => exact osEnvMacro_kept ext h ha c

omit h in
theorem kept_one {a b : PNode} (hx : Exchanged E [a] [b]) : KeptM R E (fun l => recs l (.node b)) (rec (.node a)) := by
  have := hB _ _ hx
  simp only [expandNodes_one] at this
  exact this

theorem invocation_kept {name : Str} {as bs : List PNode} (ha : ArgsAlike E name as bs) (c : PNode) :
    KeptM R E (fun l => expandInvocation ext (recs l) name c bs) (expandInvocation ext rec name c as) := by
  cases ha with
  | eager _ _ _ hn hx =>
    unfold expandInvocation
    have hx := hB _ _ hx
    rcases hn with hn | rfl | hn
    · rcases hb : builtin? name with _ | b
      · exact userMacro_kept hB hx name c
      · exact eager_kept ext h hn hb c hx
    · exact namespaceMacro_kept hx c
    · rw [hn]
      exact userMacro_kept hB hx name c
  | value x as bs hx => exact defineValue_kept c x (hB _ _ hx)
  | function f ps as bs si e w hx => exact defineFunction_kept (recs := recs) (rec := rec) c f ps si e w hx
  | lambda head as bs hh hx =>
    show KeptM R E (fun _ => lambdaMacro ext c (head :: bs)) (lambdaMacro ext c (head :: as))
    rw [lambda_shape ext c head as hh, lambda_shape ext c head bs hh]
    refine KeptM.bind (SameAlike.kept ?_) fun ps => KeptM.bind (create_kept _ ps hx) fun _ => SameAlike.kept (sameAlike_lift _)
    cases head <;> exact sameAlike_lift _
  | ifdef x a b hx => exact ifdefMacro_kept c x (kept_one hB hx)
  | ifdefElse x a b a' b' hx hx' => exact ifdefElse_kept c x (kept_one hB hx) (kept_one hB hx')
  | loop it k xs ys as bs si e w hi hk hx hx' =>
    show KeptM R E (fun l => forMacro (recs l) c _) (forMacro rec c _)
    simp only [for_shape _ c it k _ _ si e w hi hk]
    exact KeptM.bind (hB _ _ hx) fun vs => KeptM.inner (forLoop_kept it (hB _ _ hx') vs)
  | choice a b ps qs hs hx hc => exact matchMacro_kept h hB c hs (kept_one hB hx) hc

theorem expandNode_kept (n : PNode) : KeptM R E (fun l => expandNode (recs l) n) (expandNode rec n) := by
  have h1 := expandNodes_kept h
  have h2 := expandVariable_kept hB
  clear hB
  have h := fun c => h c
  unfold expandNode
  kept_walk

end calls

theorem KeptM.succ {R : LogRel} {E : List PNode → List PNode → Prop} {α : Type} {F : Nat → M α} {m : M α} (h : KeptM R E (fun l => F (l + 1)) m) :
    KeptM R E F m := by
  intro s t hst
  rcases h s t hst with h | ⟨t', h1, h2⟩
  · exact .inl h
  · exact .inr ⟨t', h1, h2.succ⟩

theorem node_call {rec : Rec} {name : Str} {args : List PNode} {c : PNode} (hc : IsCall name args c) :
    expandNode rec c = rec (.invoke name c args) := by
  obtain ⟨hd, t, si, e, w, h1, rfl⟩ := hc
  have hm : (PNode.symbol hd).symbol?.bind (fun a => macroName? a.value) = some name := by
    show macroName? hd.value = some name
    rw [h1]; rfl
  simp only [expandNode, hm]
  rw [dropFirstBlank_eq]

/-- Calls of macros whose arguments are alike, at the same place. -/
def KeptCalls (R : LogRel) (E : List PNode → List PNode → Prop) (recs : Nat → Rec) (rec : Rec) : Prop :=
  ∀ name as bs c d, ArgsAlike E name as bs → AtOneSpot c d →
    KeptM R E (fun l => recs l (.invoke name d bs)) (rec (.invoke name c as))

/-- What holds one level below. -/
def KeptBelow (R : LogRel) (ext : Ext) (left : Nat → Rec) (E : List PNode → List PNode → Prop) (g : Nat) : Prop :=
  ∀ f, g = f + 1 → KeptBodies R E (run ext) (left f) ∧ KeptCalls R E (run ext) (left f)

/-- Expanders that do what the expander does, or have no outcome. -/
structure CutOf (ext : Ext) (left : Nat → Rec) : Prop where
  zero : ∀ c s, (left 0 c s).1 = .diverge
  succ : ∀ f c s, (left (f + 1) c s).1 = .diverge ∨ left (f + 1) c s = step ext (left f) c s

theorem run_below (ext : Ext) : CutOf ext (run ext) := ⟨fun _ _ => rfl, fun _ _ _ => .inr rfl⟩

theorem KeptM.cut {R : LogRel} {E : List PNode → List PNode → Prop} {α : Type} {F : Nat → M α} {m m' : M α}
    (h : ∀ s, (m' s).1 = .diverge ∨ m' s = m s) (hm : KeptM R E F m) : KeptM R E F m' := by
  intro s t hst
  rcases h s with h | h
  · exact .inl (LogRel.idle h)
  · rw [h]; exact hm s t hst

/-- The parts that are exchanged do the same. -/
def KeptSwaps (R : LogRel) (ext : Ext) (left : Nat → Rec) (E : List PNode → List PNode → Prop) : Prop := ∀ g, KeptRec R E (run ext) (left g) →
  ∀ as bs, E as bs → KeptM R E (fun l => expandNodes (run ext l) bs) (expandNodes (left g) as)

/-- One node, from the level below. -/
theorem one_kept {ext : Ext} {left : Nat → Rec} {R : LogRel} {E : List PNode → List PNode → Prop} (hL : CutOf ext left) {g : Nat}
    (hK : KeptBelow R ext left E g) {a b : PNode}
    (h : ∀ f, KeptBodies R E (run ext) (left f) → KeptCalls R E (run ext) (left f) →
      KeptM R E (fun l => expandNode (run ext l) b) (expandNode (left f) a)) :
    KeptM R E (fun l => expandNodes (run ext l) [b]) (expandNodes (left g) [a]) := by
  simp only [expandNodes_one]
  cases g with
  | zero => exact fun s _ _ => .inl (LogRel.idle (hL.zero _ s))
  | succ f =>
    apply KeptM.succ
    exact KeptM.cut (hL.succ f _) (h f (hK f rfl).1 (hK f rfl).2)

theorem call_kept {ext : Ext} {left : Nat → Rec} {R : LogRel} {E : List PNode → List PNode → Prop} (hL : CutOf ext left) {g : Nat}
    (hK : KeptBelow R ext left E g) {name : Str}
    {as bs : List PNode} {c d : PNode} (hc : IsCall name as c) (hd : IsCall name bs d) (hs : AtOneSpot c d)
    (ha : ArgsAlike E name as bs) : KeptM R E (fun l => expandNodes (run ext l) [d]) (expandNodes (left g) [c]) := by
  refine one_kept hL hK fun f _ hC => ?_
  simp only [node_call hc, node_call hd]
  exact hC _ _ _ _ _ ha hs

theorem bodies_kept {ext : Ext} {left : Nat → Rec} {R : LogRel} {E : List PNode → List PNode → Prop} (hL : CutOf ext left)
    (hE : KeptSwaps R ext left E) {g : Nat}
    (hR : KeptRec R E (run ext) (left g)) (hK : KeptBelow R ext left E g) : ∀ {as bs : List PNode}, Exchanged E as bs →
    KeptM R E (fun l => expandNodes (run ext l) bs) (expandNodes (left g) as)
  | _, _, .same _ => expandNodes_kept hR _
  | _, _, .swap _ _ he => hE g hR _ _ he
  | _, _, .append ns ms ns' ms' hx hx' => by
    simp only [expandNodes_append]
    exact KeptM.bind (bodies_kept hL hE hR hK hx) fun _ => KeptM.bind (bodies_kept hL hE hR hK hx') fun _ =>
      SameAlike.kept (sameAlike_lift _)
  | _, _, .list ns ms si e w hn hm hx => by
    refine one_kept hL hK fun f hB _ => ?_
    rw [show expandNode (left f) (.list ns si e w) = (expandNodes (left f) ns >>= fun ms => pure [.list ms si e w]) from
      funext fun s => expandNode_list hn si e w s]
    rw [show (fun l => expandNode (run ext l) (.list ms si e w)) =
      fun l => (expandNodes (run ext l) ms >>= fun ms => pure [.list ms si e w]) from
      funext fun l => funext fun s => expandNode_list hm si e w s]
    exact KeptM.bind (hB _ _ hx) fun _ => SameAlike.kept (sameAlike_lift _)
  | _, _, .attr k n m si w hx => by
    refine one_kept hL hK fun f hB _ => ?_
    simp only [expandNode]
    refine KeptM.bind (kept_one hB hx) fun ns => ?_
    cases ns <;> exact SameAlike.kept (sameAlike_lift _)
  | _, _, .args name _ _ _ _ hn hc hd hs hx => call_kept hL hK hc hd hs (.eager name _ _ hn hx)
  | _, _, .value x _ _ _ _ hc hd hs hx => call_kept hL hK hc hd hs (.value x _ _ hx)
  | _, _, .function g ps _ _ si e w _ _ hc hd hs hx => call_kept hL hK hc hd hs (.function g ps _ _ si e w hx)
  | _, _, .lambda head _ _ _ _ hh hc hd hs hx => call_kept hL hK hc hd hs (.lambda head _ _ hh hx)
  | _, _, .ifdef x _ _ _ _ hc hd hs hx => call_kept hL hK hc hd hs (.ifdef x _ _ hx)
  | _, _, .ifdefElse x _ _ _ _ _ _ hc hd hs hx hx' => call_kept hL hK hc hd hs (.ifdefElse x _ _ _ _ hx hx')
  | _, _, .loop it k _ _ _ _ si e w _ _ hi hk hc hd hs hx hx' => call_kept hL hK hc hd hs (.loop it k _ _ _ _ si e w hi hk hx hx')
  | _, _, .choice _ _ _ _ _ _ hc hd hs hsi hx hcl => call_kept hL hK hc hd hs (.choice _ _ _ _ hsi hx hcl)

theorem run_kept {ext : Ext} {left : Nat → Rec} {R : LogRel} {E : List PNode → List PNode → Prop} (hL : CutOf ext left)
    (hE : KeptSwaps R ext left E) : ∀ f,
    KeptRec R E (run ext) (left f) ∧ KeptBodies R E (run ext) (left f) ∧ KeptCalls R E (run ext) (left f)
  | 0 => by
    have hR : KeptRec R E (run ext) (left 0) := fun c s _ _ => .inl (LogRel.idle (hL.zero c s))
    exact ⟨hR, fun as bs hx => bodies_kept hL hE hR (fun _ h => absurd h (by omega)) hx, fun _ _ _ _ _ _ _ s _ _ => .inl (LogRel.idle (hL.zero _ s))⟩
  | f + 1 => by
    obtain ⟨hR, hB, hC⟩ := run_kept hL hE f
    have hR' : KeptRec R E (run ext) (left (f + 1)) := by
      intro c
      apply KeptM.succ
      refine KeptM.cut (hL.succ f c) ?_
      cases c with
      | node n => exact expandNode_kept hR hB n
      | invoke name call ps =>
        show KeptM R E (fun l => expandInvocation ext (run ext l) name call ps) (expandInvocation ext (left f) name call ps)
        unfold expandInvocation
        split
        · exact runBuiltin_kept ext hR hB _ _ _
        · exact userMacro_kept hB (expandNodes_kept hR ps) name call
    refine ⟨hR', fun as bs hx => bodies_kept hL hE hR' (fun g hg => by cases hg; exact ⟨hB, hC⟩) hx, ?_⟩
    intro name as bs c d ha hs
    cases hs with
    | mk ns ms si e w =>
      simp only [fun l => run_spot ext ms ns si e w l name bs]
      apply KeptM.succ
      exact KeptM.cut (hL.succ f _) (invocation_kept ext hR hB ha _)

theorem equivalent_swaps {ext : Ext} {E : List PNode → List PNode → Prop} (hE : ∀ ns ms, E ns ms → Equivalent ext ns ms) :
    KeptSwaps .eq ext (run ext) E := by
  intro g hR as bs he s t hst
  rcases expandNodes_kept hR as s t hst with h | ⟨t', h1, h2⟩
  · exact .inl h
  · by_cases hd : (expandNodes (run ext g) as s).1 = .diverge
    · exact .inl (LogRel.idle hd)
    · exact .inr ⟨t', h1, ((hE _ _ he t _ t').1 (.of_ev hd h2)).ev⟩

/-- Programs with exchanged parts do the same. -/
theorem exchanged_evals {ext : Ext} {E : List PNode → List PNode → Prop} (hE : ∀ ns ms, E ns ms → Equivalent ext ns ms)
    {ns ms : List PNode} (h : Exchanged E ns ms) {s t s' : St} {r : Res (List PNode)} (hst : AlikeSt E s t)
    (hr : Evals ext ns s r s') : ∃ t', Evals ext ms t r t' ∧ AlikeSt E s' t' := by
  obtain ⟨hd, f, hf⟩ := hr
  rcases (run_kept (run_below ext) (equivalent_swaps hE) f).2.1 ns ms h s t (alikeLog_eq.2 hst) with h1 | ⟨t', h1, h2⟩
  · rw [hf] at h1; exact absurd (LogRel.of_idle rfl h1) hd
  · rw [hf] at h1 h2
    exact ⟨t', .of_ev hd h2, alikeLog_eq.1 h1⟩

theorem Spec.AtOneSpot.symm {c d : PNode} (h : AtOneSpot c d) : AtOneSpot d c := by
  cases h; exact .mk _ _ _ _ _

mutual
theorem exchanged_symm {E F : List PNode → List PNode → Prop} (hE : ∀ as bs, E as bs → F bs as) : ∀ {as bs : List PNode},
    Exchanged E as bs → Exchanged F bs as
  | _, _, .same _ => .same _
  | _, _, .swap _ _ he => .swap _ _ (hE _ _ he)
  | _, _, .append _ _ _ _ hx hx' => .append _ _ _ _ (exchanged_symm hE hx) (exchanged_symm hE hx')
  | _, _, .list _ _ si e w hn hm hx => .list _ _ si e w hm hn (exchanged_symm hE hx)
  | _, _, .attr k _ _ si w hx => .attr k _ _ si w (exchanged_symm hE hx)
  | _, _, .args name _ _ _ _ hn hc hd hs hx => .args name _ _ _ _ hn hd hc hs.symm (exchanged_symm hE hx)
  | _, _, .value x _ _ _ _ hc hd hs hx => .value x _ _ _ _ hd hc hs.symm (exchanged_symm hE hx)
  | _, _, .function g ps _ _ si e w _ _ hc hd hs hx => .function g ps _ _ si e w _ _ hd hc hs.symm (exchanged_symm hE hx)
  | _, _, .lambda head _ _ _ _ hh hc hd hs hx => .lambda head _ _ _ _ hh hd hc hs.symm (exchanged_symm hE hx)
  | _, _, .ifdef x _ _ _ _ hc hd hs hx => .ifdef x _ _ _ _ hd hc hs.symm (exchanged_symm hE hx)
  | _, _, .ifdefElse x _ _ _ _ _ _ hc hd hs hx hx' =>
    .ifdefElse x _ _ _ _ _ _ hd hc hs.symm (exchanged_symm hE hx) (exchanged_symm hE hx')
  | _, _, .loop it k _ _ _ _ si e w _ _ hi hk hc hd hs hx hx' =>
    .loop it k _ _ _ _ si e w _ _ hi hk hd hc hs.symm (exchanged_symm hE hx) (exchanged_symm hE hx')
  | _, _, .choice _ _ _ _ _ _ hc hd hs hsi hx hcl =>
    .choice _ _ _ _ _ _ hd hc hs.symm hsi.symm (exchanged_symm hE hx) (clauses_symm hE hcl)
theorem clauses_symm {E F : List PNode → List PNode → Prop} (hE : ∀ as bs, E as bs → F bs as) : ∀ {ps qs : List PNode},
    ClausePairs E ps qs → ClausePairs F qs ps
  | _, _, .nil => .nil
  | _, _, .same p _ _ hc => .same p _ _ (clauses_symm hE hc)
  | _, _, .clause _ _ _ _ si e w _ _ hs hp hx hc =>
    .clause _ _ _ _ si e w _ _ hs.symm (exchanged_symm hE hp) (exchanged_symm hE hx) (clauses_symm hE hc)
end

end Seam
