import Verif.Lemmas.Fixed
import Verif.Lemmas.Include
import Verif.Lemmas.Glob
import Verif.Lemmas.EvalCheck

/-! Programs without recursion finish. -/

set_option linter.unusedVariables false

namespace Seam
open Spec

/-! ## The order of ranks -/

theorem Spec.Callable.up {rank : Str → Nat} {k k' : Nat} {name : Str} (h : Callable rank k name) (hk : k ≤ k') : Callable rank k' name := by
  rcases h with ⟨h1, h2⟩ | h
  · exact Or.inl ⟨h1, by omega⟩
  · exact Or.inr h

mutual
theorem tame_up {ext : Ext} {rank : Str → Nat} {k k' : Nat} {n : PNode} (hk : k ≤ k') : Tame ext rank k n → Tame ext rank k' n
  | .number _ a => .number _ a
  | .string _ a => .string _ a
  | .raw _ a => .raw _ a
  | .word _ a h => .word _ a h
  | .variable _ a name h1 h2 => .variable _ a name h1 (by omega)
  | .attr _ key n s w h => .attr _ key n s w (tame_up hk h)
  | .list _ ns s e w h1 h2 => .list _ ns s e w h1 (tames_up hk h2)
  | .call _ c name args h1 h2 h3 => .call _ c name args h1 (h2.up hk) (tames_up hk h3)
  | .define _ c x v h1 h2 => .define _ c x v h1 (tames_up hk h2)
  | .function _ c f ps b s e w h1 h2 h3 => .function _ c f ps b s e w h1 h2 h3
  | .ifdef _ c x b h1 h2 => .ifdef _ c x b h1 (tames_up hk h2)
  | .for_ _ c it kw args xs rest s e w h1 h2 h3 h4 h5 h6 =>
    .for_ _ c it kw args xs rest s e w h1 h2 h3 h4 (tames_up hk h5) (tames_up hk h6)
  | .cases_ _ c x cl h1 h2 h3 => .cases_ _ c x cl h1 (tame_up hk h2) (tameClauses_up hk h3)
  | .lambda _ c head args ps rest h1 h2 h3 h4 h5 => .lambda _ c head args ps rest h1 h2 h3 h4 h5
  | .applied _ c f name args h1 h2 h3 h4 => .applied _ c f name args h1 h2 (tameFn_up hk h3) (tames_up hk h4)
  | .sort _ c args h1 h2 => .sort _ c args h1 (tameSorts_up hk h2)
  | .symbol _ c args h1 h2 h3 => .symbol _ c args h1 h2 h3
  | .include_ _ c n a h1 h2 h3 h4 h5 => .include_ _ c n a h1 h2 h3 h4 fun file code id tree hf hp => tames_up hk (h5 file code id tree hf hp)
  | .namespace_ _ c args h1 h2 h3 => .namespace_ _ c args h1 h2 (tames_up hk h3)
theorem tames_up {ext : Ext} {rank : Str → Nat} {k k' : Nat} {ns : List PNode} (hk : k ≤ k') : Tames ext rank k ns → Tames ext rank k' ns
  | .nil _ => .nil _
  | .cons _ n ns h1 h2 => .cons _ n ns (tame_up hk h1) (tames_up hk h2)
theorem tameClauses_up {ext : Ext} {rank : Str → Nat} {k k' : Nat} {ns : List PNode} (hk : k ≤ k') :
    TameClauses ext rank k ns → TameClauses ext rank k' ns
  | .nil _ => .nil _
  | .cons _ pat body ps s e w h1 h2 h3 => .cons _ pat body ps s e w (tame_up hk h1) (tames_up hk h2) (tameClauses_up hk h3)
theorem tameFn_up {ext : Ext} {rank : Str → Nat} {k k' : Nat} {n : PNode} (hk : k ≤ k') : TameFn ext rank k n → TameFn ext rank k' n
  | .name _ a h1 h2 => .name _ a h1 (h2.up hk)
  | .lambda _ c head args ps rest h1 h2 h3 h4 h5 h6 => .lambda _ c head args ps rest h1 h2 h3 h4 h5 (by omega)
theorem tameSorts_up {ext : Ext} {rank : Str → Nat} {k k' : Nat} {ns : List PNode} (hk : k ≤ k') :
    TameSorts ext rank k ns → TameSorts ext rank k' ns
  | .nil _ => .nil _
  | .option _ key v s w ns h1 h2 h3 => .option _ key v s w ns h1 (fun hq a ha => (h2 hq a ha).up hk) (tameSorts_up hk h3)
  | .items _ xs s e w ns h1 h2 h3 => .items _ xs s e w ns h1 (tames_up hk h2) (tameSorts_up hk h3)
end

mutual
theorem macroFree_tame {ext : Ext} {rank : Str → Nat} (k : Nat) {n : PNode} : MacroFree n → Tame ext rank k n
  | .symbol a h => .word _ a h
  | .number a => .number _ a
  | .string a => .string _ a
  | .raw a => .raw _ a
  | .list ns s e w h => .list _ ns s e w (by
      intro a t he
      subst he
      cases h with
      | cons _ _ h _ =>
        cases h with
        | symbol _ h => exact h) (macrosFree_tames k h)
  | .attr key n s w h => .attr _ key n s w (macroFree_tame k h)
theorem macrosFree_tames {ext : Ext} {rank : Str → Nat} (k : Nat) {ns : List PNode} : MacrosFree ns → Tames ext rank k ns
  | .nil => .nil _
  | .cons n ns h1 h2 => .cons _ n ns (macroFree_tame k h1) (macrosFree_tames k h2)
end

/-! ## What is kept -/

/-- Everything defined is of lower rank, and hash maps are fair. -/
def RankedSt (ext : Ext) (rank : Str → Nat) (s : St) : Prop := Fair s.order ∧ Ranked ext rank s.scope

theorem Spec.Ranked.insert {ext : Ext} {rank : Str → Nat} {sc : Scope} (h : Ranked ext rank sc) {name : Str} {m : Macro}
    (h1 : MacrosFree m.params) (h2 : Tames ext rank (rank name) m.body) : Ranked ext rank (sc.insert name m) := by
  intro x m' hx
  unfold Scope.insert at hx
  split at hx
  · rename_i he
    cases hx
    rw [beq_iff_eq] at he
    subst he
    exact ⟨h1, h2⟩
  · exact h x m' hx

theorem rankedSt_steady (ext : Ext) (rank : Str → Nat) : Steady (RankedSt ext rank) where
  fresh _ _ h := h
  log _ _ h := h
  data s name body h hb := ⟨h.1, h.2.insert .nil (macrosFree_tames _ (free_iff.2 hb))⟩
  rest s name m h hm := ⟨h.1, h.2.insert .nil (macrosFree_tames _ (free_iff.2 fun n hn => by
    obtain ⟨p, hp, rfl⟩ := List.mem_map.1 hn
    exact hm p ((h.1 _ _).subset hp)))⟩
  back s t hs ht := ⟨ht.1, hs.2⟩

theorem Spec.Ranked.export {ext : Ext} {rank : Str → Nat} (hr : ∀ pre name, rank name ≤ rank (pre ++ name)) {inner outer : Scope}
    (hi : Ranked ext rank inner) (ho : Ranked ext rank outer) (pre : Str) : Ranked ext rank (exportScope pre inner outer) := by
  intro name m hm
  unfold exportScope at hm
  split at hm
  · rename_i hp
    rcases hx : inner (name.drop pre.length) with _ | m'
    · rw [hx] at hm; exact ho name m hm
    · rw [hx] at hm
      cases hm
      obtain ⟨h1, h2⟩ := hi _ _ hx
      refine ⟨h1, tames_up ?_ h2⟩
      have := hr pre (name.drop pre.length)
      obtain ⟨t, rfl⟩ := List.isPrefixOf_iff_prefix.1 hp
      simpa using this
  · exact ho name m hm

/-! ## Fuel -/

section
variable {d : Prop} {J : St → Prop}

theorem Out.shift {P : List PNode → Prop} {ext : Ext} {c : Call} (h : Out d J P fun f => step ext (run ext f) c) :
    Out d J P fun f => run ext f c := by
  intro s hj
  refine ⟨fun f => ?_, fun hd => ?_⟩
  · cases f with
    | zero => exact id
    | succ f => exact (h s hj).1 f
  · obtain ⟨x, hx, he⟩ := (h s hj).2 hd
    exact ⟨x, hx, Ev.succ he⟩

theorem Out.call {P : List PNode → Prop} {ext : Ext} {name : Str} {args : List PNode} {c : PNode} (hc : IsCall name args c)
    (h : Out d J P fun f => run ext f (.invoke name c args)) : Out d J P fun f => run ext f (.node c) := by
  refine Out.shift ?_
  have : ∀ f, step ext (run ext f) (.node c) = run ext f (.invoke name c args) := fun f => run_call hc ext f
  simp only [this]
  exact h

theorem Out.builtin {P : List PNode → Prop} {ext : Ext} {name : Str} {args : List PNode} {c : PNode} {b : Builtin}
    (hb : builtin? name = some b) (h : Out d J P fun f => runBuiltin ext (run ext f) b c args) :
    Out d J P fun f => run ext f (.invoke name c args) := by
  refine Out.shift ?_
  have : ∀ f, step ext (run ext f) (.invoke name c args) = runBuiltin ext (run ext f) b c args := fun f => by
    simp only [step, expandInvocation, hb]
  simp only [this]
  exact h

/-- Several nodes in order. -/
theorem nodes_out' {R : Nat → Rec} {P : List PNode → Prop} (hnil : P []) (happ : ∀ as bs, P as → P bs → P (as ++ bs)) :
    ∀ {ns : List PNode}, (∀ n ∈ ns, Out d J P fun f => R f (.node n)) → Out d J P fun f => expandNodes (R f) ns
  | [], _ => Out.const (OutC.pure hnil)
  | n :: ns, h => (h n (by simp)).bind fun as ha => (nodes_out' hnil happ fun m hm => h m (by simp [hm])).bind fun bs hb =>
      Out.const (OutC.pure (happ _ _ ha hb))

end


/-- A node whose outcome is known. -/
theorem out_of_evals {d : Prop} {J : St → Prop} {P : List PNode → Prop} {ext : Ext} {n : PNode}
    (h : ∀ s, J s → ∃ r t, Evals ext [n] s r t ∧ Fine True J P (r, t)) : Out d J P fun f => run ext f (.node n) := by
  intro s hj
  obtain ⟨r, t, ⟨hr, f, hf⟩, hp⟩ := h s hj
  rw [expandNodes_one] at hf
  refine ⟨fun g => ?_, fun _ => ⟨(r, t), hp, f, fun g hg => run_of_ge hg hr hf⟩⟩
  show Fine False J P (run ext g (.node n) s)
  rcases hx : run ext g (.node n) s with ⟨r', t'⟩
  by_cases hr' : r' = .diverge
  · subst hr'
    exact id
  · obtain ⟨rfl, rfl⟩ := run_unique ext _ s hx hr' hf hr
    exact hp.loose

theorem free_out {d : Prop} {J : St → Prop} {ext : Ext} {n : PNode} (h : MacroFree n) :
    Out d J (fun vs => vs = [n]) fun f => run ext f (.node n) :=
  out_of_evals fun s hj => ⟨_, s, macrosFree_evals ext [n] (.cons _ _ h .nil) s, rfl, hj⟩

theorem frees_out {d : Prop} {J : St → Prop} {ext : Ext} {ns : List PNode} (h : Free ns) :
    Out d J Free fun f => expandNodes (run ext f) ns :=
  nodes_out fun n hn => (free_out (h n hn)).mono fun _ hv => by rw [hv]; exact free_one (h n hn)

/-! ## The parts of a program -/

section
variable {ext : Ext} {rank : Str → Nat} {k : Nat}

/-- The claim for programs of rank below `k`. -/
def Finishes (ext : Ext) (rank : Str → Nat) (k : Nat) : Prop :=
  ∀ ns, Tames ext rank k ns → Out True (RankedSt ext rank) Free fun f => expandNodes (run ext f) ns

theorem lookup_ranked (name : Str) : OutC True (RankedSt ext rank)
    (fun o => ∀ m, o = some m → MacrosFree m.params ∧ Tames ext rank (rank name) m.body) (M.lookup name) :=
  OutC.lookup fun _ hj m hm => hj.2 name m hm

theorem variable_out (ih : ∀ k' < k, Finishes ext rank k') {a : Node} {name : Str} (ha : a.value = '%' :: name) (hk : rank name < k) :
    Out True (RankedSt ext rank) Free fun f => run ext f (.node (.symbol a)) := by
  refine Out.shift ?_
  have : ∀ f, step ext (run ext f) (.node (.symbol a)) = expandVariable (run ext f) a name := fun f => by
    simp only [step, expandNode, ha, macroName?]
  simp only [this]
  refine (Out.const (lookup_ranked name)).bind fun m hm => ?_
  cases m with
  | none => exact Out.const OutC.fail
  | some m =>
    dsimp only
    by_cases he : m.params.isEmpty = true
    · simp only [he, if_true]
      exact (ih _ hk _ (hm m rfl).2).eager fun _ h => OutC.pure (h.firstLw _)
    · simp only [he, if_false, Bool.false_eq_true]
      exact Out.const OutC.fail

theorem invoke_out (he : PlainToml ext) (ih : ∀ k' < k, Finishes ext rank k') {name : Str} (hc : Callable rank k name) {call : PNode}
    {args : List PNode} (ha : Out True (RankedSt ext rank) Free fun f => expandNodes (run ext f) args) :
    Out True (RankedSt ext rank) Free fun f => run ext f (.invoke name call args) := by
  have hs := rankedSt_steady ext rank
  rcases hc with ⟨hb, hk⟩ | ⟨b, hb, hn⟩
  · refine Out.shift ?_
    have : ∀ f, step ext (run ext f) (.invoke name call args) = userMacro (run ext f) name call args := fun f => by
      simp only [step, expandInvocation, hb]
    simp only [this]
    refine ha.bind fun vs hv => (Out.const (lookup_ranked name)).bind fun m hm => ?_
    cases m with
    | none => exact Out.const OutC.fail
    | some m =>
      obtain ⟨h1, h2⟩ := hm m rfl
      exact Out.inner hs ((Out.const (bindList_out hs (free_iff.1 h1) hv)).bind fun _ _ => ih _ hk _ h2)
  · exact Out.builtin hn (eager_out hs he hb ha)

theorem one_parsed {ty : ArgType} {call head : PNode} {args rest : List PNode} (hp : positional args = head :: rest) {p : ArgParser}
    (h : ArgParser.new { patterns := [mandatory 1 ty], trailing := some (.any []) } call args = .ok p) :
    p.pos call 1 = .ok head ∧ p.trailing = dropPositional 1 args := by
  have hw : WellDeclared [⟨.int 1, true, ty⟩] := ⟨by simp, by intro e he; simp at he; subst he; simp, by
    intro e he _; simp at he; subst he; exact ⟨_, rfl⟩⟩
  rcases argParser_new (es := [⟨.int 1, true, ty⟩]) hw (some (.any [])) call args with ⟨q, h1, h2, _⟩ | ⟨e, h1, _⟩
  · have h' := h.symm.trans h1
    cases h'
    have g := parsed_pos h2 (e := ⟨.int 1, true, ty⟩) (by simp) (i := 0) rfl
    refine ⟨?_, ?_⟩
    · simp only [ArgParser.pos]
      rw [g, hp]
      rfl
    · rw [h2.trailing]
      exact undeclared_drop (es := [⟨.int 1, true, ty⟩]) (n := 1) (by
        intro i
        rw [Bool.eq_iff_iff]
        simp [declaredAt]
        omega) (by intro k; simp [declaredAt]) _ 0
  · have := h.symm.trans h1
    cases this

theorem fn_parsed {call : PNode} {a : Node} {as : List PNode} {p : ArgParser}
    (h : ArgParser.new { patterns := [mandatory 1 (.symbol [])], trailing := some (.any []) } call (.symbol a :: as) = .ok p) :
    p.posNode call 1 = .ok a ∧ p.trailing = as := by
  obtain ⟨h1, h2⟩ := one_parsed (head := .symbol a) (rest := positional as) rfl h
  refine ⟨?_, h2.trans (dropPositional_symbol a as)⟩
  simp only [ArgParser.posNode]
  rw [h1]
  rfl

theorem fn_out {d : Prop} {J : St → Prop} {R : Nat → Rec} {call : PNode} {a : Node} {args : List PNode}
    {G : Nat → Str → List PNode → M (List PNode)}
    (h : Out d J (fun vs => ∃ b as, vs = .symbol b :: as ∧ b.value = a.value ∧ Free as) fun f => expandNodes (R f) args)
    (hg : ∀ as, Free as → Out d J Free fun f => G f a.value as) :
    Out d J Free fun f => expandNodes (R f) args >>= fun vs => arguments [mandatory 1 (.symbol [])] (some (.any [])) call vs >>= fun p =>
      M.lift (p.posNode call 1) >>= fun f' => G f f'.value p.trailing := by
  refine h.bind fun vs hv => ?_
  obtain ⟨b, as, rfl, hba, has⟩ := hv
  intro s hj
  have hx : (∃ p, ArgParser.new { patterns := [mandatory 1 (.symbol [])], trailing := some (.any []) } call (.symbol b :: as) = .ok p) ∨
      ∃ e, ArgParser.new { patterns := [mandatory 1 (.symbol [])], trailing := some (.any []) } call (.symbol b :: as) = .err e := by
    rcases argParser_new (es := schemaEntries [.symbol []] []) (eager_wellDeclared _ apply_mem) (some (.any [])) call (.symbol b :: as) with
      ⟨q, h1, _, _⟩ | ⟨e, h1, _⟩
    · exact Or.inl ⟨q, h1⟩
    · exact Or.inr ⟨e, h1⟩
  rcases hx with ⟨p, hp⟩ | ⟨e, hp⟩
  · obtain ⟨h1, h2⟩ := fn_parsed hp
    have heq : ∀ f, (arguments [mandatory 1 (.symbol [])] (some (.any [])) call (.symbol b :: as) >>= fun p =>
        M.lift (p.posNode call 1) >>= fun f' => G f f'.value p.trailing) s = G f a.value as s := by
      intro f
      rw [M.bind_ok (show arguments [mandatory 1 (.symbol [])] (some (.any [])) call (.symbol b :: as) s = (.ok p, s) by rw [arguments, hp]; rfl),
        M.bind_ok (show M.lift (p.posNode call 1) s = (.ok b, s) by rw [h1]; rfl), h2, hba]
    refine ⟨fun f => ?_, fun hd => ?_⟩
    · show Fine False J Free ((arguments [mandatory 1 (.symbol [])] (some (.any [])) call (.symbol b :: as) >>= fun p =>
        M.lift (p.posNode call 1) >>= fun f' => G f f'.value p.trailing) s)
      rw [heq]
      exact (hg as has s hj).1 f
    · obtain ⟨x, hx, hev⟩ := (hg as has s hj).2 hd
      exact ⟨x, hx, hev.mono fun f hf => (heq f).trans hf⟩
  · have heq : ∀ f, (arguments [mandatory 1 (.symbol [])] (some (.any [])) call (.symbol b :: as) >>= fun p =>
        M.lift (p.posNode call 1) >>= fun f' => G f f'.value p.trailing) s = (.err e, s) := by
      intro f
      rw [M.bind_err (show arguments [mandatory 1 (.symbol [])] (some (.any [])) call (.symbol b :: as) s = (.err e, s) by rw [arguments, hp]; rfl)]
    refine ⟨fun f => ?_, fun hd => ⟨(.err e, s), hj, Ev.of heq⟩⟩
    show Fine False J Free ((arguments [mandatory 1 (.symbol [])] (some (.any [])) call (.symbol b :: as) >>= fun p =>
        M.lift (p.posNode call 1) >>= fun f' => G f f'.value p.trailing) s)
    rw [heq]
    exact hj

theorem lambdaCall_out {c head : PNode} {args params rest : List PNode} (hp : positional args = head :: rest)
    (hl : LambdaParams head params) (hm : MacrosFree params)
    (hb : Tames ext rank (rank (lambdaSymbol ext c)) (dropPositional 1 args)) :
    OutC True (RankedSt ext rank) (fun ns => ns = [PNode.symbol (callNode c (lambdaSymbol ext c))]) (lambdaMacro ext c args) := by
  refine lambda_out fun p h n hn al hal s hj => ?_
  obtain ⟨h1, h2⟩ := one_parsed hp h
  rw [h1] at hn
  cases hn
  rw [h2]
  refine ⟨hj.1, hj.2.insert ?_ hb⟩
  cases hl with
  | one a =>
    rcases hal with hal | hal
    · cases hal
    · rw [hal]; exact hm
  | list ns s e w =>
    rcases hal with hal | hal
    · cases hal; exact hm
    · rw [hal]
      exact .cons _ _ (.list _ _ _ _ hm) .nil

theorem toNodeList_literal {d : Prop} : ∀ (ns : List PNode), FineR d (fun as => ∀ a ∈ as, ∃ n ∈ ns, Literal n a) (toNodeList ns)
  | [] => fun _ h => absurd h (by simp)
  | n :: ns => by
    refine FineR.bind (P := fun a => Literal n a) ?_ fun a ha => FineR.bind (toNodeList_literal ns) fun as has => ?_
    · cases n with
      | symbol a => exact Literal.symbol a
      | number a => exact Literal.number a
      | string a => exact Literal.string a
      | raw a => exact Literal.raw a
      | _ => trivial
    · intro b hb
      rcases List.mem_cons.1 hb with rfl | hb
      · exact ⟨n, by simp, ha⟩
      · obtain ⟨m, hm, hl⟩ := has b hb
        exact ⟨m, by simp [hm], hl⟩

theorem symbolMacro_out {d : Prop} {J : St → Prop} {c : PNode} {args : List PNode} (h1 : MacrosFree args)
    (h2 : ∀ n ∈ args, ∀ a, Literal n a → ∀ name, a.value ≠ '%' :: name) :
    Out d J Free fun f => symbolMacro (run ext f) c args := by
  have h : Out d J (fun vs => ∀ v ∈ vs, ∀ a, Literal v a → ∀ name, a.value ≠ '%' :: name) fun f => expandNodes (run ext f) args := by
    refine nodes_out' (fun _ h => absurd h (by simp)) (fun as bs ha hb v hv => ?_) fun n hn => (free_out (free_iff.1 h1 n hn)).mono fun vs hv => ?_
    · rcases List.mem_append.1 hv with hv | hv
      · exact ha v hv
      · exact hb v hv
    · subst hv
      intro v hv
      rw [List.mem_singleton.1 hv]
      exact h2 n hn
  refine h.eager fun vs hv => OutC.bind (arguments_out hv) fun p hp => OutC.bind (OutC.lift (toNodeList_literal p.trailing)) fun ns hns =>
    OutC.pure fun n hn => ?_
  obtain ⟨a, ha, rfl⟩ := List.mem_map.1 hn
  obtain ⟨m, hm, hl⟩ := hns a ha
  exact .symbol _ (hp.trailing m hm a hl)

/-- What the arguments of `%sort` become. -/
def SortValue (rank : Str → Nat) (k : Nat) (n : PNode) : Prop :=
  MacroFree n ∧ ∀ v s w, n = .attr (str! "key") v s w → ∀ a, Literal v a → Callable rank k a.value

theorem plainList_out {d : Prop} {J : St → Prop} {P : List PNode → Prop} {ns : List PNode} {s : Site} {e : Token} {w : Str}
    (hh : ∀ a t, ns = .symbol a :: t → ∀ name, a.value ≠ '%' :: name)
    (h : Out d J Free fun f => expandNodes (run ext f) ns) (hp : ∀ ms, Free ms → P [.list ms s e w]) :
    Out d J P fun f => run ext f (.node (.list ns s e w)) := by
  refine Out.shift ?_
  cases ns with
  | nil => exact Out.const (OutC.pure (hp _ free_nil))
  | cons n t =>
    have : ∀ f, step ext (run ext f) (.node (.list (n :: t) s e w)) = (expandNodes (run ext f) (n :: t) >>= fun ms =>
        pure [PNode.list ms s e w]) := by
      intro f
      have hm : n.symbol?.bind (fun a => macroName? a.value) = none := by
        cases n with
        | symbol a =>
          show macroName? a.value = none
          rcases hv : macroName? a.value with _ | name
          · rfl
          · have : a.value = '%' :: name := by
              unfold macroName? at hv
              split at hv
              · rename_i he
                cases hv
                exact he
              · cases hv
            exact absurd this (hh a t rfl name)
        | _ => rfl
      simp only [step, expandNode, hm]
    simp only [this]
    exact h.eager fun ms hm => OutC.pure (hp ms hm)

mutual
theorem tame_out (he : PlainToml ext) {k : Nat} {n : PNode} (ih : ∀ k' < k, Finishes ext rank k') :
    Tame ext rank k n → Out True (RankedSt ext rank) Free fun f => run ext f (.node n)
  | .number _ a => (free_out (.number a)).mono fun _ h => h ▸ free_one (.number a)
  | .string _ a => (free_out (.string a)).mono fun _ h => h ▸ free_one (.string a)
  | .raw _ a => (free_out (.raw a)).mono fun _ h => h ▸ free_one (.raw a)
  | .word _ a h => (free_out (.symbol a h)).mono fun _ h' => h' ▸ free_one (.symbol a h)
  | .variable _ a name h1 h2 => variable_out ih h1 h2
  | .attr _ key n s w h => by
    have := tame_out he ih h
    refine Out.shift (this.eager fun ns h => ?_)
    cases ns with
    | nil => exact OutC.panic
    | cons n rest => exact OutC.pure (free_cons (.attr _ _ _ _ h.head) h.tail)
  | .list _ ns s e w h1 h2 => plainList_out h1 (tames_out he ih h2) fun ms hm => free_one (free_list hm)
  | .call _ c name args h1 h2 h3 => Out.call h1 (invoke_out he ih h2 (tames_out he ih h3))
  | .define _ c x v h1 h2 => by
    have := tames_out he ih h2
    refine Out.call h1 (Out.builtin (b := .define) rfl (define_out (rankedSt_steady _ _) (fun a nodes h => ?_) fun _ _ _ _ _ _ _ h => ?_))
    · cases h; exact this
    · cases h
  | .function _ c f ps b s e w h1 h2 h3 => by
    refine Out.call h1 (Out.builtin (b := .define) rfl (define_out (rankedSt_steady _ _) (fun a nodes h => ?_) fun _ _ _ _ _ _ _ h hj => ?_))
    · cases h
    · cases h; exact ⟨hj.1, hj.2.insert h2 h3⟩
  | .ifdef _ c x b h1 h2 => by
    have := tameEach_out he ih h2
    exact Out.call h1 (Out.builtin (b := .ifdef) rfl (ifdef_out fun n hn => this n hn))
  | .for_ _ c it kw args xs rest s e w h1 h2 h3 h4 h5 h6 => by
    have hx := tames_out he ih h5
    have hb := tames_out he ih h6
    refine Out.call h1 (Out.builtin (b := .for_) rfl (for_out (rankedSt_steady _ _) fun p hp => ?_))
    obtain ⟨q, g1, g2, _, g4, g5⟩ := for_parsed (call := c) h2 h3
    rw [g1] at hp
    cases hp
    refine ⟨fun n hn v hv => ?_, fun ns hns => ?_, ?_⟩
    · rw [g2] at hn; cases hn
      exact bind_out (rankedSt_steady _ _) h4 hv
    · rw [g4] at hns; cases hns
      exact hx
    · rw [g5]; exact hb
  | .cases_ _ c x cl h1 h2 h3 => by
    have hx := tame_out he ih h2
    have hc := tameClauses_out he ih h3
    refine Out.call h1 (Out.builtin (b := .match_) rfl ?_)
    refine hx.bind fun es he' => ?_
    match es, he' with
    | [], _ => exact Out.const OutC.fail
    | [e], he' => exact matchLoop_out (rankedSt_steady _ _) he'.head hc
    | _ :: _ :: _, _ => exact Out.const OutC.fail
  | .lambda _ c head args ps rest h1 h2 h3 h4 h5 => by
    refine Out.call h1 (Out.builtin (b := .lambda) rfl (Out.const ((lambdaCall_out h2 h3 h4 h5).mono fun ns h => ?_)))
    rw [h]
    refine free_one (.symbol _ fun name h => ?_)
    simp [callNode, lambdaSymbol] at h
  | .applied _ c f name args h1 h2 h3 h4 => by
    have hf := tameFn_out he ih h3
    have ha := tames_out he ih h4
    obtain ⟨a, hcall, hf⟩ := hf
    have hargs : Out True (RankedSt ext rank) (fun vs => ∃ b as, vs = .symbol b :: as ∧ b.value = a.value ∧ Free as)
        fun g => expandNodes (run ext g) (f :: args) := by
      refine hf.bind fun vs hv => ha.bind fun ws hw => ?_
      obtain ⟨b, rfl, hb⟩ := hv
      exact Out.const (OutC.pure ⟨b, ws, rfl, hb, hw⟩)
    have hi : ∀ n, MacroFree n → Out True (RankedSt ext rank) Free fun g => run ext g (.invoke a.value c [n]) := fun n hn =>
      invoke_out he ih hcall (frees_out (free_one hn))
    refine Out.call h1 ?_
    rcases h2 with rfl | rfl | rfl
    · exact Out.builtin (b := .apply) rfl (fn_out (G := fun g f ns => run ext g (.invoke f c ns)) hargs fun as has =>
        invoke_out he ih hcall (frees_out has))
    · exact Out.builtin (b := .map) rfl (fn_out (G := fun g f ns => mapLoop (run ext g) c f ns) hargs fun as has => mapLoop_out hi has)
    · exact Out.builtin (b := .filter) rfl (fn_out (G := fun g f ns => filterLoop (run ext g) c f ns) hargs fun as has => filterLoop_out hi has)
  | .sort _ c args h1 h2 => by
    have ha := tameSorts_out he ih h2
    refine Out.call h1 (Out.builtin (b := .sort) rfl (sort_out (V := SortValue rank k) (fun n h => h.1) ha fun key hkey n hn => ?_))
    refine invoke_out he ih ?_ (frees_out (free_one hn))
    rcases hkey with rfl | ⟨v, a, s, w, hV, hl, rfl⟩
    · exact Or.inr ⟨.do_, by simp [selfContained], rfl⟩
    · exact hV.2 v s w rfl a hl
  | .symbol _ c args h1 h2 h3 => Out.call h1 (Out.builtin (b := .symbol) rfl (symbolMacro_out h2 h3))
  | .include_ _ c n a h1 h2 h3 h4 h5 => by
    have ht := fun file code id tree hf hp => tames_out he ih (h5 file code id tree hf hp)
    have hargs : Out True (RankedSt ext rank) (fun vs => vs = [n]) fun f => expandNodes (run ext f) [n] := by
      simp only [expandNodes_one]
      exact free_out h2
    refine Out.call h1 (Out.builtin (b := .include_) rfl (include_out (rankedSt_steady _ _) hargs ?_ ?_))
    · intro m b p code id tree hm hl hf hp
      cases hm
      have := literal_unique h3 hl
      subst this
      exact ht p code id tree (findInclude_iff.1 hf) hp
    · intro m b p code id _ hm hl hf
      cases hm
      have := literal_unique h3 hl
      subst this
      exact h4 p code id (findInclude_iff.1 hf)
  | .namespace_ _ c args h1 h2 h3 => by
    have := tames_out he ih h3
    exact Out.call h1 (Out.builtin (b := .namespace_) rfl (namespace_out (rankedSt_steady _ _)
      (fun s t pre hs ht => ⟨ht.1, ht.2.export h2 hs.2 pre⟩) this))
theorem tames_out (he : PlainToml ext) {k : Nat} {ns : List PNode} (ih : ∀ k' < k, Finishes ext rank k') :
    Tames ext rank k ns → Out True (RankedSt ext rank) Free fun f => expandNodes (run ext f) ns
  | .nil _ => Out.const (OutC.pure free_nil)
  | .cons _ n ns h1 h2 => (tame_out he ih h1).bind fun _ ha => (tames_out he ih h2).bind fun _ hb =>
      Out.const (OutC.pure (ha.append hb))
theorem tameEach_out (he : PlainToml ext) {k : Nat} {ns : List PNode} (ih : ∀ k' < k, Finishes ext rank k') :
    Tames ext rank k ns → ∀ n ∈ ns, Out True (RankedSt ext rank) Free fun f => run ext f (.node n)
  | .nil _ => fun _ h => absurd h (by simp)
  | .cons _ n ns h1 h2 => fun m hm => by
    have g1 := tame_out he ih h1
    have g2 := tameEach_out he ih h2
    rcases List.mem_cons.1 hm with rfl | hm
    · exact g1
    · exact g2 m hm
theorem tameClauses_out (he : PlainToml ext) {k : Nat} {ns : List PNode} (ih : ∀ k' < k, Finishes ext rank k') :
    TameClauses ext rank k ns → ∀ pat value s e w, PNode.list (pat :: value) s e w ∈ ns →
      (Out True (RankedSt ext rank) Free fun f => run ext f (.node pat)) ∧
      Out True (RankedSt ext rank) Free fun f => expandNodes (run ext f) value
  | .nil _ => fun _ _ _ _ _ h => absurd h (by simp)
  | .cons _ pat body ps s e w h1 h2 h3 => fun pat' value s' e' w' hm => by
    have g1 := tame_out he ih h1
    have g2 := tames_out he ih h2
    have g3 := tameClauses_out he ih h3
    rcases List.mem_cons.1 hm with h | hm
    · cases h; exact ⟨g1, g2⟩
    · exact g3 _ _ _ _ _ hm
theorem tameFn_out (he : PlainToml ext) {k : Nat} {n : PNode} (ih : ∀ k' < k, Finishes ext rank k') :
    TameFn ext rank k n → ∃ a : Node, Callable rank k a.value ∧
      Out True (RankedSt ext rank) (fun vs => ∃ b, vs = [.symbol b] ∧ b.value = a.value) fun f => run ext f (.node n)
  | .name _ a h1 h2 => ⟨a, h2, (free_out (.symbol a h1)).mono fun _ h => ⟨a, h, rfl⟩⟩
  | .lambda _ c head args ps rest h1 h2 h3 h4 h5 h6 => ⟨callNode c (lambdaSymbol ext c), Or.inl ⟨builtin?_lambda _, h6⟩,
      Out.call h1 (Out.builtin (b := .lambda) rfl (Out.const ((lambdaCall_out h2 h3 h4 h5).mono fun _ h => ⟨_, h, rfl⟩)))⟩
theorem tameSorts_out (he : PlainToml ext) {k : Nat} {ns : List PNode} (ih : ∀ k' < k, Finishes ext rank k') :
    TameSorts ext rank k ns → Out True (RankedSt ext rank) (fun vs => ∀ v ∈ vs, SortValue rank k v) fun f => expandNodes (run ext f) ns
  | .nil _ => Out.const (OutC.pure fun _ h => absurd h (by simp))
  | .option _ key v s w ns h1 h2 h3 => (free_out (.attr key v s w h1)).bind fun vs hv => (tameSorts_out he ih h3).bind fun ws hw =>
      Out.const (OutC.pure (by
        subst hv
        intro x hx
        rcases List.mem_append.1 hx with hx | hx
        · rw [List.mem_singleton.1 hx]
          refine ⟨.attr _ _ _ _ h1, fun v' s' w' he' a ha => ?_⟩
          cases he'
          exact h2 rfl a ha
        · exact hw x hx))
  | .items _ xs s e w ns h1 h2 h3 => (plainList_out (P := fun vs => ∀ v ∈ vs, SortValue rank k v) h1 (tames_out he ih h2) (fun ms hm v hv => by
        rw [List.mem_singleton.1 hv]
        exact ⟨free_list hm, fun _ _ _ h => by cases h⟩)).bind fun vs hv => (tameSorts_out he ih h3).bind fun ws hw =>
      Out.const (OutC.pure (by
        intro x hx
        rcases List.mem_append.1 hx with hx | hx
        · exact hv x hx
        · exact hw x hx))
end

theorem finishes (he : PlainToml ext) : ∀ k, Finishes ext rank k := by
  intro k
  induction k using Nat.strongRecOn with
  | ind k ih => exact fun ns h => tames_out he ih h

end

/-! ## Not finishing -/

theorem known_or_diverges {ext : Ext} {ns : List PNode} {s t : St} {r : Res (List PNode)} (h : Evals ext ns s r t) (g : Nat) :
    (expandNodes (run ext g) ns s).1 = .diverge ∨ expandNodes (run ext g) ns s = (r, t) := by
  rcases hx : expandNodes (run ext g) ns s with ⟨r', t'⟩
  by_cases hr : r' = .diverge
  · exact Or.inl hr
  · obtain ⟨rfl, rfl⟩ := h.unique ⟨hr, g, hx⟩
    exact Or.inr rfl

theorem bind_diverges {α β : Type} {m : M α} {f : α → M β} {s : St} (h : (m s).1 = .diverge) : ((m >>= f) s).1 = .diverge := by
  rw [M.bind_def]
  rcases hm : m s with ⟨r, t⟩
  rw [hm] at h
  cases h
  rfl

end Seam
