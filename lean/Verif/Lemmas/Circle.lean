import Verif.Spec.Circle
import Verif.Lemmas.Halt
import Verif.Lemmas.Convert
import Verif.Lemmas.Include
import Verif.Lemmas.EvalCheck
import Verif.Lemmas.Source

/-! Documents that cannot be expanded without expanding some macro or including some file. -/

namespace Seam
open Spec

/-- A finished run with a property of its result. -/
theorem evals_some_of {ext : Ext} {ns : List PNode} {s : St} (fuel : Nat) (p : List PNode → Bool)
    (h : (expandNodes (run ext fuel) ns s).1.okP p = true) : ∃ out t, Evals ext ns s (.ok out) t ∧ p out = true := by
  obtain ⟨out, h1, h2⟩ := Res.okP_elim h
  exact ⟨out, _, ⟨by simp, fuel, Prod.ext h1 rfl⟩, h2⟩

/-- The computation never succeeds. -/
def Never {α : Type} (m : M α) : Prop := ∀ s a t, m s ≠ (.ok a, t)

theorem Never.bind {α β : Type} {m : M α} (h : Never m) (f : α → M β) : Never (m >>= f) := by
  intro s b t he
  obtain ⟨a, u, h1, _⟩ := M.bind_eq_ok he
  exact h s a u h1

theorem Never.then {α β : Type} (m : M α) {f : α → M β} (h : ∀ a, Never (f a)) : Never (m >>= f) := by
  intro s b t he
  obtain ⟨a, u, _, h2⟩ := M.bind_eq_ok he
  exact h a u b t h2

theorem Never.inner {α : Type} {m : M α} (h : Never m) : Never (M.inner m) := by
  intro s a t he
  rw [M.inner_def] at he
  rcases hm : m s with ⟨r, u⟩
  rw [hm] at he
  cases he
  exact h s a u hm

theorem never_lift {α : Type} {r : Res α} (h : ∀ a, r ≠ .ok a) : Never (M.lift r) := by
  intro s a t he
  cases he
  exact h a rfl

theorem never_fail {α : Type} (msg : String) (site : Site) : Never (M.fail msg site : M α) := never_lift (by simp)

theorem never_nodes {rec : Rec} {n : PNode} (h : Never (rec (.node n))) : ∀ {ns : List PNode}, n ∈ ns → Never (expandNodes rec ns)
  | m :: ns, hn => by
    unfold expandNodes
    rcases List.mem_cons.1 hn with rfl | hn
    · exact h.bind _
    · exact .then _ fun _ => (never_nodes h hn).bind _

theorem never_eager {ext : Ext} {rec : Rec} {name : Str} {call : PNode} {args : List PNode}
    (hn : builtin? name = none ∨ name ∈ eager ∨ name = str! "namespace") (h : Never (expandNodes rec args)) :
    Never (expandInvocation ext rec name call args) := by
  rcases hn with hn | hn | rfl
  · unfold expandInvocation
    rw [hn]
    exact h.bind _
  · simp only [eager, List.mem_cons, List.not_mem_nil, or_false] at hn
    rcases hn with rfl | rfl | rfl | rfl | rfl | rfl | rfl | rfl | rfl | rfl | rfl | rfl | rfl | rfl | rfl | rfl | rfl | rfl | rfl | rfl | rfl | rfl | rfl | rfl | rfl | rfl | rfl | rfl
    case inl => exact h
    all_goals exact h.bind _
  · intro s a t he
    have : namespaceMacro rec call args s = (.ok a, t) := he
    unfold namespaceMacro at this
    rcases hx : expandNodes rec args s with ⟨r, u⟩
    rw [hx] at this
    cases r with
    | ok vs => exact h s vs u hx
    | err e => cases this
    | panic => cases this
    | diverge => cases this

section
variable {ext : Ext} {ok : St → Bool}

theorem watch_succ {fuel : Nat} {c : Call} {s t : St} {out : List PNode} (h : watchRun ext ok (fuel + 1) c s = (.ok out, t)) :
    ok s = true ∧ ok t = true ∧ step ext (watchRun ext ok fuel) c s = (.ok out, t) := by
  unfold watchRun at h
  split at h
  · rename_i h1
    dsimp only at h
    split at h
    · rename_i h2
      refine ⟨h1, ?_, ?_⟩
      · have : (step ext (watchRun ext ok fuel) c s).2 = t := congrArg Prod.snd h
        rw [← this]
        exact h2
      · exact h
    · cases h
  · cases h

theorem watch_never {fuel : Nat} {c : Call} (h : Never (step ext (watchRun ext ok fuel) c)) : Never (watchRun ext ok (fuel + 1) c) :=
  fun s out t he => h s out t (watch_succ he).2.2

theorem watch_state {fuel : Nat} : ∀ {ns vs : List PNode} {s u : St}, ok s = true →
    expandNodes (watchRun ext ok fuel) ns s = (.ok vs, u) → ok u = true
  | [], vs, s, u, hs, h => by
    cases h
    exact hs
  | n :: ns, vs, s, u, hs, h => by
    unfold expandNodes at h
    obtain ⟨a, v, h1, h2⟩ := M.bind_eq_ok h
    obtain ⟨b, v', h3, h4⟩ := M.bind_eq_ok h2
    cases h4
    cases fuel with
    | zero => cases h1
    | succ g => exact watch_state (watch_succ h1).2.1 h3

theorem watch_literal {fuel : Nat} {n : PNode} {a : Node} (hl : Literal n a) (hn : MacroFree n) {vs : List PNode} {s u : St}
    (h : expandNodes (watchRun ext ok fuel) [n] s = (.ok vs, u)) : vs = [n] := by
  rw [expandNodes_one] at h
  cases fuel with
  | zero => cases h
  | succ g =>
    have h := (watch_succ h).2.2
    cases hl with
    | symbol =>
      cases hn with
      | symbol _ hn =>
        have : macroName? a.value = none := by
          rcases ha : a.value with _ | ⟨c, cs⟩
          · rfl
          · by_cases hc : c = '%'
            · subst hc; exact absurd ha (hn cs)
            · unfold macroName?
              split
              · rename_i h'; cases h'; exact absurd rfl hc
              · rfl
        have h : (match macroName? a.value with
          | some name => expandVariable (watchRun ext ok g) a name
          | none => pure [.symbol a]) s = (.ok vs, u) := h
        rw [this] at h
        cases h
        rfl
    | _ => cases h; rfl

theorem call_invoke {rec : Rec} {name : Str} {args : List PNode} {c : PNode} (hc : IsCall name args c) :
    expandNode rec c = rec (.invoke name c args) := by
  obtain ⟨h, t, s, e, w, hv, rfl⟩ := hc
  simp only [expandNode, PNode.symbol?, Option.bind_some, hv, macroName?, dropFirstBlank_eq]

/-! ### The number of the buffer does not matter -/

theorem tokens_sameSource {b : Buf} {before : Str} {line : Nat} {rest : Str} {toks : List Token} {e : Ending}
    (h : Tokens b before line rest toks e) : SameSource rest rest := by
  induction h with
  | eof _ _ _ h => exact .eof _ _ h h
  | unclosed _ _ triv lead q s h1 h2 h3 => exact .unclosed _ _ _ _ _ _ _ h1 h1 h2 h2 h3 h3
  | cut _ _ triv lead text h1 h2 h3 => exact .cut _ _ _ _ _ _ h1 h1 h2 h2 h3 h3
  | token _ _ triv lead kind text value rest toks e h1 h2 _ ih => exact .token _ _ _ _ _ _ _ _ _ h1 h1 h2 h2 ih

theorem sameSource_refl (code : Str) : SameSource code code := by
  obtain ⟨toks, e, h⟩ := tokens_total { path := [], id := 0, code := code } [] 1 code
  exact tokens_sameSource h

theorem parse_other (u : Unescape) {path code : Str} {i j : Nat} {tree : List PNode}
    (h : parse u { path := path, id := i, code := code } = .ok tree) :
    ∃ tree', parse u { path := path, id := j, code := code } = .ok tree' ∧ Moveds (fun _ _ => True) tree' tree := by
  obtain ⟨toks, toks', e, e', t1, t2, hp, he⟩ := tokensOf_corresponds (b := { path := path, id := j, code := code })
    (b' := { path := path, id := i, code := code }) (sameSource_refl code)
  have := parse_moved u t1 t2 hp he
  rw [h] at this
  generalize hq : parse u { path := path, id := j, code := code } = q at this
  cases this with
  | done _ _ h =>
    cases h with
    | ok ns ms h => exact ⟨ns, rfl, unplaceds_moved (moveds_unplaced h)⟩

theorem moved_setLw {n m : PNode} (h : Moved (fun _ _ => True) n m) (w : Str) : Moved (fun _ _ => True) (n.setLw w) (m.setLw w) := by
  cases h with
  | symbol a b h => exact .symbol _ _ ⟨h.1, rfl, trivial⟩
  | number a b h => exact .number _ _ ⟨h.1, rfl, trivial⟩
  | string a b h => exact .string _ _ ⟨h.1, rfl, trivial⟩
  | raw a b h => exact .raw _ _ ⟨h.1, rfl, trivial⟩
  | list ns ms s t e f w' h1 h2 h3 h4 => exact .list _ _ _ _ _ _ _ h1 h2 h3 h4
  | attr k n m s t w' h1 h2 => exact .attr _ _ _ _ _ _ h1 h2

theorem moved_lw {n m : PNode} (h : Moved (fun _ _ => True) n m) : n.lw = m.lw := by
  cases h with
  | symbol a b h => exact h.2.1
  | number a b h => exact h.2.1
  | string a b h => exact h.2.1
  | raw a b h => exact h.2.1
  | list => rfl
  | attr => rfl

theorem moveds_dropFirst {ns ms : List PNode} (h : Moveds (fun _ _ => True) ns ms) :
    Moveds (fun _ _ => True) (dropFirstBlank ns) (dropFirstBlank ms) := by
  cases h with
  | nil => exact .nil
  | cons n m ns ms h hs =>
    simp only [dropFirstBlank, moved_lw h]
    split
    · exact .cons _ _ _ _ h hs
    · exact .cons _ _ _ _ (moved_setLw h _) hs

theorem isCall_moved {name : Str} {args : List PNode} {c d : PNode} (h : Moved (fun _ _ => True) c d) (hc : IsCall name args c) :
    ∃ args', IsCall name args' d ∧ Moveds (fun _ _ => True) args args' := by
  obtain ⟨a, t, s, e, w, hv, rfl⟩ := hc
  cases h with
  | list _ ms _ _ _ f _ h1 =>
    cases h1 with
    | cons _ m _ ms h1 h2 =>
      cases h1 with
      | symbol _ b h1 => exact ⟨_, .mk _ _ _ _ _ (h1.1 ▸ hv) rfl, moveds_dropFirst h2⟩

theorem moveds_mem {n : PNode} : ∀ {ns ms : List PNode}, Moveds (fun _ _ => True) ns ms → n ∈ ns → ∃ m ∈ ms, Moved (fun _ _ => True) n m
  | _, _, .cons a b as bs h hs, hn => by
    rcases List.mem_cons.1 hn with rfl | hn
    · exact ⟨b, List.mem_cons_self .., h⟩
    · obtain ⟨m, h1, h2⟩ := moveds_mem hs hn
      exact ⟨m, List.mem_cons_of_mem _ h1, h2⟩

theorem literal_moved {n m : PNode} {a : Node} (h : Moved (fun _ _ => True) n m) (hl : Literal n a) :
    ∃ b, Literal m b ∧ b.value = a.value := by
  cases hl with
  | symbol => cases h with | symbol _ b h => exact ⟨b, .symbol b, h.1.symm⟩
  | number => cases h with | number _ b h => exact ⟨b, .number b, h.1.symm⟩
  | string => cases h with | string _ b h => exact ⟨b, .string b, h.1.symm⟩
  | raw => cases h with | raw _ b h => exact ⟨b, .raw b, h.1.symm⟩

mutual
theorem macroFree_moved : ∀ {n m : PNode}, Moved (fun _ _ => True) n m → MacroFree n → MacroFree m
  | _, _, .symbol a b h, .symbol _ hn => .symbol _ (h.1 ▸ hn)
  | _, _, .number _ _ _, _ => .number _
  | _, _, .string _ _ _, _ => .string _
  | _, _, .raw _ _ _, _ => .raw _
  | _, _, .list _ _ _ _ _ _ _ h _ _ _, .list _ _ _ _ hn => .list _ _ _ _ (macrosFree_moved h hn)
  | _, _, .attr _ _ _ _ _ _ h _, .attr _ _ _ _ hn => .attr _ _ _ _ (macroFree_moved h hn)
theorem macrosFree_moved : ∀ {ns ms : List PNode}, Moveds (fun _ _ => True) ns ms → MacrosFree ns → MacrosFree ms
  | _, _, .nil, _ => .nil
  | _, _, .cons _ _ _ _ h hs, .cons _ _ hn hns => .cons _ _ (macroFree_moved h hn) (macrosFree_moved hs hns)
end

theorem positional_moved : ∀ {ns ms : List PNode}, Moveds (fun _ _ => True) ns ms → Moveds (fun _ _ => True) (positional ns) (positional ms)
  | _, _, .nil => .nil
  | _, _, .cons _ _ _ _ h hs => by
    have := positional_moved hs
    cases h with
    | symbol a b h => exact .cons _ _ _ _ (.symbol a b h) this
    | number a b h => exact .cons _ _ _ _ (.number a b h) this
    | string a b h => exact .cons _ _ _ _ (.string a b h) this
    | raw a b h => exact .cons _ _ _ _ (.raw a b h) this
    | list ns ms s t e f w' h1 h2 h3 h4 => exact .cons _ _ _ _ (.list _ _ _ _ _ _ _ h1 h2 h3 h4) this
    | attr k n m s t w' h1 h2 => exact this

variable {F G : Str → Prop}

theorem forced_moved {n m : PNode} (h : Moved (fun _ _ => True) n m) (hn : Forced F G n) : Forced F G m := by
  induction hn generalizing m with
  | call c name args hc hb hf =>
    obtain ⟨args', hc', _⟩ := isCall_moved h hc
    exact .call _ _ _ hc' hb hf
  | «variable» a name ha hf =>
    cases h with
    | symbol _ b h => exact .variable _ _ (h.1 ▸ ha) hf
  | include_ c n a hc hl hm hg =>
    obtain ⟨args', hc', ha⟩ := isCall_moved h hc
    cases ha with
    | cons _ n' _ _ h1 h2 =>
      cases h2
      obtain ⟨b, hb, hv⟩ := literal_moved h1 hl
      exact .include_ _ _ _ hc' hb (macroFree_moved h1 hm) (hv ▸ hg)
  | attr k n s w _ ih =>
    cases h with
    | attr _ _ m _ _ _ h1 => exact .attr _ _ _ _ (ih h1)
  | list ns n s e w h1 h2 _ ih =>
    cases h with
    | list _ ms _ _ _ _ _ h =>
      obtain ⟨m, hm, hnm⟩ := moveds_mem h h2
      refine .list _ m _ _ _ ?_ hm (ih hnm)
      rintro a t rfl name
      cases h with
      | cons x _ xs _ hx hxs =>
        cases hx with
        | symbol a' _ hx =>
          rw [← hx.1]
          exact h1 a' xs rfl name
  | arg c n name args hc hn h2 _ ih =>
    obtain ⟨args', hc', ha⟩ := isCall_moved h hc
    obtain ⟨m, hm, hnm⟩ := moveds_mem ha h2
    exact .arg _ _ _ _ hc' hn hm (ih hnm)
  | define c n x value hc h2 _ ih =>
    obtain ⟨args', hc', ha⟩ := isCall_moved h hc
    cases ha with
    | cons _ x' _ _ h1 ha =>
      cases h1 with
      | symbol _ b _ =>
        obtain ⟨m, hm, hnm⟩ := moveds_mem ha h2
        exact .define _ _ _ _ hc' hm (ih hnm)
  | cases_ c n clauses hc _ ih =>
    obtain ⟨args', hc', ha⟩ := isCall_moved h hc
    cases ha with
    | cons _ x' _ _ h1 ha => exact .cases_ _ _ _ hc' (ih h1)
  | ifdef c x a b hc _ _ ih1 ih2 =>
    obtain ⟨args', hc', ha⟩ := isCall_moved h hc
    cases ha with
    | cons _ x' _ _ _ ha =>
      cases ha with
      | cons _ a' _ _ h1 ha =>
        cases ha with
        | cons _ b' _ _ h2 ha =>
          cases ha
          exact .ifdef _ _ _ _ hc' (ih1 h1) (ih2 h2)
  | items c it n kw args xs rest s e w hc hp hkw hm _ ih =>
    obtain ⟨args', hc', ha⟩ := isCall_moved h hc
    have hp' := positional_moved ha
    rw [hp] at hp'
    generalize hq : positional args' = q at hp'
    cases hp' with
    | cons _ it' _ _ _ hp' =>
      cases hp' with
      | cons _ kw' _ _ hk hp' =>
        cases hk with
        | symbol _ kw' hk =>
          cases hp' with
          | cons _ l _ _ hl hp' =>
            cases hl with
            | list _ ys _ _ _ _ _ hl =>
              obtain ⟨m, hm', hnm⟩ := moveds_mem hl hm
              exact .items _ _ _ _ _ _ _ _ _ _ hc' hq (hk.1 ▸ hkw) hm' (ih hnm)

/-- The main induction. -/
theorem forced_never (hG : Circular ext F G) (hF : ∀ s, ok s = true → Recursive F G s) :
    ∀ (fuel : Nat) {n : PNode}, Forced F G n → Never (watchRun ext ok fuel (.node n)) := by
  intro fuel
  induction fuel using Nat.strongRecOn with
  | ind fuel ih =>
    intro n hn
    have hstep : ∀ g, fuel = g + 1 → Never (step ext (watchRun ext ok g) (.node n)) → Never (watchRun ext ok fuel (.node n)) := by
      rintro g rfl h
      exact watch_never h
    -- a call
    have hcall : ∀ {name : Str} {args : List PNode}, IsCall name args n →
        (∀ g, g < fuel → Never (fun s => if ok s then expandInvocation ext (watchRun ext ok g) name n args s else (.diverge, s))) →
        Never (watchRun ext ok fuel (.node n)) := by
      intro name args hc h
      match fuel, ih, h with
      | 0, _, _ => exact never_lift (by simp)
      | 1, _, _ =>
        refine watch_never ?_
        show Never (expandNode _ n)
        rw [call_invoke hc]
        exact never_lift (by simp)
      | g + 2, _, h =>
        refine watch_never ?_
        show Never (expandNode _ n)
        rw [call_invoke hc]
        intro s a t he
        obtain ⟨h1, _, h3⟩ := watch_succ he
        refine h g (by omega) s a t ?_
        dsimp only
        rw [if_pos h1]
        exact h3
    have hcall' : ∀ {name : Str} {args : List PNode}, IsCall name args n →
        (∀ g, g < fuel → Never (expandInvocation ext (watchRun ext ok g) name n args)) →
        Never (watchRun ext ok fuel (.node n)) := by
      intro name args hc h
      refine hcall hc fun g hg s a t he => ?_
      dsimp only at he
      split at he
      · exact h g hg s a t he
      · cases he
    cases fuel with
    | zero => exact never_lift (by simp)
    | succ f =>
    cases hn with
    | call _ name args hc hb hf =>
      refine hcall hc fun g hg s a t he => ?_
      dsimp only at he
      split at he
      · rename_i hs
        unfold expandInvocation at he
        rw [hb] at he
        unfold userMacro at he
        obtain ⟨vs, u, h1, h2⟩ := M.bind_eq_ok he
        have hu := watch_state hs h1
        obtain ⟨m, hm, k, hk, hkf⟩ := hF u hu name hf
        rw [M.bind_ok (M.lookup_def name u), hm] at h2
        exact Never.inner (.then _ fun _ => never_nodes (ih g hg hkf) hk) u a t h2
      · cases he
    | «variable» a name ha hf =>
      intro s out t he
      obtain ⟨hs, _, he⟩ := watch_succ he
      have he : (match macroName? a.value with
          | some name => expandVariable (watchRun ext ok f) a name
          | none => pure [.symbol a]) s = (.ok out, t) := he
      rw [ha] at he
      have he : expandVariable (watchRun ext ok f) a name s = (.ok out, t) := he
      unfold expandVariable at he
      obtain ⟨m, hm, k, hk, hkf⟩ := hF s hs name hf
      rw [M.bind_ok (M.lookup_def name s), hm] at he
      dsimp only at he
      split at he
      · exact (never_nodes (ih f (by omega) hkf) hk).bind _ s out t he
      · exact never_fail _ _ s out t he
    | include_ _ k a hc hl hm hg =>
      refine hcall' hc fun g hgf s out t he => ?_
      have he : includeMacro ext (watchRun ext ok g) n [k] s = (.ok out, t) := he
      unfold includeMacro at he
      obtain ⟨vs, u, h1, h2⟩ := M.bind_eq_ok he
      have := watch_literal hl hm h1
      subst this
      dsimp only at h2
      rw [literal_atomic hl] at h2
      dsimp only at h2
      rcases hfi : findInclude ext a.value ext.includes with _ | ⟨p, code⟩
      · rw [hfi] at h2
        exact never_fail _ _ _ _ _ h2
      · rw [hfi] at h2
        dsimp only at h2
        obtain ⟨id, v, h3, h4⟩ := M.bind_eq_ok h2
        rcases hp : parse ext.unescape { path := p, id := id, code := code } with tree | e | _ | _
        · rw [hp] at h4
          obtain ⟨tree', hp', hmv⟩ := parse_other ext.unescape (j := 1) hp
          obtain ⟨j', hj', hjf'⟩ := hG a.value hg p code tree' (findInclude_iff.1 hfi) hp'
          obtain ⟨j, hj, hjm⟩ := moveds_mem hmv hj'
          have hjf := forced_moved hjm hjf'
          exact (never_nodes (ih g hgf hjf) hj).bind _ v out t h4
        all_goals
          rw [hp] at h4
          cases h4
    | attr k m si w h =>
      refine hstep f rfl ?_
      show Never (expandNode (watchRun ext ok f) (.attr k m si w))
      unfold expandNode
      exact (ih f (by omega) h).bind _
    | list ns m si e w h1 h2 h3 =>
      refine hstep f rfl fun s out t he => ?_
      have he : expandNode (watchRun ext ok f) (.list ns si e w) s = (.ok out, t) := he
      rw [expandNode_list fun a t name hns => h1 a t hns name] at he
      exact (never_nodes (ih f (by omega) h3) h2).bind _ s out t he
    | arg _ m name args hc hn hm hmf =>
      exact hcall' hc fun g hg => never_eager hn (never_nodes (ih g hg hmf) hm)
    | define _ m x value hc hm hmf =>
      refine hcall' hc fun g hg => ?_
      show Never (defineMacro (watchRun ext ok g) n (.symbol x :: value))
      unfold defineMacro
      exact (never_nodes (ih g hg hmf) hm).bind _
    | cases_ _ m clauses hc hm =>
      refine hcall' hc fun g hg => ?_
      show Never (matchMacro (watchRun ext ok g) n (m :: clauses))
      unfold matchMacro
      exact (ih g hg hm).bind _
    | ifdef _ x a b hc ha hb =>
      refine hcall' hc fun g hg => ?_
      show Never (ifdefMacro (watchRun ext ok g) n [x, a, b])
      unfold ifdefMacro
      dsimp only
      split
      · exact never_fail _ _
      · refine .then _ fun d => ?_
        cases d with
        | none => exact (ih g hg hb).bind _
        | some m => exact (ih g hg ha).bind _
    | items _ it m kw args xs rest si e w hc hp hkw hm hmf =>
      refine hcall' hc fun g hg => ?_
      show Never (forMacro (watchRun ext ok g) n args)
      obtain ⟨q, g1, g2, g3, g4, g5⟩ := for_parsed (call := n) hp hkw
      unfold forMacro arguments
      intro s out t he
      rw [g1, M.bind_ok (M.lift_def _ s)] at he
      rw [g2, M.bind_ok (M.lift_def _ s)] at he
      rw [g3, M.bind_ok (M.lift_def _ s)] at he
      rw [g4, M.bind_ok (M.lift_def _ s)] at he
      exact (never_nodes (ih g hg hmf) hm).bind _ s out t he

theorem watch_le : ∀ (fuel : Nat), LeRec (watchRun ext ok fuel) (run ext fuel)
  | 0 => fun _ _ => Or.inl rfl
  | fuel + 1 => by
    intro c s
    have ih := step_le (ext := ext) (watch_le fuel) c s
    unfold watchRun
    rcases hx : step ext (watchRun ext ok fuel) c s with ⟨r, t⟩
    rw [hx] at ih
    split
    · dsimp only
      split
      · exact ih
      · exact Or.inl rfl
    · exact Or.inl rfl

theorem watchEvals_evals {ns : List PNode} {s t : St} {r : Res (List PNode)} (h : WatchEvals ext ok ns s r t) : Evals ext ns s r t := by
  obtain ⟨hr, f, hf⟩ := h
  refine ⟨hr, f, ?_⟩
  rcases expandNodes_le (watch_le f) ns s with h1 | h1
  · rw [hf] at h1; exact absurd h1 hr
  · rw [← h1, hf]

theorem watch_true : ∀ (fuel : Nat), watchRun ext (fun _ => true) fuel = run ext fuel
  | 0 => rfl
  | fuel + 1 => by
    funext c s
    show (match step ext (watchRun ext (fun _ => true) fuel) c s with | (r, t) => if true then (r, t) else (.diverge, t)) = step ext (run ext fuel) c s
    rw [watch_true fuel]
    rfl

/-- Including a file that consists of nothing but its own inclusion has no outcome. -/
theorem include_loop {path file code : Str} (hf : FirstRead ext (includeFiles ext path) file code) {c n : PNode} {a : Node}
    (hp : parse ext.unescape { path := file, id := 1, code := code } = .ok [c]) (hc : IsCall (str! "include") [n] c)
    (hl : Literal n a) (hm : MacroFree n) (ha : a.value = path) :
    ∀ (fuel : Nat) {d m : PNode} {b : Node} (s : St), IsCall (str! "include") [m] d → Literal m b → MacroFree m → b.value = path →
      (run ext fuel (.node d) s).1 = .diverge := by
  intro fuel
  induction fuel using Nat.strongRecOn with
  | ind fuel ih =>
    intro d m b s hd hlm hmm hb
    match fuel, ih with
    | 0, _ => rfl
    | 1, _ => rw [run_call hd]; rfl
    | g + 2, ih =>
      rw [run_call hd]
      show (includeMacro ext (run ext g) d [m] s).1 = .diverge
      unfold includeMacro
      rcases known_or_diverges (macrosFree_evals ext [m] (.cons _ _ hmm .nil) s) g with h | h
      · exact bind_diverges h
      rw [M.bind_ok h]
      simp only [literal_atomic hlm, hb, findInclude_iff.2 hf]
      rw [M.bind_ok (show M.tick s = (.ok s.fresh, { s with fresh := s.fresh + 1 }) from rfl)]
      obtain ⟨tree, ht, hmv⟩ := parse_other ext.unescape (j := s.fresh) hp
      rw [ht]
      cases hmv with
      | cons c' _ _ _ h1 h2 =>
        cases h2
        have h1' : Moved (fun _ _ => True) c c' := unplaced_moved (moved_unplaced h1).symm
        obtain ⟨args', hc', hargs⟩ := isCall_moved h1' hc
        cases hargs with
        | cons _ n' _ _ hn hnil =>
          cases hnil
          obtain ⟨a', hl', hv⟩ := literal_moved hn hl
          have := ih g (by omega) { s with fresh := s.fresh + 1 } hc' hl' (macroFree_moved hn hm) (hv.trans ha)
          refine bind_diverges ?_
          rw [expandNodes_one]
          exact this

end
end Seam
