import Verif.Lemmas.OutRun

/-! Expansion leaves no macro. -/

namespace Seam
open Spec

theorem noMacroName_free {ns : List Node} (h : noMacroName (ns.map .symbol) = true) : Free (ns.map .symbol) := by
  intro n hn
  simp only [noMacroName, List.all_eq_true] at h
  have h' := h n hn
  obtain ⟨a, _, rfl⟩ := List.mem_map.1 hn
  refine .symbol _ fun name he => ?_
  simp [he] at h'

/-- Nothing is asked of the state. -/
def anySt : St → Prop := fun _ => True

theorem anySt_steady : Steady anySt := ⟨fun _ _ _ => trivial, fun _ _ _ => trivial, fun _ _ _ _ _ => trivial,
  fun _ _ _ _ _ => trivial, fun _ _ _ _ => trivial⟩

theorem anySt_trivial {α : Type} (m : M α) : OutC False anySt (fun _ => True) m := by
  intro s _
  rcases m s with ⟨_ | _ | _ | _, t⟩
  · exact ⟨trivial, trivial⟩
  · trivial
  · trivial
  · exact id

theorem expandInvocation_free {ext : Ext} (he : PlainToml ext) {R : Nat → Rec} (hr : ∀ c, Out False anySt Free fun f => R f c)
    {name : Str} (hn : builtin? name ≠ some .symbol) (call : PNode) (ps : List PNode) :
    Out False anySt Free fun f => expandInvocation ext (R f) name call ps := by
  have hs := anySt_steady
  have hps : ∀ ps, Out False anySt Free fun f => expandNodes (R f) ps := fun ps => nodes_out fun n _ => hr _
  have htriv : ∀ {α : Type} (m : M α), OutC False anySt (fun _ => True) m := anySt_trivial
  simp only [expandInvocation]
  rcases hb : builtin? name with _ | b
  · refine (hps ps).bind fun vs hv => ?_
    refine (Out.const (htriv (M.lookup name))).bind fun m _ => ?_
    cases m with
    | none => exact Out.const OutC.fail
    | some m => exact Out.inner hs ((Out.const (htriv _)).bind fun _ _ => hps _)
  · have hsym : b ≠ .symbol := fun h => hn (by rw [hb, h])
    by_cases hsc : b ∈ selfContained
    · exact eager_out hs he hsc (hps ps)
    · cases b with
      | define => exact define_out hs (fun _ _ _ => hps _) fun _ _ _ _ _ _ _ _ _ => trivial
      | match_ => exact matching_out hs (fun _ _ => hr _) fun _ _ _ _ _ _ => ⟨hr _, hps _⟩
      | ifdef => exact ifdef_out fun _ _ => hr _
      | include_ => exact include_out hs (hps _) (fun _ _ _ _ _ _ _ _ _ _ => hps _) fun _ _ _ _ _ h => h.elim
      | namespace_ => exact namespace_out hs (fun _ _ _ _ _ => trivial) (hps _)
      | for_ => exact for_out hs fun p _ => ⟨fun _ _ _ _ => htriv _, fun _ _ => hps _, hps _⟩
      | sort => exact sort_out (V := MacroFree) (fun _ h => h) (hps _) fun _ _ _ _ => hr _
      | map =>
        exact (hps ps).bind fun vs hv => (Out.const (arguments_out hv)).bind fun args ha =>
          (Out.const (OutC.lift (posNode_fine 1))).bind fun k _ => mapLoop_out (fun _ _ => hr _) ha.trailing
      | filter =>
        exact (hps ps).bind fun vs hv => (Out.const (arguments_out hv)).bind fun args ha =>
          (Out.const (OutC.lift (posNode_fine 1))).bind fun k _ => filterLoop_out (fun _ _ => hr _) ha.trailing
      | apply =>
        exact (hps ps).bind fun vs hv => (Out.const (arguments_out hv)).bind fun args ha =>
          (Out.const (OutC.lift (posNode_fine 1))).bind fun k _ => hr _
      | lambda =>
        refine Out.const ((lambda_out fun _ _ _ _ _ _ _ _ => trivial).mono fun ns h => ?_)
        rw [h]
        refine free_one (.symbol _ fun name h => ?_)
        simp [callNode, lambdaName] at h
      | symbol => exact absurd rfl hsym
      | _ => exact absurd (by simp [selfContained]) hsc

theorem symbolMacro_free {R : Nat → Rec} {call : PNode} {ps : List PNode} {F : List PNode → Prop}
    (hF : ∀ ns : List Node, F (ns.map .symbol)) (hr : Out False anySt Free fun f => expandNodes (R f) ps) :
    Out False anySt F fun f => symbolMacro (R f) call ps :=
  hr.eager fun _ hv => OutC.bind (arguments_out hv) fun _ _ => OutC.bind (OutC.lift restNodes_fine) fun ns _ => OutC.pure (hF ns)

theorem expandNode_free {R : Nat → Rec} (hr : ∀ c, Out False anySt Free fun f => R f c) (n : PNode) :
    Out False anySt Free fun f => expandNode (R f) n := by
  cases n with
  | symbol a =>
    simp only [expandNode]
    rcases hm : macroName? a.value with _ | name
    · refine Out.const (OutC.pure (free_one (.symbol _ fun name h => ?_)))
      rw [h] at hm
      simp [macroName?] at hm
    · refine (Out.const (anySt_trivial (M.lookup name))).bind fun m _ => ?_
      cases m with
      | none => exact Out.const OutC.fail
      | some m =>
        dsimp only
        by_cases he : m.params.isEmpty = true
        · simp only [he, if_true]
          exact (nodes_out fun n _ => hr _).eager fun _ h => OutC.pure (h.firstLw _)
        · simp only [he, if_false, Bool.false_eq_true]
          exact Out.const OutC.fail
  | list ns s e w =>
    cases ns with
    | nil => exact Out.const (OutC.pure (free_one (free_list free_nil)))
    | cons h t =>
      simp only [expandNode]
      rcases h.symbol?.bind (fun a => macroName? a.value) with _ | name
      · exact (nodes_out fun n _ => hr _).eager fun _ h => OutC.pure (free_one (free_list h))
      · exact hr _
  | attr k v s w =>
    refine (hr (.node v)).eager fun ns h => ?_
    cases ns with
    | nil => exact OutC.panic
    | cons n rest => exact OutC.pure (free_cons (.attr _ _ _ _ h.head) h.tail)
  | number a => exact Out.const (OutC.pure (free_one (.number _)))
  | string a => exact Out.const (OutC.pure (free_one (.string _)))
  | raw a => exact Out.const (OutC.pure (free_one (.raw _)))

theorem plainRun_free {ext : Ext} (he : PlainToml ext) : ∀ (fuel : Nat) (c : Call),
    Out False anySt Free fun _ => plainRun ext fuel c
  | 0, _ => Out.const (OutC.lift id)
  | fuel + 1, c => by
    have ih := plainRun_free he fuel
    cases c with
    | node n => exact expandNode_free (R := fun _ => plainRun ext fuel) ih n
    | invoke name call ps =>
      show Out False anySt Free fun _ => (do
        let ns ← expandInvocation ext (plainRun ext fuel) name call ps
        if builtin? name = some .symbol ∧ noMacroName ns = false then M.lift .diverge else pure ns)
      by_cases hn : builtin? name = some .symbol
      · have heq : expandInvocation ext (plainRun ext fuel) name call ps = symbolMacro (plainRun ext fuel) call ps := by
          simp only [expandInvocation, hn, runBuiltin]
        rw [heq]
        refine (symbolMacro_free (R := fun _ => plainRun ext fuel) (F := fun ns => noMacroName ns = true → Free ns)
          (fun ns h => noMacroName_free h) (nodes_out fun n _ => ih _)).eager fun ns h => ?_
        split
        · exact OutC.lift id
        · rename_i hc
          refine OutC.pure (h ?_)
          by_cases hm : noMacroName ns = true
          · exact hm
          · exact absurd ⟨hn, by simpa using hm⟩ hc
      · refine (expandInvocation_free (R := fun _ => plainRun ext fuel) he ih hn call ps).eager fun ns h => ?_
        rw [if_neg fun hc => hn hc.1]
        exact OutC.pure h

theorem plainEvals_free {ext : Ext} (he : PlainToml ext) {ns out : List PNode} {s t : St} (h : PlainEvals ext ns s (.ok out) t) :
    MacrosFree out := by
  obtain ⟨_, f, hf⟩ := h
  have := (nodes_out (d := False) (J := anySt) (R := fun _ => plainRun ext f) (ns := ns) fun n _ => plainRun_free he f _) s trivial
  have h1 := this.1 0
  have h2 : Fine False anySt Free (expandNodes (plainRun ext f) ns s) := h1
  rw [hf] at h2
  exact free_iff.2 h2.1

theorem plainRun_le {ext : Ext} : ∀ (fuel : Nat), LeRec (plainRun ext fuel) (run ext fuel)
  | 0 => fun _ _ => Or.inl rfl
  | fuel + 1 => by
    intro c
    have ih := step_le (ext := ext) (plainRun_le (ext := ext) fuel)
    cases c with
    | node n => exact ih (.node n)
    | invoke name call ps =>
      intro s
      show (((step ext (plainRun ext fuel) (.invoke name call ps)) >>= fun ns =>
        if builtin? name = some .symbol ∧ noMacroName ns = false then M.lift .diverge else pure ns) s).1 = .diverge ∨ _
      rcases ih (.invoke name call ps) s with h | h
      · left
        rw [M.bind_def]
        rcases hx : step ext (plainRun ext fuel) (.invoke name call ps) s with ⟨r, t⟩
        rw [hx] at h
        cases h
        rfl
      · rcases hx : step ext (plainRun ext fuel) (.invoke name call ps) s with ⟨r, t⟩
        show _ ∨ ((step ext (plainRun ext fuel) (.invoke name call ps)) >>= _) s = step ext (run ext fuel) (.invoke name call ps) s
        rw [← h, hx, M.bind_def, hx]
        cases r with
        | ok ns =>
          dsimp only
          split
          · exact Or.inl rfl
          · exact Or.inr rfl
        | _ => exact Or.inr rfl

theorem plainEvals_evals {ext : Ext} {ns : List PNode} {s t : St} {r : Res (List PNode)} (h : PlainEvals ext ns s r t) :
    Evals ext ns s r t := by
  obtain ⟨hr, f, hf⟩ := h
  refine ⟨hr, f, ?_⟩
  rcases expandNodes_le (plainRun_le (ext := ext) f) ns s with h1 | h1
  · rw [hf] at h1; exact absurd h1 hr
  · rw [← h1, hf]

end Seam
