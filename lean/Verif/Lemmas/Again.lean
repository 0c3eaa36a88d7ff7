import Verif.Spec.Again
import Verif.Lemmas.Lists
import Verif.Lemmas.Tree

/-! Expanding the S-expression output again. -/

namespace Seam
open Spec

mutual
theorem sexp_rawCalls (dbg : Str → Str) : ∀ n, sexpNode dbg (rawCalls n) = sexpNode dbg n
  | .symbol _ => rfl
  | .number _ => rfl
  | .string _ => rfl
  | .raw n => by simp [rawCalls, sexpNode, sexpNodes]
  | .list ns s e w => by simp only [rawCalls, sexpNode, sexp_rawCallss dbg ns]
  | .attr k n s w => by simp only [rawCalls, sexpNode, sexp_rawCalls dbg n]
theorem sexp_rawCallss (dbg : Str → Str) : ∀ ns, sexpNodes dbg (rawCallss ns) = sexpNodes dbg ns
  | [] => rfl
  | n :: ns => by simp only [rawCallss, sexpNodes, sexp_rawCalls dbg n, sexp_rawCallss dbg ns]
end

mutual
theorem sexp_same (dbg : Str → Str) : ∀ {n m : PNode}, SameNode n m → sexpNode dbg n = sexpNode dbg m
  | .symbol _, m, h => by cases m <;> simp_all [SameNode, sexpNode]
  | .number _, m, h => by cases m <;> simp_all [SameNode, sexpNode]
  | .string _, m, h => by cases m <;> simp_all [SameNode, sexpNode]
  | .raw _, m, h => by cases m <;> simp_all [SameNode, sexpNode]
  | .list ns _ _ _, m, h => by
    cases m with
    | list ms _ _ _ => simp only [SameNode] at h; simp only [sexpNode, sexp_sames dbg h.1, h.2.1, h.2.2]
    | _ => simp [SameNode] at h
  | .attr _ n _ _, m, h => by
    cases m with
    | attr _ m _ _ => simp only [SameNode] at h; simp only [sexpNode, sexp_same dbg h.2.1, h.1, h.2.2]
    | _ => simp [SameNode] at h
theorem sexp_sames (dbg : Str → Str) : ∀ {ns ms : List PNode}, SameNodes ns ms → sexpNodes dbg ns = sexpNodes dbg ms
  | [], ms, h => by cases ms <;> simp_all [SameNodes]
  | n :: ns, ms, h => by
    cases ms with
    | nil => simp [SameNodes] at h
    | cons m ms => simp only [SameNodes] at h; simp only [sexpNodes, sexp_same dbg h.1, sexp_sames dbg h.2]
end

/-- A node read from the call of `%raw` gives the raw text. -/
theorem rawCall_evals (ext : Ext) (a : Node) {m : PNode} (h : SameNode (rawCalls (.raw a)) m) (s : St) :
    ∃ n', Evals ext [m] s (.ok [n']) s ∧ SameNode (.raw a) n' := by
  cases m with
  | list ms si e w =>
    simp only [rawCalls, SameNode] at h
    obtain ⟨h1, _, h3⟩ := h
    rcases ms with _ | ⟨m1, _ | ⟨m2, _ | ⟨m3, ms⟩⟩⟩ <;> simp only [SameNodes, and_false] at h1
    obtain ⟨h1, h2, -⟩ := h1
    cases m1 with
    | symbol m1 =>
      cases m2 with
      | string m2 =>
        simp only [SameNode] at h1 h2
        have hc : IsCall (str! "raw") [.string { m2 with lw := [] }] (.list [.symbol m1, .string m2] si e w) :=
          .mk _ _ _ _ _ h1.1.symm (by simp [dropFirstBlank, PNode.lw, ← h2.2, PNode.setLw])
        have hv : Evals ext [.string { m2 with lw := [] }] s (.ok [.string { m2 with lw := [] }]) s :=
          macrosFree_evals ext _ (.cons _ _ (.string _) .nil) s
        refine ⟨_, (evals_raw_macro hc).2 ⟨_, hv, rfl⟩, ?_⟩
        simp only [SameNode]
        exact ⟨by simp [h2.1], h3⟩
      | _ => simp [SameNode] at h2
    | _ => simp [SameNode] at h1
  | _ => simp [rawCalls, SameNode] at h

mutual
theorem again_node (ext : Ext) : ∀ (n : PNode), MacroFree n → ∀ {m : PNode}, SameNode (rawCalls n) m → ∀ s,
    ∃ n', Evals ext [m] s (.ok [n']) s ∧ SameNode n n'
  | .symbol a, h, m, hm, s => by
    cases h with
    | symbol _ h =>
      cases m with
      | symbol b =>
        refine ⟨_, macrosFree_evals ext _ (.cons _ _ (.symbol _ ?_) .nil) s, hm⟩
        simp only [rawCalls, SameNode] at hm
        rw [← hm.1]; exact h
      | _ => simp [rawCalls, SameNode] at hm
  | .number a, h, m, hm, s => by
    cases m with
    | number b => exact ⟨_, macrosFree_evals ext _ (.cons _ _ (.number _) .nil) s, hm⟩
    | _ => simp [rawCalls, SameNode] at hm
  | .string a, h, m, hm, s => by
    cases m with
    | string b => exact ⟨_, macrosFree_evals ext _ (.cons _ _ (.string _) .nil) s, hm⟩
    | _ => simp [rawCalls, SameNode] at hm
  | .raw a, _, m, hm, s => rawCall_evals ext a hm s
  | .list ns si e w, h, m, hm, s => by
    cases h with
    | list _ _ _ _ h =>
      cases m with
      | list ms si' e' w' =>
        simp only [rawCalls, SameNode] at hm
        obtain ⟨ns', h1, h2⟩ := again_nodes ext ns h hm.1 s
        refine ⟨_, evals_list ?_ h1 si' e' w', by simp only [SameNode]; exact ⟨h2, hm.2⟩⟩
        intro a rest name hms
        subst hms
        cases ns with
        | nil => simp [rawCallss, SameNodes] at hm
        | cons n ns =>
          simp only [rawCallss, SameNodes] at hm
          cases h with
          | cons _ _ h _ =>
            cases h with
            | symbol b hb =>
              have := hm.1.1
              simp only [rawCalls, SameNode] at this
              rw [← this.1]; exact hb name
            | _ => simp [rawCalls, SameNode] at hm
      | _ => simp [rawCalls, SameNode] at hm
  | .attr k n si w, h, m, hm, s => by
    cases h with
    | attr _ _ _ _ h =>
      cases m with
      | attr k' m si' w' =>
        simp only [rawCalls, SameNode] at hm
        obtain ⟨n', h1, h2⟩ := again_node ext n h hm.2.1 s
        exact ⟨_, evals_attr h1 k' si' w', by simp only [SameNode]; exact ⟨hm.1, h2, hm.2.2⟩⟩
      | _ => simp [rawCalls, SameNode] at hm
theorem again_nodes (ext : Ext) : ∀ (ns : List PNode), MacrosFree ns → ∀ {ms : List PNode}, SameNodes (rawCallss ns) ms → ∀ s,
    ∃ ns', Evals ext ms s (.ok ns') s ∧ SameNodes ns ns'
  | [], _, ms, hm, s => by
    cases ms with
    | nil => exact ⟨[], .nil ext s, by simp [SameNodes]⟩
    | cons => simp [rawCallss, SameNodes] at hm
  | n :: ns, h, ms, hm, s => by
    cases h with
    | cons _ _ h1 h2 =>
      cases ms with
      | nil => simp [rawCallss, SameNodes] at hm
      | cons m ms =>
        simp only [rawCallss, SameNodes] at hm
        obtain ⟨n', a1, a2⟩ := again_node ext n h1 hm.1 s
        obtain ⟨ns', b1, b2⟩ := again_nodes ext ns h2 hm.2 s
        exact ⟨n' :: ns', a1.cons b1, by simp only [SameNodes]; exact ⟨a2, b2⟩⟩
end

end Seam
