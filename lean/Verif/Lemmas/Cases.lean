import Verif.Lemmas.EvalCheck
import Verif.Spec.Bind
import Verif.Spec.Builtins

/-! Concrete cases of the hypotheses of theorems about the expander, checked by the kernel. -/

namespace Seam
open Spec

mutual
/-- Decides `MacroFree`. -/
def freeNode : PNode → Bool
  | .symbol a => a.value.head? != some '%'
  | .number _ => true
  | .string _ => true
  | .raw _ => true
  | .list ns _ _ _ => freeNodes ns
  | .attr _ n _ _ => freeNode n
/-- Decides `MacrosFree`. -/
def freeNodes : List PNode → Bool
  | [] => true
  | n :: ns => freeNode n && freeNodes ns
end

mutual
theorem freeNode_sound : ∀ n, freeNode n = true → MacroFree n
  | .symbol a, h => .symbol _ (by
    intro name hn
    simp [freeNode, hn] at h)
  | .number _, _ => .number _
  | .string _, _ => .string _
  | .raw _, _ => .raw _
  | .list ns _ _ _, h => .list _ _ _ _ (freeNodes_sound ns h)
  | .attr _ n _ _, h => .attr _ _ _ _ (freeNode_sound n h)
theorem freeNodes_sound : ∀ ns, freeNodes ns = true → MacrosFree ns
  | [], _ => .nil
  | n :: ns, h => by
    simp only [freeNodes, Bool.and_eq_true] at h
    exact .cons _ _ (freeNode_sound n h.1) (freeNodes_sound ns h.2)
end

/-- Nodes without macros expand to themselves. -/
theorem plain_evals (ext : Ext) (ns : List PNode) (s : St) (h : freeNodes ns = true) : Evals ext ns s (.ok ns) s :=
  macrosFree_evals ext ns (freeNodes_sound ns h) s

/-- A finished run, with the state after it. -/
theorem ran_ok {ext : Ext} {ns out : List PNode} {s : St} (fuel : Nat)
    (h : (expandNodes (run ext fuel) ns s).1.okP (PNode.sames · out) = true) :
    Evals ext ns s (.ok out) (expandNodes (run ext fuel) ns s).2 := by
  obtain ⟨a, h1, h2⟩ := Res.okP_elim h
  have := PNode.sames_sound _ _ h2
  subst this
  exact ⟨by simp, fuel, Prod.ext h1 rfl⟩

/-- No node is a named argument. -/
theorem no_named (vs : List PNode) (h : (vs.all fun v => v.attribute?.isNone) = true) : NoNamed vs := by
  intro v hv
  simpa using List.all_eq_true.1 h v hv

/-- The arguments contain no named one, so that all named ones are as required. -/
theorem no_namedArgs {ok : Str → PNode → Prop} (vs : List PNode) (h : (vs.all fun v => v.attribute?.isNone) = true) :
    NamedArgs ok vs := by
  intro k v s w hv
  have := List.all_eq_true.1 h _ hv
  simp [PNode.attribute?] at this

/-- The arguments contain one named one, which is as required. -/
theorem one_namedArg {ok : Str → PNode → Prop} (vs : List PNode) (k : Str) (v : PNode)
    (hv : vs.filterMap PNode.attribute? = [(k, v)]) (h : ok k v) : NamedArgs ok vs := by
  intro k' v' s w hm
  have : (k', v') ∈ vs.filterMap PNode.attribute? := List.mem_filterMap.2 ⟨_, hm, rfl⟩
  rw [hv] at this
  simp at this
  rw [this.1, this.2]
  exact h

end Seam
