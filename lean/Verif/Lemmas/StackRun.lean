import Verif.Lemmas.StackOut
import Verif.Lemmas.Eval
import Verif.Props.Tree

/-! The expander on trees without macros, and deep sources. -/

namespace Seam
open Spec Stacked

theorem run_atom (ext : Ext) (d : Nat) {n : PNode} (s : St) (h : expandNode (run ext d) n s = (.ok [n], s)) :
    run ext (d + 1) (.node n) s = (.ok [n], s) := h

mutual
theorem run_macroFree (ext : Ext) : ∀ (n : PNode), MacroFree n → ∀ d s,
    run ext d (.node n) s = if nesting n ≤ d then (.ok [n], s) else (.diverge, s)
  | n, _, 0, s => by
    rw [if_neg (by cases n <;> simp [nesting])]
    rfl
  | .symbol a, h, d + 1, s => by
    rw [if_pos (by simp [nesting])]
    cases h with
    | symbol _ h =>
      have := macroName?_none h
      simp only [run, step, expandNode, this]
      rfl
  | .number a, _, d + 1, s => by rw [if_pos (by simp [nesting])]; rfl
  | .string a, _, d + 1, s => by rw [if_pos (by simp [nesting])]; rfl
  | .raw a, _, d + 1, s => by rw [if_pos (by simp [nesting])]; rfl
  | .list ns si e w, h, d + 1, s => by
    cases h with
    | list _ _ _ _ h =>
      have hp : PlainHead ns := by
        intro a t name hn
        subst hn
        cases h with
        | cons _ _ h _ =>
          cases h with
          | symbol _ h => exact h name
      simp only [run, step]
      rw [expandNode_list hp]
      have ih := run_macrosFree ext ns h d s
      by_cases hd : nestings ns ≤ d
      · rw [if_pos hd] at ih
        rw [if_pos (by simp only [nesting]; omega), M.bind_ok ih]
        rfl
      · rw [if_neg hd] at ih
        rw [if_neg (by simp only [nesting]; omega), M.bind_def, ih]
  | .attr k n si w, h, d + 1, s => by
    cases h with
    | attr _ _ _ _ h =>
      have ih := run_macroFree ext n h d s
      simp only [run, step, expandNode]
      by_cases hd : nesting n ≤ d
      · rw [if_pos hd] at ih
        rw [if_pos (by simp only [nesting]; omega), M.bind_ok ih]
        rfl
      · rw [if_neg hd] at ih
        rw [if_neg (by simp only [nesting]; omega), M.bind_def, ih]
theorem run_macrosFree (ext : Ext) : ∀ (ns : List PNode), MacrosFree ns → ∀ d s,
    expandNodes (run ext d) ns s = if nestings ns ≤ d then (.ok ns, s) else (.diverge, s)
  | [], _, d, s => by rw [if_pos (by simp [nestings])]; rfl
  | n :: ns, h, d, s => by
    cases h with
    | cons _ _ h h' =>
      have i1 := run_macroFree ext n h d s
      have i2 := run_macrosFree ext ns h' d s
      simp only [expandNodes]
      by_cases h1 : nesting n ≤ d
      · rw [if_pos h1] at i1
        rw [M.bind_ok i1]
        by_cases h2 : nestings ns ≤ d
        · rw [if_pos h2] at i2
          rw [if_pos (by simp only [nestings]; omega), M.bind_ok i2]
          rfl
        · rw [if_neg h2] at i2
          rw [if_neg (by simp only [nestings]; omega), M.bind_def, i2]
      · rw [if_neg h1] at i1
        rw [if_neg (by simp only [nestings]; omega), M.bind_def, i1]
end

mutual
theorem sameNode_nesting : ∀ a b : PNode, SameNode a b → nesting a = nesting b
  | .symbol _, .symbol _, _ => rfl
  | .number _, .number _, _ => rfl
  | .string _, .string _, _ => rfl
  | .raw _, .raw _, _ => rfl
  | .list as _ _ _, .list bs _ _ _, h => by
    simp only [SameNode] at h
    simp only [nesting, sameNodes_nestings as bs h.1]
  | .attr _ a _ _, .attr _ b _ _, h => by
    simp only [SameNode] at h
    simp only [nesting, sameNode_nesting a b (by simp_all)]
  | .symbol _, .number _, h => by simp [SameNode] at h
  | .symbol _, .string _, h => by simp [SameNode] at h
  | .symbol _, .raw _, h => by simp [SameNode] at h
  | .symbol _, .list .., h => by simp [SameNode] at h
  | .symbol _, .attr .., h => by simp [SameNode] at h
  | .number _, .symbol _, h => by simp [SameNode] at h
  | .number _, .string _, h => by simp [SameNode] at h
  | .number _, .raw _, h => by simp [SameNode] at h
  | .number _, .list .., h => by simp [SameNode] at h
  | .number _, .attr .., h => by simp [SameNode] at h
  | .string _, .symbol _, h => by simp [SameNode] at h
  | .string _, .number _, h => by simp [SameNode] at h
  | .string _, .raw _, h => by simp [SameNode] at h
  | .string _, .list .., h => by simp [SameNode] at h
  | .string _, .attr .., h => by simp [SameNode] at h
  | .raw _, .symbol _, h => by simp [SameNode] at h
  | .raw _, .number _, h => by simp [SameNode] at h
  | .raw _, .string _, h => by simp [SameNode] at h
  | .raw _, .list .., h => by simp [SameNode] at h
  | .raw _, .attr .., h => by simp [SameNode] at h
  | .list .., .symbol _, h => by simp [SameNode] at h
  | .list .., .number _, h => by simp [SameNode] at h
  | .list .., .string _, h => by simp [SameNode] at h
  | .list .., .raw _, h => by simp [SameNode] at h
  | .list .., .attr .., h => by simp [SameNode] at h
  | .attr .., .symbol _, h => by simp [SameNode] at h
  | .attr .., .number _, h => by simp [SameNode] at h
  | .attr .., .string _, h => by simp [SameNode] at h
  | .attr .., .raw _, h => by simp [SameNode] at h
  | .attr .., .list .., h => by simp [SameNode] at h
theorem sameNodes_nestings : ∀ as bs : List PNode, SameNodes as bs → nestings as = nestings bs
  | [], [], _ => rfl
  | [], _ :: _, h => by simp [SameNodes] at h
  | _ :: _, [], h => by simp [SameNodes] at h
  | a :: as, b :: bs, h => by
    simp only [SameNodes] at h
    simp only [nestings, sameNode_nesting a b h.1, sameNodes_nestings as bs h.2]
end

/-- `k + 1` lists in each other. -/
def deepList : Nat → PNode
  | 0 => .list [] default { kind := .rparen, value := [')'], lw := [], site := default } []
  | k + 1 => .list [deepList k] default { kind := .rparen, value := [')'], lw := [], site := default } []

theorem deepList_nesting : ∀ k, nesting (deepList k) = k + 1
  | 0 => rfl
  | k + 1 => by simp only [deepList, nesting, nestings, deepList_nesting k]; omega

theorem blanks_nil : Blanks [] := by intro c hc; cases hc

theorem deepList_printable (u : Unescape) (dbg : Str → Str) : ∀ k, Printable u dbg (deepList k)
  | 0 => .list _ _ _ _ blanks_nil blanks_nil .nil
  | k + 1 => .list _ _ _ _ blanks_nil blanks_nil (.one _ (deepList_printable u dbg k))

theorem deepList_text (dbg : Str → Str) : ∀ k, sexpNode dbg (deepList k) = List.replicate (k + 1) '(' ++ List.replicate (k + 1) ')'
  | 0 => rfl
  | k + 1 => by
    simp only [deepList, sexpNode, sexpNodes, deepList_text dbg k, List.append_nil, List.nil_append]
    rw [List.replicate_succ (n := k + 1), List.replicate_succ' (n := k + 1) (a := ')')]
    simp

/-- `k` keywords in a row with a symbol behind them. -/
def deepAttr : Nat → PNode
  | 0 => .symbol ⟨['x'], default, [' ']⟩
  | k + 1 => .attr ['a'] (deepAttr k) default [' ']

theorem deepAttr_nesting : ∀ k, nesting (deepAttr k) = k + 1
  | 0 => rfl
  | k + 1 => by simp only [deepAttr, nesting, deepAttr_nesting k]

theorem deepAttr_printable (u : Unescape) (dbg : Str → Str) : ∀ k, Printable u dbg (deepAttr k)
  | 0 => .symbol _ (by intro c hc; simp at hc; subst hc; rfl) ⟨rfl, by intro c hc; simp at hc; subst hc; rfl⟩
  | k + 1 => .attr _ _ _ _ (by intro c hc; simp at hc; subst hc; rfl) (by intro c hc; simp at hc; subst hc; rfl)
      (deepAttr_printable u dbg k) (by cases k <;> simp [deepAttr, PNode.lw])

theorem deepAttr_text (dbg : Str → Str) : ∀ k, sexpNode dbg (deepAttr k) = (List.replicate k (str! " :a")).flatten ++ str! " x"
  | 0 => rfl
  | k + 1 => by
    simp only [deepAttr, sexpNode, deepAttr_text dbg k, List.replicate_succ, List.flatten_cons]
    rfl

/-- A tree that can be printed needs as many levels to be read as it is deep. -/
theorem printable_overflows (u : Unescape) (dbg : Str → Str) (n : PNode) (h : Printable u dbg n) (levels : Nat) (hl : levels < nesting n)
    (path : Str) (id : Nat) : ∃ ns, parse u { path := path, id := id, code := sexpNode dbg n } = .ok ns ∧
      parseIn u levels { path := path, id := id, code := sexpNode dbg n } = overflow := by
  obtain ⟨ns, h1, h2⟩ := C14_sexp_reads_back u dbg [n] (.one _ h) path id
  have ht : sexpNodes dbg [n] = sexpNode dbg n := by simp only [sexpNodes, List.append_nil]
  rw [ht] at h1
  refine ⟨ns, h1, ?_⟩
  have h3 := sameNodes_nestings _ _ h2
  simp only [nestings] at h3
  unfold parseIn
  unfold parse at h1
  rw [root_needs u _ levels _ ns h1, needs, if_neg (by omega)]

end Seam
