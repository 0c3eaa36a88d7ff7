import Verif.Lemmas.Eval

/-! Macros that expand their arguments and then compute something from them. -/

namespace Seam
open Spec

theorem M.lift_bind_lift {α β : Type} (r : Res α) (f : α → Res β) :
    (M.lift r >>= fun a => M.lift (f a)) = M.lift (r >>= f) := by
  funext s
  cases r <;> rfl

theorem M.pure_lift {α : Type} (a : α) : (Pure.pure a : M α) = M.lift (.ok a) := rfl
theorem M.fail_lift {α : Type} (msg : String) (site : Site) : (M.fail msg site : M α) = M.lift (.err (expErr msg site)) := rfl
theorem M.panic_lift {α : Type} : (M.panic : M α) = M.lift .panic := rfl

theorem M.bind_lift {α β : Type} (m : M α) (g : α → Res β) (s : St) :
    (m >>= fun a => M.lift (g a)) s = ((m s).1 >>= g, (m s).2) := by
  rw [M.bind_def]
  rcases m s with ⟨r, t⟩
  cases r <;> rfl

theorem Res.bind_ne_diverge {α β : Type} {r : Res α} {g : α → Res β} (hr : r ≠ .diverge) (hg : ∀ a, g a ≠ .diverge) :
    (r >>= g) ≠ .diverge := by
  cases r with
  | ok a => exact hg a
  | diverge => exact absurd rfl hr
  | _ => simp

theorem run_builtin {ext : Ext} {name : Str} {b : Builtin} (hb : builtin? name = some b) (f : Nat) (c : PNode)
    (args : List PNode) : run ext (f + 1) (.invoke name c args) = runBuiltin ext (run ext f) b c args := by
  simp only [run, step, expandInvocation, hb]

/-- Expanding nodes and computing something from the result. -/
theorem evals_then {ext : Ext} {ns : List PNode} {g : List PNode → Res (List PNode)} (hg : ∀ as, g as ≠ .diverge)
    {s t : St} {r : Res (List PNode)} :
    (r ≠ .diverge ∧ ∃ f, (expandNodes (run ext f) ns >>= fun as => M.lift (g as)) s = (r, t)) ↔
    ∃ r0, Evals ext ns s r0 t ∧ r = (r0 >>= g) := by
  constructor
  · rintro ⟨hr, f, hf⟩
    rw [M.bind_lift] at hf
    obtain ⟨rfl, rfl⟩ := Prod.mk.inj hf
    refine ⟨_, ⟨?_, f, rfl⟩, rfl⟩
    intro hd
    rw [hd] at hr
    exact hr rfl
  · rintro ⟨r0, ⟨hr, f, hf⟩, rfl⟩
    refine ⟨Res.bind_ne_diverge hr hg, f, ?_⟩
    rw [M.bind_lift, hf]

/-- A built-in macro that expands its arguments and computes its result from them. -/
theorem evals_macro {ext : Ext} {name : Str} {args ns : List PNode} {c : PNode} (hc : IsCall name args c)
    {b : Builtin} (hb : builtin? name = some b) {g : List PNode → Res (List PNode)} (hg : ∀ as, g as ≠ .diverge)
    (h : ∀ rec, runBuiltin ext rec b c args = (expandNodes rec ns >>= fun as => M.lift (g as)))
    {s t : St} {r : Res (List PNode)} :
    Evals ext [c] s r t ↔ ∃ r0, Evals ext ns s r0 t ∧ r = (r0 >>= g) := by
  rw [← evals_then hg]
  constructor
  · intro he
    obtain ⟨f, hf⟩ := evals_builtin_inv hc hb he
    rw [h] at hf
    exact ⟨he.1, f, hf⟩
  · rintro ⟨hr, f, hf⟩
    rw [evals_call hc]
    refine ⟨hr, f + 1, ?_⟩
    rw [run_builtin hb, h]
    exact hf

/-- A node that is not a call. -/
theorem evals_plain {ext : Ext} {n : PNode} {ns : List PNode} {g : List PNode → Res (List PNode)}
    (hg : ∀ as, g as ≠ .diverge)
    (h : ∀ rec, expandNode rec n = (expandNodes rec ns >>= fun as => M.lift (g as)))
    {s t : St} {r : Res (List PNode)} :
    Evals ext [n] s r t ↔ ∃ r0, Evals ext ns s r0 t ∧ r = (r0 >>= g) := by
  rw [← evals_then hg]
  constructor
  · intro he
    obtain ⟨f, hf⟩ := evals_node_inv he
    rw [h] at hf
    exact ⟨he.1, f, hf⟩
  · rintro ⟨hr, f, hf⟩
    refine ⟨hr, f + 1, ?_⟩
    rw [expandNodes_one]
    show expandNode (run ext f) n s = _
    rw [h]
    exact hf

/-- A built-in macro without any expansion of its own. -/
theorem evals_const {ext : Ext} {name : Str} {args : List PNode} {c : PNode} (hc : IsCall name args c)
    {b : Builtin} (hb : builtin? name = some b) {s u : St} {r0 : Res (List PNode)} (hr0 : r0 ≠ .diverge)
    (h : ∀ rec, runBuiltin ext rec b c args s = (r0, u))
    {t : St} {r : Res (List PNode)} : Evals ext [c] s r t ↔ r = r0 ∧ t = u := by
  have he : Evals ext [c] s r0 u := evals_builtin hc hb hr0 (Ev.of fun f => h _)
  constructor
  · intro h'
    exact h'.unique he
  · rintro ⟨rfl, rfl⟩
    exact he

/-- A built-in macro that behaves as the expansion of some nodes, in the same scope. -/
theorem evals_as {ext : Ext} {name : Str} {args ns : List PNode} {c : PNode} (hc : IsCall name args c)
    {b : Builtin} (hb : builtin? name = some b) {s t : St}
    (h : ∀ rec, runBuiltin ext rec b c args s = expandNodes rec ns s)
    {r : Res (List PNode)} : Evals ext [c] s r t ↔ Evals ext ns s r t := by
  constructor
  · intro he
    obtain ⟨f, hf⟩ := evals_builtin_inv hc hb he
    rw [h] at hf
    exact ⟨he.1, f, hf⟩
  · rintro ⟨hr, f, hf⟩
    rw [evals_call hc]
    refine ⟨hr, f + 1, ?_⟩
    rw [run_builtin hb, h]
    exact hf

theorem evals_ifdef_node {ext : Ext} {args : List PNode} {c n : PNode} (hc : IsCall (str! "ifdef") args c) {s : St}
    (h : ∀ rec, ifdefMacro rec c args s = (rec (.node n) >>= fun ns => pure (withFirstLw c.lw ns)) s)
    {t : St} {r : Res (List PNode)} :
    Evals ext [c] s r t ↔ ∃ r0, Evals ext [n] s r0 t ∧ r = spacedRes c.lw r0 := by
  have key := evals_then (ext := ext) (ns := [n]) (g := fun ns => .ok (firstSpaced c.lw ns)) (by simp) (s := s) (t := t) (r := r)
  have hsp : ∀ r0 : Res (List PNode), spacedRes c.lw r0 = (r0 >>= fun ns => .ok (firstSpaced c.lw ns)) := by intro r0; cases r0 <;> rfl
  simp only [hsp]
  refine Iff.trans ?_ key
  have h' : ∀ rec, ifdefMacro rec c args s = (expandNodes rec [n] >>= fun as => M.lift (.ok (firstSpaced c.lw as))) s := by
    intro rec
    rw [h, expandNodes_one]
    simp only [withFirstLw_eq]
    rfl
  constructor
  · intro he
    obtain ⟨f, hf⟩ := evals_builtin_inv hc (b := .ifdef) rfl he
    exact ⟨he.1, f, (h' _).symm.trans hf⟩
  · rintro ⟨hr, f, hf⟩
    rw [evals_call hc]
    refine ⟨hr, f + 1, ?_⟩
    rw [run_builtin (b := .ifdef) rfl]
    exact (h' _).trans hf

theorem literal_atomic {n : PNode} {a : Node} (h : Literal n a) : n.atomic? = some a := by
  cases h <;> rfl

theorem literal_of_atomic {n : PNode} {a : Node} (h : n.atomic? = some a) : Literal n a := by
  cases n <;> simp [PNode.atomic?] at h <;> subst h
  · exact .symbol _
  · exact .number _
  · exact .string _
  · exact .raw _

theorem literal_iff {n : PNode} {a : Node} : Literal n a ↔ n.atomic? = some a :=
  ⟨literal_atomic, literal_of_atomic⟩

/-! ## %define -/

theorem evals_define {ext : Ext} {c : PNode} {v : Node} {body ms : List PNode} {s t : St}
    (hc : IsCall (str! "define") (.symbol v :: body) c) (hb : Evals ext body s (.ok ms) t) :
    Evals ext [c] s (.ok []) { t with scope := t.scope.insert v.value (Macro.var ms) } := by
  refine evals_builtin hc (b := .define) rfl (by simp) (hb.ev.mono fun f hf => ?_)
  show (expandNodes (run ext f) body >>= fun body => createMacro v.value [] body >>= fun _ => pure []) s = _
  rw [M.bind_ok hf]
  rfl

end Seam
