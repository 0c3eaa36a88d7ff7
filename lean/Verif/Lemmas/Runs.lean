import Verif.Lemmas.Call
import Verif.Lemmas.Args

/-! Computations that use the recursive calls of the expander, and when they finish. -/

namespace Seam
open Spec

/-- The computation `F`, which may call the expander, finishes. -/
def Runs {α : Type} (ext : Ext) (F : Rec → M α) (s : St) (r : Res α) (t : St) : Prop :=
  r ≠ .diverge ∧ ∃ f, F (run ext f) s = (r, t)

/-- More successful recursive calls change no outcome. -/
def Mon {α : Type} (F : Rec → M α) : Prop := ∀ rec rec', LeRec rec rec' → Le (F rec) (F rec')

theorem Mon.const {α : Type} (m : M α) : Mon fun _ => m := fun _ _ _ => Le.refl _
theorem Mon.nodes (ns : List PNode) : Mon fun rec => expandNodes rec ns := fun _ _ h => expandNodes_le h ns
theorem Mon.call (c : Call) : Mon fun rec => rec c := fun _ _ h => h c
theorem Mon.bind {α β : Type} {F : Rec → M α} {G : α → Rec → M β} (hF : Mon F) (hG : ∀ a, Mon (G a)) :
    Mon fun rec => F rec >>= fun a => G a rec := fun _ _ h => Le.bind (hF _ _ h) fun a => hG a _ _ h
theorem Mon.inner {α : Type} {F : Rec → M α} (hF : Mon F) : Mon fun rec => M.inner (F rec) :=
  fun _ _ h => Le.inner (hF _ _ h)
theorem Mon.rethrow {α : Type} {F : Rec → M α} (hF : Mon F) (msg : String) (site : Site) :
    Mon fun rec => Seam.rethrow msg site (F rec) := fun _ _ h => Le.rethrow (hF _ _ h)

theorem Mon.of_ge {α : Type} {ext : Ext} {F : Rec → M α} (hF : Mon F) {f g : Nat} (h : f ≤ g) {s t : St} {r : Res α}
    (hr : r ≠ .diverge) (h1 : F (run ext f) s = (r, t)) : F (run ext g) s = (r, t) := by
  obtain ⟨k, rfl⟩ := Nat.exists_eq_add_of_le h
  rcases hF _ _ (run_mono ext f k) s with h2 | h2
  · rw [h1] at h2; exact absurd h2 hr
  · rw [← h2, h1]

theorem Runs.ev {α : Type} {ext : Ext} {F : Rec → M α} (hF : Mon F) {s t : St} {r : Res α} (h : Runs ext F s r t) :
    Ev fun f => F (run ext f) s = (r, t) := by
  obtain ⟨hr, f, hf⟩ := h
  exact ⟨f, fun g hg => hF.of_ge hg hr hf⟩

/-- What follows an outcome: after a value the next computation, otherwise nothing. -/
def Then {α β : Type} (q : Res α) (u : St) (k : α → St → Res β → St → Prop) (r : Res β) (t : St) : Prop :=
  match q with
  | .ok a => k a u r t
  | .err e => r = .err e ∧ t = u
  | .panic => r = .panic ∧ t = u
  | .diverge => False

theorem runs_bind {α β : Type} {ext : Ext} {F : Rec → M α} {G : α → Rec → M β} (hF : Mon F) (hG : ∀ a, Mon (G a))
    {s t : St} {r : Res β} : Runs ext (fun rec => F rec >>= fun a => G a rec) s r t ↔
      ∃ q u, Runs ext F s q u ∧ Then q u (fun a => Runs ext (G a)) r t := by
  constructor
  · rintro ⟨hr, f, hf⟩
    rcases M.bind_cases hf with ⟨a, u, h1, h2⟩ | ⟨e, h1, rfl⟩ | ⟨h1, rfl⟩ | ⟨h1, rfl⟩
    · exact ⟨.ok a, u, ⟨by simp, f, h1⟩, hr, f, h2⟩
    · exact ⟨.err e, t, ⟨by simp, f, h1⟩, rfl, rfl⟩
    · exact ⟨.panic, t, ⟨by simp, f, h1⟩, rfl, rfl⟩
    · exact absurd rfl hr
  · rintro ⟨q, u, h1, h2⟩
    cases q with
    | ok a =>
      obtain ⟨f, hf⟩ := ((h1.ev hF).and (Runs.ev (hG a) h2)).pick
      refine ⟨h2.1, f, ?_⟩
      show (F (run ext f) >>= fun a => G a (run ext f)) s = _
      rw [M.bind_ok hf.1, hf.2]
    | err e =>
      obtain ⟨rfl, rfl⟩ := h2
      obtain ⟨_, f, hf⟩ := h1
      exact ⟨by simp, f, M.bind_err hf⟩
    | panic =>
      obtain ⟨rfl, rfl⟩ := h2
      obtain ⟨_, f, hf⟩ := h1
      exact ⟨by simp, f, M.bind_panic hf⟩
    | diverge => exact h2.elim

theorem runs_const {α : Type} {ext : Ext} {m : M α} {s t : St} {r : Res α} :
    Runs ext (fun _ => m) s r t ↔ r ≠ .diverge ∧ m s = (r, t) :=
  ⟨fun ⟨h, _, h'⟩ => ⟨h, h'⟩, fun ⟨h, h'⟩ => ⟨h, 0, h'⟩⟩

theorem runs_lift {α : Type} {ext : Ext} {q : Res α} (hq : q ≠ .diverge) {s t : St} {r : Res α} :
    Runs ext (fun _ => M.lift q) s r t ↔ r = q ∧ t = s := by
  rw [runs_const, M.lift_def]
  constructor
  · rintro ⟨_, h⟩
    obtain ⟨rfl, rfl⟩ := Prod.mk.inj h
    exact ⟨rfl, rfl⟩
  · rintro ⟨rfl, rfl⟩
    exact ⟨hq, rfl⟩

theorem runs_pure {α : Type} {ext : Ext} {a : α} {s t : St} {r : Res α} :
    Runs ext (fun _ => (pure a : M α)) s r t ↔ r = .ok a ∧ t = s := runs_lift (q := .ok a) (by simp)

theorem runs_fail {α : Type} {ext : Ext} {msg : String} {site : Site} {s t : St} {r : Res α} :
    Runs ext (fun _ => (M.fail msg site : M α)) s r t ↔ r = .err (expErr msg site) ∧ t = s := runs_lift (by simp)

theorem runs_panic {α : Type} {ext : Ext} {s t : St} {r : Res α} :
    Runs ext (fun _ => (M.panic : M α)) s r t ↔ r = .panic ∧ t = s := runs_lift (by simp)

theorem runs_nodes {ext : Ext} {ns : List PNode} {s t : St} {r : Res (List PNode)} :
    Runs ext (fun rec => expandNodes rec ns) s r t ↔ Evals ext ns s r t := Iff.rfl

theorem runs_node {ext : Ext} {n : PNode} {s t : St} {r : Res (List PNode)} :
    Runs ext (fun rec => rec (.node n)) s r t ↔ Evals ext [n] s r t := by
  simp only [Evals, Runs, expandNodes_one]

theorem runs_invoke {ext : Ext} {name : Str} {c : PNode} {ps : List PNode} {s t : St} {r : Res (List PNode)} :
    Runs ext (fun rec => rec (.invoke name c ps)) s r t ↔ Invokes ext name c ps s r t := Iff.rfl

theorem runs_inner {α : Type} {ext : Ext} {F : Rec → M α} {s t : St} {r : Res α} :
    Runs ext (fun rec => M.inner (F rec)) s r t ↔ ∃ t', Runs ext F s r t' ∧ t = { t' with scope := s.scope } := by
  constructor
  · rintro ⟨hr, f, hf⟩
    obtain ⟨rfl, rfl⟩ := Prod.mk.inj ((M.inner_def _ s).symm.trans hf)
    exact ⟨_, ⟨hr, f, rfl⟩, rfl⟩
  · rintro ⟨t', ⟨hr, f, hf⟩, rfl⟩
    exact ⟨hr, f, by show M.inner (F (run ext f)) s = _; rw [M.inner_def, hf]⟩

theorem Runs.unique {α : Type} {ext : Ext} {F : Rec → M α} (hF : Mon F) {s t t' : St} {r r' : Res α}
    (h : Runs ext F s r t) (h' : Runs ext F s r' t') : r = r' ∧ t = t' := by
  obtain ⟨f, h1, h2⟩ := ((h.ev hF).and (h'.ev hF)).pick
  exact Prod.mk.inj (h1.symm.trans h2)

theorem runs_congr {α : Type} {ext : Ext} {F G : Rec → M α} {s t : St} {r : Res α} (h : ∀ rec, F rec s = G rec s) :
    Runs ext F s r t ↔ Runs ext G s r t := by
  simp only [Runs, h]

/-- Calls of built-in macros. -/
theorem invokes_builtin {ext : Ext} {name : Str} {args : List PNode} {c : PNode} {b : Builtin}
    (hb : builtin? name = some b) {s t : St} {r : Res (List PNode)} :
    Invokes ext name c args s r t ↔ Runs ext (fun rec => runBuiltin ext rec b c args) s r t := by
  constructor
  · intro h
    obtain ⟨f, hf⟩ := invokes_inv h
    rw [expandInvocation, hb] at hf
    exact ⟨h.1, f, hf⟩
  · rintro ⟨hr, f, hf⟩
    refine ⟨hr, f + 1, ?_⟩
    rw [run_builtin hb]
    exact hf

/-- Calls of other macros. -/
theorem invokes_user {ext : Ext} {name : Str} {args : List PNode} {c : PNode}
    (hb : builtin? name = none) {s t : St} {r : Res (List PNode)} :
    Invokes ext name c args s r t ↔ Runs ext (fun rec => userMacro rec name c args) s r t := by
  constructor
  · intro h
    obtain ⟨f, hf⟩ := invokes_inv h
    rw [expandInvocation, hb] at hf
    exact ⟨h.1, f, hf⟩
  · rintro ⟨hr, f, hf⟩
    refine ⟨hr, f + 1, ?_⟩
    show expandInvocation ext (run ext f) name c args s = _
    rw [expandInvocation, hb]
    exact hf

theorem evals_builtin_iff {ext : Ext} {name : Str} {args : List PNode} {c : PNode} (hc : IsCall name args c) {b : Builtin}
    (hb : builtin? name = some b) {s t : St} {r : Res (List PNode)} :
    Evals ext [c] s r t ↔ Runs ext (fun rec => runBuiltin ext rec b c args) s r t :=
  (evals_call hc).trans (invokes_builtin hb)

theorem evals_user_iff {ext : Ext} {name : Str} {args : List PNode} {c : PNode} (hc : IsCall name args c)
    (hb : builtin? name = none) {s t : St} {r : Res (List PNode)} :
    Evals ext [c] s r t ↔ Runs ext (fun rec => userMacro rec name c args) s r t :=
  (evals_call hc).trans (invokes_user hb)

end Seam
