import Verif.Lemmas.Mono
import Verif.Spec.Eval

/-! Rules for `Evals` and `Invokes`. -/

namespace Seam
open Spec

theorem M.bind_ok {α β : Type} {m : M α} {f : α → M β} {s t : St} {a : α} (h : m s = (.ok a, t)) :
    (m >>= f) s = f a t := by rw [M.bind_def, h]

theorem M.bind_err {α β : Type} {m : M α} {f : α → M β} {s t : St} {e : Err} (h : m s = (.err e, t)) :
    (m >>= f) s = (.err e, t) := by rw [M.bind_def, h]

theorem M.bind_panic {α β : Type} {m : M α} {f : α → M β} {s t : St} (h : m s = (.panic, t)) :
    (m >>= f) s = (.panic, t) := by rw [M.bind_def, h]

theorem M.bind_eq_ok {α β : Type} {m : M α} {f : α → M β} {s t : St} {b : β} (h : (m >>= f) s = (.ok b, t)) :
    ∃ a u, m s = (.ok a, u) ∧ f a u = (.ok b, t) := by
  rw [M.bind_def] at h
  rcases hm : m s with ⟨r, u⟩
  rw [hm] at h
  cases r with
  | ok a => exact ⟨a, u, rfl, h⟩
  | _ => simp at h

/-- A computation that does not run out of fuel either stops in its first part or
goes on. -/
theorem M.bind_cases {α β : Type} {m : M α} {f : α → M β} {s t : St} {r : Res β} (h : (m >>= f) s = (r, t)) :
    (∃ a u, m s = (.ok a, u) ∧ f a u = (r, t)) ∨ (∃ e, m s = (.err e, t) ∧ r = .err e) ∨
    (m s = (.panic, t) ∧ r = .panic) ∨ (m s = (.diverge, t) ∧ r = .diverge) := by
  rw [M.bind_def] at h
  rcases hm : m s with ⟨r', u⟩
  rw [hm] at h
  cases r' with
  | ok a => exact Or.inl ⟨a, u, rfl, h⟩
  | err e =>
    obtain ⟨rfl, rfl⟩ := Prod.mk.inj h
    exact Or.inr (Or.inl ⟨e, rfl, rfl⟩)
  | panic =>
    obtain ⟨rfl, rfl⟩ := Prod.mk.inj h
    exact Or.inr (Or.inr (Or.inl ⟨rfl, rfl⟩))
  | diverge =>
    obtain ⟨rfl, rfl⟩ := Prod.mk.inj h
    exact Or.inr (Or.inr (Or.inr ⟨rfl, rfl⟩))

theorem M.pure_def {α : Type} (a : α) (s : St) : (Pure.pure a : M α) s = (.ok a, s) := rfl
theorem M.lift_def {α : Type} (r : Res α) (s : St) : M.lift r s = (r, s) := rfl
theorem M.fail_def {α : Type} (m : String) (site : Site) (s : St) :
    (M.fail m site : M α) s = (.err (expErr m site), s) := rfl
theorem M.panic_def {α : Type} (s : St) : (M.panic : M α) s = (.panic, s) := rfl
theorem M.lookup_def (n : Str) (s : St) : M.lookup n s = (.ok (s.scope n), s) := rfl
theorem M.define_def (n : Str) (m : Macro) (s : St) :
    M.define n m s = (.ok (), { s with scope := s.scope.insert n m }) := rfl
theorem M.inner_def {α : Type} (m : M α) (s : St) : M.inner m s = ((m s).1, { (m s).2 with scope := s.scope }) := rfl

theorem M.bind_pure {α : Type} (m : M α) : (m >>= fun a => Pure.pure a) = m := by
  funext s
  rw [M.bind_def]
  rcases m s with ⟨r, t⟩
  cases r <;> rfl

theorem M.pure_bind {α β : Type} (a : α) (f : α → M β) : ((Pure.pure a : M α) >>= f) = f a := rfl

theorem M.bind_assoc {α β γ : Type} (m : M α) (f : α → M β) (g : β → M γ) :
    ((m >>= f) >>= g) = (m >>= fun a => f a >>= g) := by
  funext s
  rw [M.bind_def, M.bind_def, M.bind_def]
  rcases m s with ⟨r, t⟩
  cases r <;> rfl

theorem expandNodes_one (rec : Rec) (n : PNode) : expandNodes rec [n] = rec (.node n) := by
  simp only [expandNodes]
  have : ∀ a : List PNode, ((pure [] : M (List PNode)) >>= fun b => pure (a ++ b)) = pure a := by
    intro a; funext s; show (Res.ok (a ++ []), s) = _; rw [List.append_nil]; rfl
  simp only [this]
  exact M.bind_pure _

/-! ## Enough fuel -/

theorem run_of_ge {ext : Ext} {f g : Nat} (h : f ≤ g) {c : Call} {s t : St} {r : Res (List PNode)}
    (hr : r ≠ .diverge) (h1 : run ext f c s = (r, t)) : run ext g c s = (r, t) := by
  obtain ⟨k, rfl⟩ := Nat.exists_eq_add_of_le h
  rcases run_mono ext f k c s with h2 | h2
  · rw [h1] at h2; exact absurd h2 hr
  · rw [← h2, h1]

theorem expandNodes_of_ge {ext : Ext} {f g : Nat} (h : f ≤ g) {ns : List PNode} {s t : St} {r : Res (List PNode)}
    (hr : r ≠ .diverge) (h1 : expandNodes (run ext f) ns s = (r, t)) : expandNodes (run ext g) ns s = (r, t) := by
  obtain ⟨k, rfl⟩ := Nat.exists_eq_add_of_le h
  rcases expandNodes_le (run_mono ext f k) ns s with h2 | h2
  · rw [h1] at h2; exact absurd h2 hr
  · rw [← h2, h1]

/-- From some amount of fuel on. -/
def Ev (p : Nat → Prop) : Prop := ∃ f, ∀ g, f ≤ g → p g

theorem Ev.and {p q : Nat → Prop} (hp : Ev p) (hq : Ev q) : Ev fun f => p f ∧ q f := by
  obtain ⟨f, hf⟩ := hp
  obtain ⟨g, hg⟩ := hq
  exact ⟨max f g, fun k hk => ⟨hf k (by omega), hg k (by omega)⟩⟩

theorem Ev.mono {p q : Nat → Prop} (hp : Ev p) (h : ∀ f, p f → q f) : Ev q := by
  obtain ⟨f, hf⟩ := hp
  exact ⟨f, fun k hk => h k (hf k hk)⟩

theorem Ev.of {p : Nat → Prop} (h : ∀ f, p f) : Ev p := ⟨0, fun f _ => h f⟩

theorem Ev.succ {p : Nat → Prop} (h : Ev fun f => p (f + 1)) : Ev p := by
  obtain ⟨f, hf⟩ := h
  refine ⟨f + 1, fun g hg => ?_⟩
  cases g with
  | zero => omega
  | succ g => exact hf g (by omega)

theorem Ev.pick {p : Nat → Prop} (h : Ev p) : ∃ f, p f := by
  obtain ⟨f, hf⟩ := h
  exact ⟨f, hf f (Nat.le_refl f)⟩

theorem Spec.Evals.ev {ext : Ext} {ns : List PNode} {s t : St} {r : Res (List PNode)} (h : Evals ext ns s r t) :
    Ev fun f => expandNodes (run ext f) ns s = (r, t) := by
  obtain ⟨hr, f, hf⟩ := h
  exact ⟨f, fun g hg => expandNodes_of_ge hg hr hf⟩

theorem Spec.Evals.of_ev {ext : Ext} {ns : List PNode} {s t : St} {r : Res (List PNode)} (hr : r ≠ .diverge)
    (h : Ev fun f => expandNodes (run ext f) ns s = (r, t)) : Evals ext ns s r t := ⟨hr, h.pick⟩

theorem Spec.Invokes.ev {ext : Ext} {name : Str} {call : PNode} {ps : List PNode} {s t : St} {r : Res (List PNode)}
    (h : Invokes ext name call ps s r t) : Ev fun f => run ext f (.invoke name call ps) s = (r, t) := by
  obtain ⟨hr, f, hf⟩ := h
  exact ⟨f, fun g hg => run_of_ge hg hr hf⟩

/-- Outcomes are unique. -/
theorem Spec.Evals.unique {ext : Ext} {ns : List PNode} {s t t' : St} {r r' : Res (List PNode)}
    (h : Evals ext ns s r t) (h' : Evals ext ns s r' t') : r = r' ∧ t = t' := by
  obtain ⟨hr, f, hf⟩ := h
  obtain ⟨hr', g, hg⟩ := h'
  exact expandNodes_unique ext ns s hf hr hg hr'

theorem Spec.Invokes.unique {ext : Ext} {name : Str} {call : PNode} {ps : List PNode} {s t t' : St} {r r' : Res (List PNode)}
    (h : Invokes ext name call ps s r t) (h' : Invokes ext name call ps s r' t') : r = r' ∧ t = t' := by
  obtain ⟨hr, f, hf⟩ := h
  obtain ⟨hr', g, hg⟩ := h'
  exact run_unique ext _ s hf hr hg hr'

/-! ## Sequences -/

theorem Spec.Evals.nil (ext : Ext) (s : St) : Evals ext [] s (.ok []) s := ⟨by simp, 0, rfl⟩

theorem expandNodes_append (rec : Rec) (ns ms : List PNode) : expandNodes rec (ns ++ ms) =
    (expandNodes rec ns >>= fun a => expandNodes rec ms >>= fun b => pure (a ++ b)) := by
  induction ns with
  | nil =>
    simp only [List.nil_append, expandNodes, M.pure_bind, M.bind_pure]
  | cons n ns ih =>
    simp only [List.cons_append, expandNodes, ih, M.bind_assoc, M.pure_bind, List.append_assoc]

theorem Spec.Evals.append {ext : Ext} {ns ms as bs : List PNode} {s t u : St}
    (h : Evals ext ns s (.ok as) t) (h' : Evals ext ms t (.ok bs) u) : Evals ext (ns ++ ms) s (.ok (as ++ bs)) u := by
  refine .of_ev (by simp) ((h.ev.and h'.ev).mono fun f hf => ?_)
  rw [expandNodes_append, M.bind_ok hf.1, M.bind_ok hf.2]
  rfl

theorem Spec.Evals.cons {ext : Ext} {n : PNode} {ms as bs : List PNode} {s t u : St}
    (h : Evals ext [n] s (.ok as) t) (h' : Evals ext ms t (.ok bs) u) : Evals ext (n :: ms) s (.ok (as ++ bs)) u := by
  refine .of_ev (by simp) ((h.ev.and h'.ev).mono fun f hf => ?_)
  have := expandNodes_append (run ext f) [n] ms
  rw [List.singleton_append] at this
  rw [this, M.bind_ok hf.1, M.bind_ok hf.2]
  rfl

/-- What is expanded first decides if it fails. -/
theorem Spec.Evals.fail_left {ext : Ext} {ns ms : List PNode} {s t : St} {r : Res (List PNode)}
    (h : Evals ext ns s r t) (hr : ∀ a, r ≠ .ok a) : Evals ext (ns ++ ms) s r t := by
  refine .of_ev h.1 (h.ev.mono fun f hf => ?_)
  rw [expandNodes_append, M.bind_def, hf]
  cases r with
  | ok a => exact absurd rfl (hr a)
  | _ => rfl

/-- Inversion: a finished sequence. -/
theorem Spec.Evals.append_inv {ext : Ext} {ns ms : List PNode} {s u : St} {r : Res (List PNode)}
    (h : Evals ext (ns ++ ms) s r u) :
    (∃ as t r', Evals ext ns s (.ok as) t ∧ Evals ext ms t r' u ∧ r = addBefore as r') ∨
    (Evals ext ns s r u ∧ ∀ a, r ≠ .ok a) := by
  obtain ⟨hr, f, hf⟩ := h
  rw [expandNodes_append] at hf
  rcases M.bind_cases hf with ⟨a, t, h1, h2⟩ | ⟨e, h1, rfl⟩ | ⟨h1, rfl⟩ | ⟨h1, rfl⟩
  · left
    rcases M.bind_cases h2 with ⟨b, t', h3, h4⟩ | ⟨e, h3, rfl⟩ | ⟨h3, rfl⟩ | ⟨h3, rfl⟩
    · rw [M.pure_def] at h4
      obtain ⟨rfl, rfl⟩ := Prod.mk.inj h4
      exact ⟨a, t, .ok b, ⟨by simp, f, h1⟩, ⟨by simp, f, h3⟩, rfl⟩
    · exact ⟨a, t, .err e, ⟨by simp, f, h1⟩, ⟨by simp, f, h3⟩, rfl⟩
    · exact ⟨a, t, .panic, ⟨by simp, f, h1⟩, ⟨by simp, f, h3⟩, rfl⟩
    · exact absurd rfl hr
  · exact Or.inr ⟨⟨hr, f, h1⟩, by simp⟩
  · exact Or.inr ⟨⟨hr, f, h1⟩, by simp⟩
  · exact absurd rfl hr

/-! ## Calls -/

theorem dropFirstBlank_eq (t : List PNode) : trimFirstParam t = dropFirstBlank t := by
  cases t with
  | nil => rfl
  | cons p ps =>
    simp only [trimFirstParam, dropFirstBlank, firstLw]
    have hp : p.setLw p.lw = p := by cases p <;> rfl
    by_cases h : '\n' ∈ p.lw
    · rw [if_pos h, if_pos (by simpa using h), hp]
    · rw [if_neg h, if_neg (by simpa using h)]

theorem run_call {name : Str} {args : List PNode} {c : PNode} (hc : IsCall name args c) (ext : Ext) (f : Nat) :
    run ext (f + 1) (.node c) = run ext f (.invoke name c args) := by
  obtain ⟨h, t, s, e, w, hv, rfl⟩ := hc

  simp only [run, step, expandNode, PNode.symbol?, Option.bind, hv, macroName?, dropFirstBlank_eq]

/-- Expanding a call node is calling the macro. -/
theorem evals_call {ext : Ext} {name : Str} {args : List PNode} {c : PNode} (hc : IsCall name args c)
    {s t : St} {r : Res (List PNode)} : Evals ext [c] s r t ↔ Invokes ext name c args s r t := by
  constructor
  · rintro ⟨hr, f, hf⟩
    rw [expandNodes_one] at hf
    have := run_of_ge (Nat.le_add_right f 1) hr hf
    rw [run_call hc] at this
    exact ⟨hr, f, this⟩
  · rintro ⟨hr, f, hf⟩
    refine ⟨hr, f + 1, ?_⟩
    rw [expandNodes_one, run_call hc]
    exact hf

theorem invokes_of {ext : Ext} {name : Str} {call : PNode} {ps : List PNode} {s t : St} {r : Res (List PNode)}
    (hr : r ≠ .diverge) (h : Ev fun f => expandInvocation ext (run ext f) name call ps s = (r, t)) :
    Invokes ext name call ps s r t := by
  obtain ⟨f, hf⟩ := h.pick
  exact ⟨hr, f + 1, hf⟩

theorem invokes_inv {ext : Ext} {name : Str} {call : PNode} {ps : List PNode} {s t : St} {r : Res (List PNode)}
    (h : Invokes ext name call ps s r t) : ∃ f, expandInvocation ext (run ext f) name call ps s = (r, t) := by
  obtain ⟨hr, f, hf⟩ := h
  cases f with
  | zero =>
    have : (Res.diverge, s) = (r, t) := hf
    exact absurd (Prod.mk.inj this).1.symm hr
  | succ f => exact ⟨f, hf⟩

/-- Calling a built-in macro. -/
theorem evals_builtin {ext : Ext} {name : Str} {args : List PNode} {c : PNode} (hc : IsCall name args c)
    {b : Builtin} (hb : builtin? name = some b) {s t : St} {r : Res (List PNode)} (hr : r ≠ .diverge)
    (h : Ev fun f => runBuiltin ext (run ext f) b c args s = (r, t)) : Evals ext [c] s r t := by
  refine (evals_call hc).2 (invokes_of hr (h.mono fun f hf => ?_))
  rw [expandInvocation, hb]
  exact hf

theorem evals_builtin_inv {ext : Ext} {name : Str} {args : List PNode} {c : PNode} (hc : IsCall name args c)
    {b : Builtin} (hb : builtin? name = some b) {s t : St} {r : Res (List PNode)} (h : Evals ext [c] s r t) :
    ∃ f, runBuiltin ext (run ext f) b c args s = (r, t) := by
  obtain ⟨f, hf⟩ := invokes_inv ((evals_call hc).1 h)
  rw [expandInvocation, hb] at hf
  exact ⟨f, hf⟩

/-- Calling a user macro. -/
theorem evals_user {ext : Ext} {name : Str} {args : List PNode} {c : PNode} (hc : IsCall name args c)
    (hb : builtin? name = none) {s t : St} {r : Res (List PNode)} (hr : r ≠ .diverge)
    (h : Ev fun f => userMacro (run ext f) name c args s = (r, t)) : Evals ext [c] s r t := by
  refine (evals_call hc).2 (invokes_of hr (h.mono fun f hf => ?_))
  rw [expandInvocation, hb]
  exact hf

theorem evals_user_inv {ext : Ext} {name : Str} {args : List PNode} {c : PNode} (hc : IsCall name args c)
    (hb : builtin? name = none) {s t : St} {r : Res (List PNode)} (h : Evals ext [c] s r t) :
    ∃ f, userMacro (run ext f) name c args s = (r, t) := by
  obtain ⟨f, hf⟩ := invokes_inv ((evals_call hc).1 h)
  rw [expandInvocation, hb] at hf
  exact ⟨f, hf⟩

/-! ## Other nodes -/

theorem evals_node {ext : Ext} {n : PNode} {s t : St} {r : Res (List PNode)} (hr : r ≠ .diverge)
    (h : Ev fun f => expandNode (run ext f) n s = (r, t)) : Evals ext [n] s r t := by
  obtain ⟨f, hf⟩ := h.pick
  refine ⟨hr, f + 1, ?_⟩
  rw [expandNodes_one]
  exact hf

theorem evals_node_inv {ext : Ext} {n : PNode} {s t : St} {r : Res (List PNode)} (h : Evals ext [n] s r t) :
    ∃ f, expandNode (run ext f) n s = (r, t) := by
  obtain ⟨hr, f, hf⟩ := h
  rw [expandNodes_one] at hf
  cases f with
  | zero =>
    have : (Res.diverge, s) = (r, t) := hf
    exact absurd (Prod.mk.inj this).1.symm hr
  | succ f => exact ⟨f, hf⟩

theorem macroName?_none {v : Str} (h : ∀ name, v ≠ '%' :: name) : macroName? v = none := by
  unfold macroName?
  split
  · exact absurd rfl (h _)
  · rfl

theorem evals_symbol (ext : Ext) {a : Node} (h : ∀ name, a.value ≠ '%' :: name) (s : St) :
    Evals ext [.symbol a] s (.ok [.symbol a]) s := by
  refine evals_node (by simp) (Ev.of fun f => ?_)
  simp only [expandNode, macroName?_none h]
  rfl

theorem evals_number (ext : Ext) (a : Node) (s : St) : Evals ext [.number a] s (.ok [.number a]) s :=
  evals_node (by simp) (Ev.of fun _ => rfl)
theorem evals_string (ext : Ext) (a : Node) (s : St) : Evals ext [.string a] s (.ok [.string a]) s :=
  evals_node (by simp) (Ev.of fun _ => rfl)
theorem evals_raw (ext : Ext) (a : Node) (s : St) : Evals ext [.raw a] s (.ok [.raw a]) s :=
  evals_node (by simp) (Ev.of fun _ => rfl)

/-- The head of the list is not the name of a macro. -/
def PlainHead (ns : List PNode) : Prop := ∀ a t name, ns = .symbol a :: t → a.value ≠ '%' :: name

theorem expandNode_list {rec : Rec} {ns : List PNode} (h : PlainHead ns) (si : Site) (e : Token) (w : Str) (s : St) :
    expandNode rec (.list ns si e w) s = (expandNodes rec ns >>= fun ms => pure [.list ms si e w]) s := by
  cases ns with
  | nil => rfl
  | cons n t =>
    have : n.symbol?.bind (fun a => macroName? a.value) = none := by
      cases n with
      | symbol a => exact macroName?_none fun name => h a t name rfl
      | _ => rfl
    simp only [expandNode, this]

theorem evals_list {ext : Ext} {ns ms : List PNode} (h : PlainHead ns) {s t : St} (hn : Evals ext ns s (.ok ms) t)
    (si : Site) (e : Token) (w : Str) : Evals ext [.list ns si e w] s (.ok [.list ms si e w]) t := by
  refine evals_node (by simp) (hn.ev.mono fun f hf => ?_)
  rw [expandNode_list h, M.bind_ok hf]
  rfl

theorem evals_attr {ext : Ext} {v v' : PNode} {rest : List PNode} {s t : St}
    (hn : Evals ext [v] s (.ok (v' :: rest)) t) (k : Str) (si : Site) (w : Str) :
    Evals ext [.attr k v si w] s (.ok (.attr k v' si w :: rest)) t := by
  refine evals_node (by simp) (hn.ev.mono fun f hf => ?_)
  rw [expandNodes_one] at hf
  simp only [expandNode]
  rw [M.bind_ok hf]
  rfl

/-! ## Trees without macros -/

mutual
theorem macroFree_evals (ext : Ext) : ∀ (n : PNode), MacroFree n → ∀ s, Evals ext [n] s (.ok [n]) s
  | .symbol a, h, s => by
    cases h with
    | symbol _ h => exact evals_symbol ext h s
  | .number a, _, s => evals_number ext a s
  | .string a, _, s => evals_string ext a s
  | .raw a, _, s => evals_raw ext a s
  | .list ns si e w, h, s => by
    cases h with
    | list _ _ _ _ h =>
      refine evals_list ?_ (macrosFree_evals ext ns h s) si e w
      intro a t name hn
      subst hn
      cases h with
      | cons _ _ h _ =>
        cases h with
        | symbol _ h => exact h name
  | .attr k n si w, h, s => by
    cases h with
    | attr _ _ _ _ h => exact evals_attr (macroFree_evals ext n h s) k si w
theorem macrosFree_evals (ext : Ext) : ∀ (ns : List PNode), MacrosFree ns → ∀ s, Evals ext ns s (.ok ns) s
  | [], _, s => .nil ext s
  | n :: ns, h, s => by
    cases h with
    | cons _ _ h h' => exact (macroFree_evals ext n h s).cons (macrosFree_evals ext ns h' s)
end

theorem withFirstLw_eq (w : Str) (ns : List PNode) : withFirstLw w ns = firstSpaced w ns := by
  cases ns <;> rfl

/-- Using a variable. -/
theorem evals_var {ext : Ext} {a : Node} {name : Str} (ha : a.value = '%' :: name) {s t : St} {body ms : List PNode}
    (hs : s.scope name = some (Macro.var body)) (hb : Evals ext body s (.ok ms) t) :
    Evals ext [.symbol a] s (.ok (firstSpaced a.lw ms)) t := by
  refine evals_node (by simp) (hb.ev.mono fun f hf => ?_)
  simp only [expandNode, ha, macroName?, expandVariable]
  rw [M.bind_ok (M.lookup_def name s), hs]
  show (expandNodes (run ext f) body >>= fun body => pure (withFirstLw a.lw body)) s = _
  rw [M.bind_ok hf, ← withFirstLw_eq]
  rfl

end Seam
