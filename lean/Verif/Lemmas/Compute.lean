import Mathlib.Computability.TuringMachine.Config
import Verif.Lemmas.Machine

/-! Partial recursive functions as programs. -/

namespace Seam
open Spec
open Turing.ToPartrec (Code)

/-! ## Calls that end in the expansion of another node -/

/-- The outcome with the definitions there were before. -/
def restore (s : St) (x : Res (List PNode) × St) : Res (List PNode) × St := (x.1, { x.2 with scope := s.scope })

/-- The expansion of `c` is that of `c'`, with less fuel. -/
structure Tail (ext : Ext) (c : PNode) (s : St) (c' : PNode) (s' : St) : Prop where
  zero : outcome ext c s 0 = .diverge
  one : outcome ext c s 1 = .diverge
  same : ∀ g, outcome ext c s (g + 2) = .diverge ∨ run ext (g + 2) (.node c) s = restore s (run ext g (.node c') s')
  ev : Ev fun g => run ext (g + 2) (.node c) s = restore s (run ext g (.node c') s')

theorem Tail.back {ext : Ext} {c c' : PNode} {s s' : St} (h : Tail ext c s c' s') {g : Nat} (hg : outcome ext c s g ≠ .diverge) :
    ∃ k, k < g ∧ outcome ext c' s' k ≠ .diverge := by
  match g, hg with
  | 0, hg => exact absurd h.zero hg
  | 1, hg => exact absurd h.one hg
  | g + 2, hg =>
    rcases h.same g with h1 | h1
    · exact absurd h1 hg
    · refine ⟨g, by omega, ?_⟩
      unfold outcome at hg ⊢
      rw [h1] at hg
      exact hg

theorem Tail.evals {ext : Ext} {c c' : PNode} {s s' t : St} (h : Tail ext c s c' s') {r : Res (List PNode)} (he : Evals ext [c'] s' r t) :
    Evals ext [c] s r { t with scope := s.scope } := by
  obtain ⟨k, hk⟩ := h.ev
  obtain ⟨j, hj⟩ := he.ev
  refine ⟨he.1, max j k + 2, ?_⟩
  rw [expandNodes_one, hk _ (Nat.le_max_right j k)]
  have : expandNodes (run ext (max j k)) [c'] s' = (r, t) := hj _ (Nat.le_max_left j k)
  rw [expandNodes_one] at this
  rw [this]
  rfl

theorem one_node {ext : Ext} {n : PNode} {s : St} {g : Nat} : expandNodes (run ext g) [n] s = run ext g (.node n) s := by rw [expandNodes_one]

theorem tail_of_call {ext : Ext} {name : Str} {args : List PNode} {c c' : PNode} {s s' : St} (hc : IsCall name args c)
    (same : ∀ g, (expandInvocation ext (run ext g) name c args s).1 = .diverge ∨
      expandInvocation ext (run ext g) name c args s = restore s (run ext g (.node c') s'))
    (ev : Ev fun g => expandInvocation ext (run ext g) name c args s = restore s (run ext g (.node c') s')) : Tail ext c s c' s' := by
  have e : ∀ g, run ext (g + 2) (.node c) s = expandInvocation ext (run ext g) name c args s := by
    intro g
    rw [run_call hc]
    rfl
  refine ⟨rfl, ?_, fun g => ?_, ?_⟩
  · unfold outcome
    rw [run_call hc]
    rfl
  · unfold outcome
    rw [e]
    exact same g
  · exact ev.mono fun g hg => by rw [e]; exact hg

theorem tail_user {ext : Ext} {name : Str} {args vs : List PNode} {c n : PNode} {s v : St} {m : Macro} (hc : IsCall name args c)
    (hb : builtin? name = none) (ha : Evals ext args s (.ok vs) s) (hm : s.scope name = some m)
    (hbd : bindList c m.params vs s = (.ok (), v)) (hn : m.body = [n]) : Tail ext c s n v := by
  have key : ∀ g, expandNodes (run ext g) args s = (.ok vs, s) →
      expandInvocation ext (run ext g) name c args s = restore s (run ext g (.node n) v) := by
    intro g hg
    simp only [expandInvocation, hb]
    rw [userMacro_eq _ _ _ _ _ _ _ _ hg hm, M.inner_def, M.bind_ok hbd, hn, expandNodes_one]
    rfl
  refine tail_of_call hc (fun g => ?_) (ha.ev.mono fun g hg => key g hg)
  rcases known_or_diverges ha g with h | h
  · left
    simp only [expandInvocation, hb]
    exact bind_diverges h
  · exact .inr (key g h)

/-- The clauses of a `%match` come to the expansion of a node. -/
structure Clauses (ext : Ext) (x : PNode) (cs : List PNode) (s : St) (c' : PNode) (s' : St) : Prop where
  same : ∀ g, (matchLoop (run ext g) x cs s).1 = .diverge ∨ matchLoop (run ext g) x cs s = restore s (run ext g (.node c') s')
  ev : Ev fun g => matchLoop (run ext g) x cs s = restore s (run ext g (.node c') s')

theorem clauses_take {ext : Ext} {x pat n : PNode} {rest : List PNode} {cs : Site} {ce : Token} {cw : Str} {s v : St}
    (hp : MacroFree pat) (hb : bind pat x s = (.ok (), v)) : Clauses ext x (.list [pat, n] cs ce cw :: rest) s n v := by
  have hp := macroFree_evals ext pat hp s
  have key : ∀ g, run ext g (.node pat) s = (.ok [pat], s) →
      matchLoop (run ext g) x (.list [pat, n] cs ce cw :: rest) s = restore s (run ext g (.node n) v) := by
    intro g h2
    rw [matchLoop, M.bind_ok h2]
    simp only [hb, expandNodes_one]
    rfl
  refine ⟨fun g => ?_, hp.ev.mono fun g hg => key g (one_node ▸ hg)⟩
  rcases known_or_diverges hp g with h | h
  · left
    rw [one_node] at h
    rw [matchLoop]
    exact bind_diverges h
  · rw [one_node] at h
    exact .inr (key g h)

theorem clauses_skip {ext : Ext} {x pat n c' : PNode} {rest : List PNode} {cs : Site} {ce : Token} {cw : Str} {s u v : St} {e : Err}
    (hp : MacroFree pat) (hb : bind pat x s = (.err e, u)) (hu : { u with scope := s.scope } = s) (h : Clauses ext x rest s c' v) :
    Clauses ext x (.list [pat, n] cs ce cw :: rest) s c' v := by
  have hp := macroFree_evals ext pat hp s
  have key : ∀ g, run ext g (.node pat) s = (.ok [pat], s) →
      matchLoop (run ext g) x (.list [pat, n] cs ce cw :: rest) s = matchLoop (run ext g) x rest s := by
    intro g h2
    rw [matchLoop, M.bind_ok h2]
    simp only [hb, hu]
  refine ⟨fun g => ?_, (hp.ev.and h.ev).mono fun g hg => by rw [key g (one_node ▸ hg.1)]; exact hg.2⟩
  rcases known_or_diverges hp g with h1 | h1
  · left
    rw [one_node] at h1
    rw [matchLoop]
    exact bind_diverges h1
  · rw [one_node] at h1
    rw [key g h1]
    exact h.same g

theorem invoke_match (ext : Ext) (rec : Rec) (c : PNode) (args : List PNode) :
    expandInvocation ext rec (str! "match") c args = matchMacro rec c args := rfl

theorem tail_match {ext : Ext} {e x c c' : PNode} {clauses : List PNode} {s v : St} (hc : IsCall (str! "match") (e :: clauses) c)
    (he : Evals ext [e] s (.ok [x]) s) (h : Clauses ext x clauses s c' v) : Tail ext c s c' v := by
  have key : ∀ g, run ext g (.node e) s = (.ok [x], s) →
      matchMacro (run ext g) c (e :: clauses) s = matchLoop (run ext g) x clauses s := by
    intro g h1
    unfold matchMacro
    simp only
    rw [M.bind_ok h1]
  refine tail_of_call hc (fun g => ?_) ((he.ev.and h.ev).mono fun g hg => ?_)
  · rw [invoke_match]
    rcases known_or_diverges he g with h1 | h1
    · left
      rw [one_node] at h1
      exact bind_diverges h1
    · rw [one_node] at h1
      rw [key g h1]
      exact h.same g
  · rw [invoke_match, key g (one_node ▸ hg.1)]
    exact hg.2

/-- If a `%match` comes to an end, then what is matched does. -/
theorem match_needs {ext : Ext} {e c : PNode} {clauses : List PNode} {s : St} (hc : IsCall (str! "match") (e :: clauses) c) {g : Nat}
    (hg : outcome ext c s g ≠ .diverge) : ∃ k, k < g ∧ outcome ext e s k ≠ .diverge := by
  match g, hg with
  | 0, hg => exact absurd rfl hg
  | 1, hg =>
    unfold outcome at hg
    rw [run_call hc] at hg
    exact absurd rfl hg
  | g + 2, hg =>
    refine ⟨g, by omega, fun h => hg ?_⟩
    unfold outcome at h ⊢
    rw [run_call hc]
    exact bind_diverges (m := run ext g (.node e)) h

/-- If a call of a user's macro comes to an end, then its argument does. -/
theorem user_needs {ext : Ext} {e c : PNode} {name : Str} {s : St} (hc : IsCall name [e] c) (hb : builtin? name = none) {g : Nat}
    (hg : outcome ext c s g ≠ .diverge) : ∃ k, k < g ∧ outcome ext e s k ≠ .diverge := by
  match g, hg with
  | 0, hg => exact absurd rfl hg
  | 1, hg =>
    unfold outcome at hg
    rw [run_call hc] at hg
    exact absurd rfl hg
  | g + 2, hg =>
    refine ⟨g, by omega, fun h => hg ?_⟩
    unfold outcome at h ⊢
    rw [run_call hc]
    show (expandInvocation ext (run ext g) name c [e] s).1 = _
    simp only [expandInvocation, hb]
    exact bind_diverges (m := expandNodes (run ext g) [e]) (by rw [expandNodes_one]; exact h)

/-! ## Lists of numbers -/

/-- The nodes are these numbers. -/
def Vals (vs : List Nat) (xs : List PNode) : Prop := Pairs Num vs xs

/-- The node is the list of these numbers. -/
def IsVal (vs : List Nat) (o : PNode) : Prop := ∃ xs si e w, o = .list xs si e w ∧ Vals vs xs

theorem Num.isList {n : Nat} {x : PNode} (h : Num n x) : ∃ xs si e w, x = .list xs si e w := by
  cases h <;> exact ⟨_, _, _, _, rfl⟩

theorem Vals.free {vs : List Nat} {xs : List PNode} (h : Vals vs xs) : MacrosFree xs := by
  induction h with
  | nil => exact .nil
  | cons h _ ih => exact .cons _ _ h.free ih

theorem Vals.spaced {vs : List Nat} {xs : List PNode} (h : Vals vs xs) (w : Str) : Vals vs (firstSpaced w xs) := by
  cases h with
  | nil => exact .nil
  | cons h h' => exact .cons (h.setLw w) h'

theorem Vals.append {vs ws : List Nat} {xs ys : List PNode} (h : Vals vs xs) (h' : Vals ws ys) : Vals (vs ++ ws) (xs ++ ys) := by
  induction h with
  | nil => exact h'
  | cons h _ ih => exact .cons h ih

theorem IsVal.free {vs : List Nat} {o : PNode} (h : IsVal vs o) : MacroFree o := by
  obtain ⟨xs, si, e, w, rfl, h⟩ := h
  exact .list _ _ _ _ h.free

theorem IsVal.setLw {vs : List Nat} {o : PNode} (h : IsVal vs o) (w : Str) : IsVal vs (o.setLw w) := by
  obtain ⟨xs, si, e, w', rfl, h⟩ := h
  exact ⟨_, _, _, _, rfl, h⟩

/-- The arguments give these numbers. -/
def ValArgs (ext : Ext) (s : St) (args : List PNode) (vs : List Nat) : Prop := ∃ xs, Evals ext args s (.ok xs) s ∧ Vals vs xs

theorem ValArgs.cons {ext : Ext} {s : St} {a : PNode} {args : List PNode} {vs ws : List Nat} (h : ValArgs ext s [a] vs) (h' : ValArgs ext s args ws) :
    ValArgs ext s (a :: args) (vs ++ ws) := by
  obtain ⟨xs, h1, h2⟩ := h
  obtain ⟨ys, h3, h4⟩ := h'
  exact ⟨_, h1.cons h3, h2.append h4⟩

theorem valArgs_rest {ext : Ext} {s : St} {name w : Str} {n : PNode} (h : SameNode (sy ('%' :: name) w) n) {vs : List Nat} {xs : List PNode}
    (hs : s.scope name = some (Macro.var xs)) (hv : Vals vs xs) : ValArgs ext s [n] vs := by
  match n, h with
  | .symbol a, h => exact ⟨_, evals_var h.1.symm hs (macrosFree_evals ext xs hv.free s), hv.spaced _⟩

theorem valArgs_num {ext : Ext} {s : St} {name w : Str} {n : PNode} (h : SameNode (sy ('%' :: name) w) n) {k : Nat} {x : PNode}
    (hs : s.scope name = some (Macro.var [x])) (hv : Num k x) : ValArgs ext s [n] [k] :=
  valArgs_rest h hs (.cons hv .nil)

theorem valArgs_lit {ext : Ext} {s : St} {w : Str} {n : PNode} {k : Nat} (h : SameNode (numNode k w) n) : ValArgs ext s [n] [k] := by
  have := numNode_same _ _ _ h
  exact ⟨_, this.evals ext s, .cons this .nil⟩

/-- A call as it was read. -/
theorem same_call {name w : Str} {T n : PNode} {Ts : List PNode} (h : SameNode (li (sy ('%' :: name) [] :: T :: Ts) w) n) (hT : T.lw = [' ']) :
    ∃ xs si e args, n = .list xs si e w ∧ IsCall name args n ∧ SameNodes (T.setLw [] :: Ts) args := by
  match n, h with
  | .list (.symbol f :: x :: xs) si e w', h =>
    obtain ⟨⟨⟨hf, -⟩, hx, hxs⟩, he, hw⟩ := h
    refine ⟨_, si, e, x.setLw [] :: xs, by rw [hw], .mk f (x :: xs) si e w' hf.symm ?_, sameNode_setLw hx [], hxs⟩
    have : x.lw = [' '] := by rw [← sameNode_lw hx, hT]
    simp [dropFirstBlank, this]

theorem same_cons {a : PNode} {as ns : List PNode} (h : SameNodes (a :: as) ns) : ∃ n ms, ns = n :: ms ∧ SameNode a n ∧ SameNodes as ms := by
  match ns, h with
  | n :: ms, h => exact ⟨n, ms, rfl, h.1, h.2⟩

theorem same_one {a : PNode} {ns : List PNode} (h : SameNodes [a] ns) : ∃ n, ns = [n] ∧ SameNode a n := by
  match ns, h with
  | [n], h => exact ⟨n, rfl, h.1⟩

theorem same_two {a b : PNode} {ns : List PNode} (h : SameNodes [a, b] ns) : ∃ n m, ns = [n, m] ∧ SameNode a n ∧ SameNode b m := by
  match ns, h with
  | [n, m], h => exact ⟨n, m, rfl, h.1, h.2.1⟩

theorem same_sy {t w : Str} {n : PNode} (h : SameNode (sy t w) n) : ∃ a : Node, n = .symbol a ∧ a.value = t ∧ a.lw = w := by
  match n, h with
  | .symbol a, h => exact ⟨a, rfl, h.1.symm, h.2.symm⟩

/-- `(%list ...)`. -/
theorem list_val {ext : Ext} {s : St} {T n : PNode} {Ts : List PNode} {w : Str} {vs : List Nat}
    (h : SameNode (li (sy (str! "%list") [] :: T :: Ts) w) n) (hT : T.lw = [' '])
    (ha : ∀ args, SameNodes (T.setLw [] :: Ts) args → ValArgs ext s args vs) : ∃ o, Evals ext [n] s (.ok [o]) s ∧ IsVal vs o := by
  obtain ⟨xs, si, e, args, rfl, hc, hs⟩ := same_call (name := str! "list") h hT
  obtain ⟨ys, h1, h2⟩ := ha args hs
  exact ⟨_, C51_list ext _ _ _ si e w s s hc h1, _, _, _, _, rfl, h2⟩

/-! ## Nodes that compute -/

/-- The node computes the list of numbers, if it is defined. -/
structure Comes (ext : Ext) (n : PNode) (s : St) (P : Part (List Nat)) : Prop where
  value : ∀ v, v ∈ P → ∃ o, Evals ext [n] s (.ok [o]) s ∧ IsVal v o
  ends : ∀ g, outcome ext n s g ≠ .diverge → P.Dom

theorem gets_value {ext : Ext} {n o : PNode} {s : St} {v : List Nat} (h : Evals ext [n] s (.ok [o]) s) (hv : IsVal v o) : Comes ext n s (Part.some v) :=
  ⟨fun w hw => by rw [Part.mem_some_iff.1 hw]; exact ⟨o, h, hv⟩, fun _ _ => trivial⟩

theorem Tail.gets {ext : Ext} {n n' : PNode} {s s' : St} {P : Part (List Nat)} (h : Tail ext n s n' s') (hs : { s' with scope := s.scope } = s)
    (hg : Comes ext n' s' P) : Comes ext n s P := by
  refine ⟨fun v hv => ?_, fun g hd => ?_⟩
  · obtain ⟨o, h1, h2⟩ := hg.value v hv
    have := h.evals h1
    rw [hs] at this
    exact ⟨o, this, h2⟩
  · obtain ⟨k, -, hk⟩ := h.back hd
    exact hg.ends k hk

theorem Comes.then {ext : Ext} {e n : PNode} {s : St} {P : Part (List Nat)} {F : List Nat → Part (List Nat)} (he : Comes ext e s P)
    (needs : ∀ g, outcome ext n s g ≠ .diverge → ∃ k, k < g ∧ outcome ext e s k ≠ .diverge)
    (h : ∀ v o, v ∈ P → Evals ext [e] s (.ok [o]) s → IsVal v o → Comes ext n s (F v)) : Comes ext n s (P.bind F) := by
  refine ⟨fun v hv => ?_, fun g hg => ?_⟩
  · obtain ⟨w, hw, hv⟩ := Part.mem_bind_iff.1 hv
    obtain ⟨o, h1, h2⟩ := he.value w hw
    exact (h w o hw h1 h2).value v hv
  · obtain ⟨k, -, hk⟩ := needs g hg
    have hd := he.ends k hk
    obtain ⟨w, hw⟩ := Part.dom_iff_mem.1 hd
    obtain ⟨o, h1, h2⟩ := he.value w hw
    obtain ⟨v, hv⟩ := Part.dom_iff_mem.1 ((h w o hw h1 h2).ends g hg)
    exact Part.dom_iff_mem.2 ⟨v, Part.mem_bind_iff.2 ⟨w, hw, hv⟩⟩

/-! ## Patterns -/

/-- A name is bound to nodes. -/
def put (s : St) (x : Str) (ns : List PNode) : St := { s with scope := s.scope.insert x (Macro.var ns) }

theorem put_same (s : St) (x : Str) (ns : List PNode) : (put s x ns).scope x = some (Macro.var ns) := by simp [put, Scope.insert]

theorem put_other (s : St) {x y : Str} (h : y ≠ x) (ns : List PNode) : (put s x ns).scope y = s.scope y := by simp [put, Scope.insert, h]

def patNil : PNode := li [] []
def patXY : PNode := li [sy (str! "x") [], sy (str! "&y") [' ']] []
def patZeroY : PNode := li [li [] [], sy (str! "&y") [' ']] []
def patSuccY : PNode := li [li [sy (str! "p") []] [], sy (str! "&y") [' ']] []
def patY : PNode := li [sy (str! "&y") []] []

theorem takeRest_vals {vs : List Nat} {xs : List PNode} (h : Vals vs xs) (named : List (Str × PNode)) : takeRest named xs = (named, xs) := by
  induction h with
  | nil => rfl
  | cons h _ ih =>
    obtain ⟨_, _, _, _, rfl⟩ := h.isList
    simp [takeRest, ih]

theorem bindRest {vs : List Nat} {xs : List PNode} (h : Vals vs xs) (assigned : PNode) (k : Nat) (y : Node) (hy : y.value = str! "&y") (s : St) :
    bindLoop assigned { rest := none, kwRest := none, expected := k, rhs := [], lhs := [] } [.symbol y] xs s = (.ok (), put s (str! "y") xs) := by
  have hy' : y = ⟨str! "&y", y.site, y.lw⟩ := by rw [← hy]
  rw [hy']
  have e : bindLoop assigned { rest := none, kwRest := none, expected := k, rhs := [], lhs := [] } [.symbol ⟨str! "&y", y.site, y.lw⟩] xs =
      bindEnd { rest := some (str! "&y"), kwRest := none, expected := k, rhs := [], lhs := [] } xs := by
    simp only [bindLoop]
    rfl
  rw [e]
  unfold bindEnd
  simp only [takeRest_vals h]
  rfl

theorem patNil_free {n : PNode} (h : SameNode patNil n) : MacroFree n := by
  obtain ⟨ms, si, e, rfl, h⟩ := same_list h
  match ms, h with
  | [], _ => exact .list _ _ _ _ .nil

theorem patNil_nil {n : PNode} (h : SameNode patNil n) {o : PNode} (ho : IsVal [] o) (s : St) : bind n o s = (.ok (), s) := by
  obtain ⟨ms, si, e, rfl, h⟩ := same_list h
  obtain ⟨xs, _, _, _, rfl, hx⟩ := ho
  match ms, h with
  | [], _ =>
    cases hx
    rfl

theorem patNil_cons {n : PNode} (h : SameNode patNil n) {k : Nat} {v : List Nat} {o : PNode} (ho : IsVal (k :: v) o) (s : St) :
    ∃ e, bind n o s = (.err e, s) := by
  obtain ⟨ms, si, e, rfl, h⟩ := same_list h
  obtain ⟨xs, _, _, _, rfl, hx⟩ := ho
  match ms, h with
  | [], _ =>
    have ht := takeRest_vals hx []
    cases hx with
    | @cons _ x _ xs h1 h2 =>
      have hl : ∃ z, (x :: xs).getLast? = some z := ⟨_, List.getLast?_eq_some_getLast (by simp)⟩
      obtain ⟨z, hl⟩ := hl
      refine ⟨expErr "Excess number of arguments." z.site, ?_⟩
      show bindEnd BindAcc.init (x :: xs) s = _
      unfold bindEnd
      have e : BindAcc.init.rhs = [] := rfl
      have e' : BindAcc.init.rest = none := rfl
      simp only [e, ht, e', hl]
      rfl

theorem bindLoop_first {p x : PNode} {n : Nat} {xs ps : List PNode} (assigned : PNode) (hp : p.attribute? = none) (h1 : isKwRest p = false) (h2 : isRest p = false)
    (hx : Num n x) (s : St) : bindLoop assigned BindAcc.init (p :: ps) (x :: xs) s =
      (bind p x >>= fun _ => bindLoop assigned { rest := none, kwRest := none, expected := 1, rhs := [], lhs := [] } ps xs) s := by
  obtain ⟨_, _, _, _, rfl⟩ := hx.isList
  cases p <;> first | (simp [PNode.attribute?] at hp; done) | (simp only [bindLoop, h1, h2]; rfl)

theorem rest_free {y : Node} (hy : y.value = str! "&y") : MacroFree (.symbol y) := .symbol _ (by rw [hy]; simp)

theorem patXY_same {n : PNode} (h : SameNode patXY n) : ∃ (x y : Node) (si : Site) (e : Token) (w : Str), n = .list [.symbol x, .symbol y] si e w ∧
    x.value = str! "x" ∧ y.value = str! "&y" := by
  obtain ⟨ms, si, e, rfl, hh⟩ := same_list h
  obtain ⟨a, b, rfl, ha, hb⟩ := same_two hh
  obtain ⟨a, rfl, ha, -⟩ := same_sy ha
  obtain ⟨b, rfl, hb, -⟩ := same_sy hb
  exact ⟨a, b, _, _, _, rfl, ha, hb⟩

theorem patXY_free {n : PNode} (h : SameNode patXY n) : MacroFree n := by
  obtain ⟨x, y, si, e, w, rfl, hx, hy⟩ := patXY_same h
  exact .list _ _ _ _ (.cons _ _ (.symbol _ (by rw [hx]; simp)) (.cons _ _ (rest_free hy) .nil))

theorem patXY_cons {n : PNode} (h : SameNode patXY n) {k : Nat} {v : List Nat} {x : PNode} {xs : List PNode} (hk : Num k x) (hv : Vals v xs)
    (si : Site) (e : Token) (w : Str) (s : St) : bind n (.list (x :: xs) si e w) s = (.ok (), put (put s (str! "x") [x]) (str! "y") xs) := by
  obtain ⟨a, b, si', e', w', rfl, ha, hb⟩ := patXY_same h
  have ha' : a = ⟨str! "x", a.site, a.lw⟩ := by rw [← ha]
  show bindLoop _ BindAcc.init _ (x :: xs) s = _
  rw [bindLoop_first _ rfl (by rw [ha']; rfl) (by rw [ha']; rfl) hk]
  have e1 : bind (.symbol a) x s = (.ok (), put s (str! "x") [x]) := by rw [ha']; rfl
  rw [M.bind_ok e1, bindRest hv _ _ _ hb]

/-- The patterns for a list that is not empty. -/
theorem patFirst_same {F n : PNode} (h : SameNode (li [F, sy (str! "&y") [' ']] []) n) : ∃ (f : PNode) (y : Node) (si : Site) (e : Token) (w : Str),
    n = .list [f, .symbol y] si e w ∧ SameNode F f ∧ y.value = str! "&y" := by
  obtain ⟨ms, si, e, rfl, hh⟩ := same_list h
  obtain ⟨a, b, rfl, ha, hb⟩ := same_two hh
  obtain ⟨b, rfl, hb, -⟩ := same_sy hb
  exact ⟨a, b, _, _, _, rfl, ha, hb⟩

theorem patP_same {n : PNode} (h : SameNode (li [sy (str! "p") []] []) n) : ∃ (x : Node) (si : Site) (e : Token) (w : Str), n = .list [.symbol x] si e w ∧
    x.value = str! "p" := by
  obtain ⟨ms, si, e, rfl, hh⟩ := same_list h
  obtain ⟨a, rfl, ha⟩ := same_one hh
  obtain ⟨a, rfl, ha, -⟩ := same_sy ha
  exact ⟨a, _, _, _, rfl, ha⟩

theorem patZeroY_free {n : PNode} (h : SameNode patZeroY n) : MacroFree n := by
  obtain ⟨f, y, si, e, w, rfl, hf, hy⟩ := patFirst_same h
  exact .list _ _ _ _ (.cons _ _ (patNil_free hf) (.cons _ _ (rest_free hy) .nil))

theorem patSuccY_free {n : PNode} (h : SameNode patSuccY n) : MacroFree n := by
  obtain ⟨f, y, si, e, w, rfl, hf, hy⟩ := patFirst_same h
  obtain ⟨x, _, _, _, rfl, hx⟩ := patP_same hf
  exact .list _ _ _ _ (.cons _ _ (.list _ _ _ _ (.cons _ _ (.symbol _ (by rw [hx]; simp)) .nil)) (.cons _ _ (rest_free hy) .nil))

theorem num_zero {x : PNode} (h : Num 0 x) : IsVal [] x := by
  cases h
  exact ⟨_, _, _, _, rfl, .nil⟩

theorem num_succ {k : Nat} {x : PNode} (h : Num (k + 1) x) : ∃ p si e w, x = .list [p] si e w ∧ Num k p := by
  cases h
  exact ⟨_, _, _, _, rfl, by assumption⟩

theorem num_succ_val {k : Nat} {x : PNode} (h : Num (k + 1) x) : IsVal [k] x := by
  obtain ⟨p, _, _, _, rfl, hp⟩ := num_succ h
  exact ⟨_, _, _, _, rfl, .cons hp .nil⟩

theorem patZeroY_zero {n : PNode} (h : SameNode patZeroY n) {v : List Nat} {x : PNode} {xs : List PNode} (hk : Num 0 x) (hv : Vals v xs)
    (si : Site) (e : Token) (w : Str) (s : St) : bind n (.list (x :: xs) si e w) s = (.ok (), put s (str! "y") xs) := by
  obtain ⟨f, b, si', e', w', rfl, hf, hb⟩ := patFirst_same h
  have hl : ∃ ms si e w, f = .list ms si e w := by
    obtain ⟨ms, si, e, rfl, -⟩ := same_list hf
    exact ⟨_, _, _, _, rfl⟩
  show bindLoop _ BindAcc.init _ (x :: xs) s = _
  rw [bindLoop_first _ (by obtain ⟨_, _, _, _, rfl⟩ := hl; rfl) (by obtain ⟨_, _, _, _, rfl⟩ := hl; rfl)
    (by obtain ⟨_, _, _, _, rfl⟩ := hl; rfl) hk]
  rw [M.bind_ok (patNil_nil hf (num_zero hk) s), bindRest hv _ _ _ hb]

theorem patZeroY_succ {n : PNode} (h : SameNode patZeroY n) {k : Nat} {x : PNode} {xs : List PNode} (hk : Num (k + 1) x)
    (si : Site) (e : Token) (w : Str) (s : St) : ∃ er, bind n (.list (x :: xs) si e w) s = (.err er, s) := by
  obtain ⟨f, b, si', e', w', rfl, hf, hb⟩ := patFirst_same h
  have hl : ∃ ms si e w, f = .list ms si e w := by
    obtain ⟨ms, si, e, rfl, -⟩ := same_list hf
    exact ⟨_, _, _, _, rfl⟩
  obtain ⟨er, he⟩ := patNil_cons hf (num_succ_val hk) s
  refine ⟨er, ?_⟩
  show bindLoop _ BindAcc.init _ (x :: xs) s = _
  rw [bindLoop_first _ (by obtain ⟨_, _, _, _, rfl⟩ := hl; rfl) (by obtain ⟨_, _, _, _, rfl⟩ := hl; rfl)
    (by obtain ⟨_, _, _, _, rfl⟩ := hl; rfl) hk]
  exact M.bind_err he

theorem patSuccY_succ {n : PNode} (h : SameNode patSuccY n) {k : Nat} {v : List Nat} {x : PNode} {xs : List PNode} (hk : Num (k + 1) x) (hv : Vals v xs)
    (si : Site) (e : Token) (w : Str) (s : St) : ∃ p, Num k p ∧
    bind n (.list (x :: xs) si e w) s = (.ok (), put (put s (str! "p") [p]) (str! "y") xs) := by
  obtain ⟨f, b, si', e', w', rfl, hf, hb⟩ := patFirst_same h
  obtain ⟨a, _, _, _, rfl, ha⟩ := patP_same hf
  have ha' : a = ⟨str! "p", a.site, a.lw⟩ := by rw [← ha]
  obtain ⟨p, s1, e1, w1, rfl, hp⟩ := num_succ hk
  refine ⟨p, hp, ?_⟩
  show bindLoop _ BindAcc.init _ (.list [p] s1 e1 w1 :: xs) s = _
  rw [bindLoop_first _ rfl rfl rfl hk]
  obtain ⟨_, _, _, _, rfl⟩ := hp.isList
  rw [M.bind_ok (show _ = (Res.ok (), put s (str! "p") [_]) by rw [ha']; rfl), bindRest hv _ _ _ hb]

theorem patY_all {n : PNode} (h : SameNode patY n) {v : List Nat} {xs : List PNode} (hv : Vals v xs)
    (si : Site) (e : Token) (w : Str) (s : St) : MacroFree n ∧ bind n (.list xs si e w) s = (.ok (), put s (str! "y") xs) := by
  obtain ⟨ms, si, e, rfl, hh⟩ := same_list h
  obtain ⟨a, rfl, ha⟩ := same_one hh
  obtain ⟨a, rfl, ha, -⟩ := same_sy ha
  exact ⟨.list _ _ _ _ (.cons _ _ (rest_free ha) .nil), bindRest hv _ _ _ ha s⟩

def clause (pat body : PNode) : PNode := li [pat, body] [' ']

theorem clause_same {pat body n : PNode} (h : SameNode (clause pat body) n) :
    ∃ p b si e w, n = .list [p, b] si e w ∧ SameNode pat p ∧ SameNode body b := by
  obtain ⟨ms, si, e, rfl, hh⟩ := same_list h
  obtain ⟨a, b, rfl, ha, hb⟩ := same_two hh
  exact ⟨a, b, _, _, _, rfl, ha, hb⟩

theorem clauses_any (ext : Ext) {B o : PNode} {cs : List PNode} {v : List Nat} (h : SameNodes [clause patY B] cs) (ho : IsVal v o) (s : St) :
    ∃ b xs, SameNode B b ∧ Vals v xs ∧ Clauses ext o cs s b (put s (str! "y") xs) := by
  obtain ⟨c, rfl, hc⟩ := same_one h
  obtain ⟨p, b, _, _, _, rfl, hp, hb⟩ := clause_same hc
  obtain ⟨xs, _, _, _, rfl, hx⟩ := ho
  obtain ⟨h1, h2⟩ := patY_all hp hx ‹_› ‹_› ‹_› s
  exact ⟨b, xs, hb, hx, clauses_take h1 h2⟩

theorem clauses_two (ext : Ext) {B0 B1 o : PNode} {cs : List PNode} {v : List Nat} (h : SameNodes [clause patNil B0, clause patXY B1] cs) (ho : IsVal v o) (s : St) :
    (v = [] → ∃ b, SameNode B0 b ∧ Clauses ext o cs s b s) ∧
    (∀ k t, v = k :: t → ∃ b x xs, SameNode B1 b ∧ Num k x ∧ Vals t xs ∧ Clauses ext o cs s b (put (put s (str! "x") [x]) (str! "y") xs)) := by
  obtain ⟨c0, c1, rfl, h0, h1⟩ := same_two h
  obtain ⟨p0, b0, _, _, _, rfl, hp0, hb0⟩ := clause_same h0
  obtain ⟨p1, b1, _, _, _, rfl, hp1, hb1⟩ := clause_same h1
  refine ⟨?_, ?_⟩
  · rintro rfl
    exact ⟨b0, hb0, clauses_take (patNil_free hp0) (patNil_nil hp0 ho s)⟩
  · rintro k t rfl
    obtain ⟨er, he⟩ := patNil_cons hp0 ho s
    obtain ⟨xs, _, _, _, rfl, hx⟩ := ho
    cases hx with
    | @cons _ x _ xs hk ht =>
      exact ⟨b1, x, xs, hb1, hk, ht, clauses_skip (patNil_free hp0) he rfl (clauses_take (patXY_free hp1) (patXY_cons hp1 hk ht _ _ _ s))⟩

theorem clauses_three (ext : Ext) {B0 B1 B2 o : PNode} {cs : List PNode} {v : List Nat}
    (h : SameNodes [clause patNil B0, clause patZeroY B1, clause patSuccY B2] cs) (ho : IsVal v o) (s : St) :
    (v = [] → ∃ b, SameNode B0 b ∧ Clauses ext o cs s b s) ∧
    (∀ t, v = 0 :: t → ∃ b xs, SameNode B1 b ∧ Vals t xs ∧ Clauses ext o cs s b (put s (str! "y") xs)) ∧
    (∀ k t, v = (k + 1) :: t → ∃ b p xs, SameNode B2 b ∧ Num k p ∧ Vals t xs ∧ Clauses ext o cs s b (put (put s (str! "p") [p]) (str! "y") xs)) := by
  obtain ⟨c0, cs', rfl, h0, h'⟩ := same_cons h
  obtain ⟨c1, c2, rfl, h1, h2⟩ := same_two h'
  obtain ⟨p0, b0, _, _, _, rfl, hp0, hb0⟩ := clause_same h0
  obtain ⟨p1, b1, _, _, _, rfl, hp1, hb1⟩ := clause_same h1
  obtain ⟨p2, b2, _, _, _, rfl, hp2, hb2⟩ := clause_same h2
  refine ⟨?_, ?_, ?_⟩
  · rintro rfl
    exact ⟨b0, hb0, clauses_take (patNil_free hp0) (patNil_nil hp0 ho s)⟩
  · rintro t rfl
    obtain ⟨er, he⟩ := patNil_cons hp0 ho s
    obtain ⟨xs, _, _, _, rfl, hx⟩ := ho
    cases hx with
    | @cons _ x _ xs hk ht =>
      exact ⟨b1, xs, hb1, ht, clauses_skip (patNil_free hp0) he rfl (clauses_take (patZeroY_free hp1) (patZeroY_zero hp1 hk ht _ _ _ s))⟩
  · rintro k t rfl
    obtain ⟨er, he⟩ := patNil_cons hp0 ho s
    obtain ⟨xs, _, _, _, rfl, hx⟩ := ho
    cases hx with
    | @cons _ x _ xs hk ht =>
      obtain ⟨er', he'⟩ := patZeroY_succ hp1 (xs := xs) hk ‹_› ‹_› ‹_› s
      obtain ⟨p, hp, hb⟩ := patSuccY_succ hp2 hk ht ‹_› ‹_› ‹_› s
      exact ⟨b2, p, xs, hb2, hp, ht, clauses_skip (patNil_free hp0) he rfl (clauses_skip (patZeroY_free hp1) he' rfl
        (clauses_take (patSuccY_free hp2) hb))⟩

end Seam
