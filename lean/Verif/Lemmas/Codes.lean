import Verif.Lemmas.Compute

/-! Mathlib's `Turing.ToPartrec.Code` as definitions of macros. -/

namespace Seam
open Spec
open Turing.ToPartrec (Code)

/-! ## The nodes -/

/-- The macro for the part of a code at a place. -/
def partName (place : Str) : Str := 'q' :: place

def vr (x : Str) (w : Str) : PNode := sy ('%' :: x) w
def lst (n : PNode) (ns : List PNode) (w : Str) : PNode := li (sy (str! "%list") [] :: n :: ns) w
def mat (n : PNode) (ns : List PNode) (w : Str) : PNode := li (sy (str! "%match") [] :: n :: ns) w
def use (name : Str) (n : PNode) (w : Str) : PNode := li [sy ('%' :: name) [], n] w

/-- The body of the macro for a code. -/
def codeBody (place : Str) : Code → PNode
  | .zero' => mat (vr (str! "v") [' ']) [clause patY (lst (numNode 0 [' ']) [vr (str! "y") [' ']] [' '])] []
  | .succ => mat (vr (str! "v") [' ']) [clause patNil (lst (numNode 1 [' ']) [] [' ']),
      clause patXY (lst (lst (vr (str! "x") [' ']) [] [' ']) [] [' '])] []
  | .tail => mat (vr (str! "v") [' ']) [clause patNil (li [] [' ']), clause patXY (lst (vr (str! "y") [' ']) [] [' '])] []
  | .cons _ _ => mat (use (partName (place ++ ['l'])) (vr (str! "v") [' ']) [' '])
      [clause patNil (mat (use (partName (place ++ ['r'])) (vr (str! "v") [' ']) [' '])
        [clause patY (lst (numNode 0 [' ']) [vr (str! "y") [' ']] [' '])] [' ']),
       clause patXY (mat (use (partName (place ++ ['r'])) (vr (str! "v") [' ']) [' '])
        [clause patY (lst (vr (str! "x") [' ']) [vr (str! "y") [' ']] [' '])] [' '])] []
  | .comp _ _ => use (partName (place ++ ['l'])) (use (partName (place ++ ['r'])) (vr (str! "v") [' ']) [' ']) []
  | .case _ _ => mat (vr (str! "v") [' ']) [clause patNil (use (partName (place ++ ['l'])) (li [] [' ']) [' ']),
      clause patZeroY (use (partName (place ++ ['l'])) (lst (vr (str! "y") [' ']) [] [' ']) [' ']),
      clause patSuccY (use (partName (place ++ ['r'])) (lst (vr (str! "p") [' ']) [vr (str! "y") [' ']] [' ']) [' '])] []
  | .fix _ => mat (use (partName (place ++ ['l'])) (vr (str! "v") [' ']) [' ']) [clause patNil (li [] [' ']),
      clause patZeroY (lst (vr (str! "y") [' ']) [] [' ']),
      clause patSuccY (use (partName place) (lst (vr (str! "y") [' ']) [] [' ']) [' '])] []

/-- The definition of the macro for a code. -/
def codeDef (place : Str) (c : Code) : PNode :=
  li [sy (str! "%define") [], li [sy (partName place) [], sy (str! "v") [' ']] [' '], codeBody place c] []

/-- The definitions of the macros for a code and its parts. -/
def codeDefs (place : Str) : Code → List PNode
  | .cons f g => codeDefs (place ++ ['l']) f ++ codeDefs (place ++ ['r']) g ++ [codeDef place (.cons f g)]
  | .comp f g => codeDefs (place ++ ['l']) f ++ codeDefs (place ++ ['r']) g ++ [codeDef place (.comp f g)]
  | .case f g => codeDefs (place ++ ['l']) f ++ codeDefs (place ++ ['r']) g ++ [codeDef place (.case f g)]
  | .fix f => codeDefs (place ++ ['l']) f ++ [codeDef place (.fix f)]
  | c => [codeDef place c]

/-! ## The definitions are there -/

/-- The macro for this part. -/
def HasOne (sc : Scope) (place : Str) (c : Code) : Prop :=
  ∃ m, sc (partName place) = some m ∧ SameNodes [sy (str! "v") [' ']] m.params ∧ SameNodes [codeBody place c] m.body

/-- The macros for the code and its parts. -/
def Has (sc : Scope) (place : Str) : Code → Prop
  | .cons f g => HasOne sc place (.cons f g) ∧ Has sc (place ++ ['l']) f ∧ Has sc (place ++ ['r']) g
  | .comp f g => HasOne sc place (.comp f g) ∧ Has sc (place ++ ['l']) f ∧ Has sc (place ++ ['r']) g
  | .case f g => HasOne sc place (.case f g) ∧ Has sc (place ++ ['l']) f ∧ Has sc (place ++ ['r']) g
  | .fix f => HasOne sc place (.fix f) ∧ Has sc (place ++ ['l']) f
  | c => HasOne sc place c

theorem Has.one {sc : Scope} {place : Str} : ∀ {c : Code}, Has sc place c → HasOne sc place c
  | .zero', h => h
  | .succ, h => h
  | .tail, h => h
  | .cons _ _, h => h.1
  | .comp _ _, h => h.1
  | .case _ _, h => h.1
  | .fix _, h => h.1

theorem HasOne.congr {sc sc' : Scope} {place : Str} {c : Code} (h : ∀ p, place <+: p → sc' (partName p) = sc (partName p)) (hh : HasOne sc place c) :
    HasOne sc' place c := by
  obtain ⟨m, h1, h2⟩ := hh
  exact ⟨m, by rw [h _ List.prefix_rfl, h1], h2⟩

theorem below_prefix {place p : Str} {c : Char} (h : place ++ [c] <+: p) : place <+: p := (List.prefix_append _ _).trans h

theorem Has.congr {sc sc' : Scope} : ∀ {place : Str} {c : Code}, (∀ p, place <+: p → sc' (partName p) = sc (partName p)) → Has sc place c → Has sc' place c
  | _, .zero', h, hh => HasOne.congr h hh
  | _, .succ, h, hh => HasOne.congr h hh
  | _, .tail, h, hh => HasOne.congr h hh
  | _, .cons _ _, h, hh => ⟨hh.1.congr h, Has.congr (fun p hp => h p (below_prefix hp)) hh.2.1, Has.congr (fun p hp => h p (below_prefix hp)) hh.2.2⟩
  | _, .comp _ _, h, hh => ⟨hh.1.congr h, Has.congr (fun p hp => h p (below_prefix hp)) hh.2.1, Has.congr (fun p hp => h p (below_prefix hp)) hh.2.2⟩
  | _, .case _ _, h, hh => ⟨hh.1.congr h, Has.congr (fun p hp => h p (below_prefix hp)) hh.2.1, Has.congr (fun p hp => h p (below_prefix hp)) hh.2.2⟩
  | _, .fix _, h, hh => ⟨hh.1.congr h, Has.congr (fun p hp => h p (below_prefix hp)) hh.2⟩

theorem Has.bound {s : St} {place : Str} {c : Code} (h : Has s.scope place c) {x : Char} (hx : x ≠ 'q') (ns : List PNode) :
    Has (put s [x] ns).scope place c :=
  h.congr fun p _ => put_other s (by simp only [partName, ne_eq, List.cons.injEq, not_and]; intro e; exact absurd e.symm hx) ns

theorem part_builtin (place : Str) : builtin? (partName place) = none := by
  unfold builtin? amGet
  rfl

theorem bind_one (c : PNode) {x : Node} (hx : x.value = str! "v") {v : List Nat} {o : PNode} (ho : IsVal v o) (s : St) :
    bindList c [.symbol x] [o] s = (.ok (), put s (str! "v") [o]) := by
  have hx' : x = ⟨str! "v", x.site, x.lw⟩ := by rw [← hx]
  rw [hx']
  obtain ⟨_, _, _, _, rfl, -⟩ := ho
  rfl

/-- A call of the macro for a code is the expansion of its body. -/
theorem Has.enter {ext : Ext} {place : Str} {c : Code} {s : St} {call arg o : PNode} {v : List Nat} (h : Has s.scope place c)
    (hc : IsCall (partName place) [arg] call) (ha : Evals ext [arg] s (.ok [o]) s) (ho : IsVal v o) :
    ∃ b, SameNode (codeBody place c) b ∧ Tail ext call s b (put s (str! "v") [o]) := by
  obtain ⟨m, h1, h2, h3⟩ := h.one
  obtain ⟨b, hb, h3⟩ := same_one h3
  obtain ⟨x, hx, h2⟩ := same_one h2
  obtain ⟨x, rfl, h2, -⟩ := same_sy h2
  exact ⟨b, h3, tail_user hc (part_builtin _) ha h1 (by rw [hx]; exact bind_one call h2 ho s) hb⟩

/-! ## What the nodes give -/

theorem var_val {ext : Ext} {s : St} {x w : Str} {n o : PNode} {v : List Nat} (h : SameNode (vr x w) n) (hs : s.scope x = some (Macro.var [o]))
    (ho : IsVal v o) : ∃ o', Evals ext [n] s (.ok [o']) s ∧ IsVal v o' := by
  obtain ⟨a, rfl, ha, -⟩ := same_sy h
  exact ⟨_, evals_var ha hs (macroFree_evals ext o ho.free s), ho.setLw _⟩

theorem nil_val {ext : Ext} {s : St} {w : Str} {n : PNode} (h : SameNode (li [] w) n) : ∃ o', Evals ext [n] s (.ok [o']) s ∧ IsVal [] o' := by
  obtain ⟨ms, si, e, rfl, h⟩ := same_list h
  match ms, h with
  | [], _ => exact ⟨_, macroFree_evals ext _ (.list _ _ _ _ .nil) s, _, _, _, _, rfl, .nil⟩

theorem gets_of {ext : Ext} {n : PNode} {s : St} {v : List Nat} (h : ∃ o, Evals ext [n] s (.ok [o]) s ∧ IsVal v o) : Comes ext n s (Part.some v) := by
  obtain ⟨o, h1, h2⟩ := h
  exact gets_value h1 h2

/-- `(%list %x)` for the rest of a list. -/
theorem lst_rest {ext : Ext} {s : St} {x w : Str} {n : PNode} {v : List Nat} {xs : List PNode} (h : SameNode (lst (vr x [' ']) [] w) n)
    (hs : s.scope x = some (Macro.var xs)) (hv : Vals v xs) : ∃ o, Evals ext [n] s (.ok [o]) s ∧ IsVal v o :=
  list_val h rfl fun args ha => by
    obtain ⟨a, rfl, hb⟩ := same_one ha
    exact valArgs_rest hb hs hv

/-- `(%list %x %y)` for a number and the rest of a list. -/
theorem lst_two {ext : Ext} {s : St} {x y w : Str} {n p : PNode} {k : Nat} {v : List Nat} {xs : List PNode}
    (h : SameNode (lst (vr x [' ']) [vr y [' ']] w) n)
    (hp : s.scope x = some (Macro.var [p])) (hk : Num k p) (hs : s.scope y = some (Macro.var xs)) (hv : Vals v xs) :
    ∃ o, Evals ext [n] s (.ok [o]) s ∧ IsVal (k :: v) o :=
  list_val (vs := [k] ++ v) h rfl fun args ha => by
    obtain ⟨a, b, rfl, ha, hb⟩ := same_two ha
    exact (valArgs_num ha hp hk).cons (valArgs_rest hb hs hv)

/-- `(%list () %y)`. -/
theorem lst_zero {ext : Ext} {s : St} {y w : Str} {n : PNode} {v : List Nat} {xs : List PNode}
    (h : SameNode (lst (numNode 0 [' ']) [vr y [' ']] w) n) (hs : s.scope y = some (Macro.var xs)) (hv : Vals v xs) :
    ∃ o, Evals ext [n] s (.ok [o]) s ∧ IsVal (0 :: v) o :=
  list_val (vs := [0] ++ v) h rfl fun args ha => by
    obtain ⟨a, b, rfl, ha, hb⟩ := same_two ha
    exact (valArgs_lit (k := 0) (w := []) ha).cons (valArgs_rest hb hs hv)

/-- `(%list (()))`. -/
theorem lst_one {ext : Ext} {s : St} {w : Str} {n : PNode} (h : SameNode (lst (numNode 1 [' ']) [] w) n) :
    ∃ o, Evals ext [n] s (.ok [o]) s ∧ IsVal [1] o :=
  list_val h rfl fun args ha => by
    obtain ⟨a, rfl, hb⟩ := same_one ha
    exact valArgs_lit (k := 1) (w := []) hb

/-- `(%list (%list %x))`. -/
theorem lst_succ {ext : Ext} {s : St} {x w : Str} {n p : PNode} {k : Nat} (h : SameNode (lst (lst (vr x [' ']) [] [' ']) [] w) n)
    (hp : s.scope x = some (Macro.var [p])) (hk : Num k p) : ∃ o, Evals ext [n] s (.ok [o]) s ∧ IsVal [k + 1] o :=
  list_val h rfl fun args ha => by
    obtain ⟨a, rfl, hb⟩ := same_one ha
    obtain ⟨v, h1, h2⟩ := value_succ (w := []) hb hk hp
    exact ⟨[v], h1, .cons h2 .nil⟩

theorem mat_same {T n : PNode} {Ts : List PNode} {w : Str} (h : SameNode (mat T Ts w) n) (hT : T.lw = [' ']) :
    ∃ e cs, IsCall (str! "match") (e :: cs) n ∧ SameNode (T.setLw []) e ∧ SameNodes Ts cs := by
  obtain ⟨xs, si, e, args, rfl, hc, hs⟩ := same_call (name := str! "match") h hT
  obtain ⟨e, cs, rfl, h1, h2⟩ := same_cons hs
  exact ⟨e, cs, hc, h1, h2⟩

theorem use_same {name : Str} {T n : PNode} {w : Str} (h : SameNode (use name T w) n) (hT : T.lw = [' ']) :
    ∃ e, IsCall name [e] n ∧ SameNode (T.setLw []) e := by
  obtain ⟨xs, si, e, args, rfl, hc, hs⟩ := same_call (name := name) h hT
  obtain ⟨e, rfl, h1⟩ := same_one hs
  exact ⟨e, hc, h1⟩

/-- A `%match`. -/
theorem mat_gets {ext : Ext} {e n : PNode} {cs : List PNode} {s : St} {P : Part (List Nat)} {F : List Nat → Part (List Nat)}
    (hc : IsCall (str! "match") (e :: cs) n) (he : Comes ext e s P)
    (h : ∀ v o, IsVal v o → ∃ b s', Clauses ext o cs s b s' ∧ { s' with scope := s.scope } = s ∧ Comes ext b s' (F v)) : Comes ext n s (P.bind F) :=
  he.then (fun g hg => match_needs hc hg) fun v o _ h1 h2 => by
    obtain ⟨b, s', h3, h4, h5⟩ := h v o h2
    exact (tail_match hc h1 h3).gets h4 h5

/-! ## The macros compute what the codes do -/

/-- What is to be shown of a code. -/
def Computes (ext : Ext) (c : Code) : Prop :=
  ∀ (place : Str) (s : St) (call arg o : PNode) (v : List Nat), Has s.scope place c → IsCall (partName place) [arg] call →
    Evals ext [arg] s (.ok [o]) s → IsVal v o → Comes ext call s (c.eval v)

theorem Computes.use {ext : Ext} {c : Code} (h : Computes ext c) {place w : Str} {s : St} {T n : PNode} {v : List Nat} (hh : Has s.scope place c)
    (hn : SameNode (use (partName place) T w) n) (hT : T.lw = [' ']) (ha : ∀ a, SameNode (T.setLw []) a → ∃ o, Evals ext [a] s (.ok [o]) s ∧ IsVal v o) :
    Comes ext n s (c.eval v) := by
  obtain ⟨e, hc, he⟩ := use_same hn hT
  obtain ⟨o, h1, h2⟩ := ha e he
  exact h place s n e o v hh hc h1 h2

theorem computes_zero (ext : Ext) : Computes ext .zero' := by
  intro place s call arg o v hh hc ha ho
  obtain ⟨b, hb, ht⟩ := hh.enter hc ha ho
  refine ht.gets rfl ?_
  obtain ⟨e, cs, hm, he, hcs⟩ := mat_same hb rfl
  have := mat_gets (F := fun v => Part.some (0 :: v)) hm (gets_of (var_val (x := str! "v") (w := []) he (put_same _ _ _) ho)) fun v o2 ho2 => by
    obtain ⟨b, xs, h1, h2, h3⟩ := clauses_any ext hcs ho2 (put s (str! "v") [o])
    exact ⟨b, _, h3, rfl, gets_of (lst_zero h1 (put_same _ _ _) h2)⟩
  rw [Part.bind_some] at this
  rw [Code.zero'_eval]
  exact this

theorem computes_succ (ext : Ext) : Computes ext .succ := by
  intro place s call arg o v hh hc ha ho
  obtain ⟨b, hb, ht⟩ := hh.enter hc ha ho
  refine ht.gets rfl ?_
  obtain ⟨e, cs, hm, he, hcs⟩ := mat_same hb rfl
  have := mat_gets (F := fun v => Part.some [v.headI.succ]) hm (gets_of (var_val (x := str! "v") (w := []) he (put_same _ _ _) ho)) fun v o2 ho2 => by
    obtain ⟨h1, h2⟩ := clauses_two ext hcs ho2 (put s (str! "v") [o])
    match v, h1, h2 with
    | [], h1, h2 =>
      obtain ⟨b, h3, h4⟩ := h1 rfl
      exact ⟨b, _, h4, rfl, gets_of (lst_one h3)⟩
    | k :: t, h1, h2 =>
      obtain ⟨b, x, xs, h3, h4, h5, h6⟩ := h2 k t rfl
      exact ⟨b, _, h6, rfl, gets_of (lst_succ (x := str! "x") h3 (by rw [put_other _ (by decide), put_same]) h4)⟩
  rw [Part.bind_some] at this
  rw [Code.succ_eval]
  exact this

theorem computes_tail (ext : Ext) : Computes ext .tail := by
  intro place s call arg o v hh hc ha ho
  obtain ⟨b, hb, ht⟩ := hh.enter hc ha ho
  refine ht.gets rfl ?_
  obtain ⟨e, cs, hm, he, hcs⟩ := mat_same hb rfl
  have := mat_gets (F := fun v => Part.some v.tail) hm (gets_of (var_val (x := str! "v") (w := []) he (put_same _ _ _) ho)) fun v o2 ho2 => by
    obtain ⟨h1, h2⟩ := clauses_two ext hcs ho2 (put s (str! "v") [o])
    match v, h1, h2 with
    | [], h1, h2 =>
      obtain ⟨b, h3, h4⟩ := h1 rfl
      exact ⟨b, _, h4, rfl, gets_of (nil_val h3)⟩
    | k :: t, h1, h2 =>
      obtain ⟨b, x, xs, h3, h4, h5, h6⟩ := h2 k t rfl
      exact ⟨b, _, h6, rfl, gets_of (lst_rest (x := str! "y") h3 (put_same _ _ _) h5)⟩
  rw [Part.bind_some] at this
  rw [Code.tail_eval]
  exact this

/-- The state in which the body of a clause is expanded has the macros and the argument. -/
theorem put_var (s : St) {x y : Char} (h : y ≠ x) (ns : List PNode) : (put s [x] ns).scope [y] = s.scope [y] := put_other s (by simpa using h) ns

theorem computes_cons {ext : Ext} {f g : Code} (hf : Computes ext f) (hg : Computes ext g) : Computes ext (.cons f g) := by
  intro place s call arg o v hh hc ha ho
  obtain ⟨b, hb, ht⟩ := hh.enter hc ha ho
  refine ht.gets rfl ?_
  have h1 : Has (put s (str! "v") [o]).scope (place ++ ['l']) f := hh.2.1.bound (by decide) _
  have h2 : Has (put s (str! "v") [o]).scope (place ++ ['r']) g := hh.2.2.bound (by decide) _
  have hv : (put s (str! "v") [o]).scope (str! "v") = some (Macro.var [o]) := put_same _ _ _
  have hs : { put s (str! "v") [o] with scope := (put s (str! "v") [o]).scope } = put s (str! "v") [o] := rfl
  generalize put s (str! "v") [o] = s1 at *
  obtain ⟨e, cs, hm, he, hcs⟩ := mat_same hb rfl
  have key : Comes ext b s1 ((f.eval v).bind fun n => (g.eval v).bind fun ns => Part.some (n.headI :: ns)) := by
    refine mat_gets hm (hf.use (w := []) h1 he rfl fun a ha => var_val ha hv ho) fun n o' ho' => ?_
    obtain ⟨h3, h4⟩ := clauses_two ext hcs ho' s1
    match n with
    | [] =>
      obtain ⟨b, h5, h6⟩ := h3 rfl
      refine ⟨b, _, h6, rfl, ?_⟩
      obtain ⟨e, cs, hm, he, hcs⟩ := mat_same h5 rfl
      refine mat_gets hm (hg.use (w := []) h2 he rfl fun a ha => var_val ha hv ho) fun ns o'' ho'' => ?_
      obtain ⟨b, xs, h7, h8, h9⟩ := clauses_any ext hcs ho'' s1
      exact ⟨b, _, h9, rfl, gets_of (lst_zero h7 (put_same _ _ _) h8)⟩
    | k :: t =>
      obtain ⟨b, x, xs, h5, hk, -, h6⟩ := h4 k t rfl
      refine ⟨b, _, h6, rfl, ?_⟩
      obtain ⟨e, cs, hm, he, hcs⟩ := mat_same h5 rfl
      refine mat_gets hm (hg.use (w := []) ((h2.bound (by decide) _).bound (by decide) _) he rfl fun a ha => var_val ha (by
        rw [put_var _ (by decide), put_var _ (by decide)]; exact hv) ho) fun ns o'' ho'' => ?_
      obtain ⟨b, ys, h7, h8, h9⟩ := clauses_any ext hcs ho'' (put (put s1 (str! "x") [x]) (str! "y") xs)
      exact ⟨b, _, h9, rfl, gets_of (lst_two (x := str! "x") (y := str! "y") h7 (by
        rw [put_var _ (by decide), put_var _ (by decide), put_same]) hk (put_same _ _ _) h8)⟩
  rw [Code.cons_eval]
  exact key

theorem computes_comp {ext : Ext} {f g : Code} (hf : Computes ext f) (hg : Computes ext g) : Computes ext (.comp f g) := by
  intro place s call arg o v hh hc ha ho
  obtain ⟨b, hb, ht⟩ := hh.enter hc ha ho
  refine ht.gets rfl ?_
  have h1 : Has (put s (str! "v") [o]).scope (place ++ ['l']) f := hh.2.1.bound (by decide) _
  have h2 : Has (put s (str! "v") [o]).scope (place ++ ['r']) g := hh.2.2.bound (by decide) _
  have hv : (put s (str! "v") [o]).scope (str! "v") = some (Macro.var [o]) := put_same _ _ _
  generalize put s (str! "v") [o] = s1 at *
  obtain ⟨e, hm, he⟩ := use_same hb rfl
  have key : Comes ext b s1 ((g.eval v).bind f.eval) :=
    Comes.then (hg.use (w := []) h2 he rfl fun a ha => var_val ha hv ho) (fun _ hd => user_needs hm (part_builtin _) hd)
      fun w o' _ h3 h4 => hf _ _ _ _ _ _ h1 hm h3 h4
  rw [Code.comp_eval]
  exact key

theorem computes_case {ext : Ext} {f g : Code} (hf : Computes ext f) (hg : Computes ext g) : Computes ext (.case f g) := by
  intro place s call arg o v hh hc ha ho
  obtain ⟨b, hb, ht⟩ := hh.enter hc ha ho
  refine ht.gets rfl ?_
  have h1 : Has (put s (str! "v") [o]).scope (place ++ ['l']) f := hh.2.1.bound (by decide) _
  have h2 : Has (put s (str! "v") [o]).scope (place ++ ['r']) g := hh.2.2.bound (by decide) _
  have hv : (put s (str! "v") [o]).scope (str! "v") = some (Macro.var [o]) := put_same _ _ _
  generalize put s (str! "v") [o] = s1 at *
  obtain ⟨e, cs, hm, he, hcs⟩ := mat_same hb rfl
  have key := mat_gets (F := fun v => (Code.case f g).eval v) hm (gets_of (var_val (x := str! "v") (w := []) he hv ho)) fun v o ho => by
    rw [Code.case_eval]
    obtain ⟨h3, h4, h5⟩ := clauses_three ext hcs ho s1
    match v with
    | [] =>
      obtain ⟨b, h6, h7⟩ := h3 rfl
      exact ⟨b, _, h7, rfl, hf.use h1 h6 rfl fun a ha => nil_val (w := []) ha⟩
    | 0 :: t =>
      obtain ⟨b, xs, h6, h7, h8⟩ := h4 t rfl
      exact ⟨b, _, h8, rfl, hf.use (h1.bound (by decide) _) h6 rfl fun a ha => lst_rest (x := str! "y") (w := []) ha (put_same _ _ _) h7⟩
    | (k + 1) :: t =>
      obtain ⟨b, p, xs, h6, hk, h7, h8⟩ := h5 k t rfl
      exact ⟨b, _, h8, rfl, hg.use ((h2.bound (by decide) _).bound (by decide) _) h6 rfl fun a ha =>
        lst_two (x := str! "p") (y := str! "y") (w := []) ha (by rw [put_var _ (by decide), put_same]) hk (put_same _ _ _) h7⟩
  rw [Part.bind_some] at key
  exact key

/-- One round. -/
theorem fix_round {ext : Ext} {f : Code} (hf : Computes ext f) {place : Str} {s : St} {call arg o : PNode} {v : List Nat} (hh : Has s.scope place (.fix f))
    (hc : IsCall (partName place) [arg] call) (ha : Evals ext [arg] s (.ok [o]) s) (ho : IsVal v o) :
    (∀ g, outcome ext call s g ≠ .diverge → (f.eval v).Dom) ∧
    (∀ w, w ∈ f.eval v → w.headI = 0 → ∃ o, Evals ext [call] s (.ok [o]) s ∧ IsVal w.tail o) ∧
    (∀ w, w ∈ f.eval v → w.headI ≠ 0 → ∃ s' call' arg' o', Has s'.scope place (.fix f) ∧ IsCall (partName place) [arg'] call' ∧
      Evals ext [arg'] s' (.ok [o']) s' ∧ IsVal w.tail o' ∧
      (∀ g, outcome ext call s g ≠ .diverge → ∃ k, k < g ∧ outcome ext call' s' k ≠ .diverge) ∧
      ∀ o'', Evals ext [call'] s' (.ok [o'']) s' → Evals ext [call] s (.ok [o'']) s) := by
  obtain ⟨b, hb, ht⟩ := hh.enter hc ha ho
  have h0 : Has (put s (str! "v") [o]).scope place (.fix f) := hh.bound (by decide) _
  have hv : (put s (str! "v") [o]).scope (str! "v") = some (Macro.var [o]) := put_same _ _ _
  have hs : { put s (str! "v") [o] with scope := s.scope } = s := rfl
  generalize put s (str! "v") [o] = s1 at *
  obtain ⟨e, cs, hm, he, hcs⟩ := mat_same hb rfl
  have hfv : Comes ext e s1 (f.eval v) := hf.use (w := []) h0.2 he rfl fun a ha => var_val ha hv ho
  refine ⟨fun g hg => ?_, fun w hw h => ?_, fun w hw h => ?_⟩
  · obtain ⟨k, -, hk⟩ := ht.back hg
    obtain ⟨j, -, hj⟩ := match_needs hm hk
    exact hfv.ends j hj
  · obtain ⟨o', h1, h2⟩ := hfv.value w hw
    obtain ⟨h3, h4, -⟩ := clauses_three ext hcs h2 s1
    have fin : ∀ {b' s'}, Clauses ext o' cs s1 b' s' → { s' with scope := s1.scope } = s1 → (∃ o, Evals ext [b'] s' (.ok [o]) s' ∧ IsVal w.tail o) →
        ∃ o, Evals ext [call] s (.ok [o]) s ∧ IsVal w.tail o := by
      rintro b' s' hcl hs' ⟨o, h5, h6⟩
      have := (tail_match hm h1 hcl).evals h5
      rw [hs'] at this
      have := ht.evals this
      rw [hs] at this
      exact ⟨o, this, h6⟩
    match w, h with
    | [], _ =>
      obtain ⟨b, h6, h7⟩ := h3 rfl
      exact fin h7 rfl (nil_val h6)
    | 0 :: t, _ =>
      obtain ⟨b, xs, h6, h7, h8⟩ := h4 t rfl
      exact fin h8 rfl (lst_rest (x := str! "y") h6 (put_same _ _ _) h7)
  · obtain ⟨o', h1, h2⟩ := hfv.value w hw
    obtain ⟨-, -, h5⟩ := clauses_three ext hcs h2 s1
    match w, h with
    | [], h => exact absurd rfl h
    | 0 :: t, h => exact absurd rfl h
    | (k + 1) :: t, _ =>
      obtain ⟨b', p, xs, h6, hk, h7, h8⟩ := h5 k t rfl
      obtain ⟨e', hm', he'⟩ := use_same h6 rfl
      obtain ⟨o2, h9, h10⟩ := lst_rest (ext := ext) (s := put (put s1 (str! "p") [p]) (str! "y") xs) (x := str! "y") (w := []) he' (put_same _ _ _) h7
      have ht' := tail_match hm h1 h8
      refine ⟨_, b', e', o2, (h0.bound (by decide) _).bound (by decide) _, hm', h9, h10, fun g hg => ?_, fun o'' h11 => ?_⟩
      · obtain ⟨k1, l1, hk1⟩ := ht.back hg
        obtain ⟨k2, l2, hk2⟩ := ht'.back hk1
        exact ⟨k2, by omega, hk2⟩
      · have h12 := ht'.evals h11
        have h13 : Evals ext [b] s1 (.ok [o'']) s1 := h12
        have := ht.evals h13
        rw [hs] at this
        exact this

theorem computes_fix {ext : Ext} {f : Code} (hf : Computes ext f) : Computes ext (.fix f) := by
  intro place s call arg o v hh hc ha ho
  rw [Code.fix_eval]
  have stop : ∀ {v w : List Nat}, w ∈ f.eval v → w.headI = 0 →
      Sum.inl w.tail ∈ (f.eval v).map fun v => if v.headI = 0 then Sum.inl v.tail else (Sum.inr v.tail : List Nat ⊕ List Nat) := fun {v w} h h' =>
    (Part.mem_map_iff _).2 ⟨w, h, by rw [if_pos h']⟩
  have more : ∀ {v w : List Nat}, w ∈ f.eval v → w.headI ≠ 0 →
      Sum.inr w.tail ∈ (f.eval v).map fun v => if v.headI = 0 then Sum.inl v.tail else (Sum.inr v.tail : List Nat ⊕ List Nat) := fun {v w} h h' =>
    (Part.mem_map_iff _).2 ⟨w, h, by rw [if_neg h']⟩
  refine ⟨fun w hw => ?_, fun g hg => ?_⟩
  · revert s call arg o
    refine PFun.fixInduction' (C := fun v => ∀ (s : St) (call arg o : PNode), Has s.scope place (.fix f) → IsCall (partName place) [arg] call →
      Evals ext [arg] s (.ok [o]) s → IsVal v o → ∃ o, Evals ext [call] s (.ok [o]) s ∧ IsVal w o) hw ?_ ?_
    · intro v hv s call arg o hh hc ha ho
      obtain ⟨-, h2, -⟩ := fix_round hf hh hc ha ho
      obtain ⟨u, hu, e⟩ := (Part.mem_map_iff _).1 hv
      by_cases h0 : u.headI = 0
      · rw [if_pos h0] at e
        cases e
        exact h2 u hu h0
      · rw [if_neg h0] at e
        cases e
    · intro v v' _ hv ih s call arg o hh hc ha ho
      obtain ⟨-, -, h3⟩ := fix_round hf hh hc ha ho
      obtain ⟨u, hu, e⟩ := (Part.mem_map_iff _).1 hv
      by_cases h0 : u.headI = 0
      · rw [if_pos h0] at e
        cases e
      · rw [if_neg h0] at e
        cases e
        obtain ⟨s', call', arg', o', h4, h5, h6, h7, -, h8⟩ := h3 u hu h0
        obtain ⟨o2, h9, h10⟩ := ih s' call' arg' o' h4 h5 h6 h7
        exact ⟨o2, h8 o2 h9, h10⟩
  · induction g using Nat.strongRecOn generalizing s call arg o v with
    | ind g ih =>
      obtain ⟨h1, -, h3⟩ := fix_round hf hh hc ha ho
      obtain ⟨u, hu⟩ := Part.dom_iff_mem.1 (h1 g hg)
      by_cases h0 : u.headI = 0
      · exact Part.dom_iff_mem.2 ⟨_, PFun.mem_fix_iff.2 (.inl (stop hu h0))⟩
      · obtain ⟨s', call', arg', o', h4, h5, h6, h7, h9, -⟩ := h3 u hu h0
        obtain ⟨k, hk, hd⟩ := h9 g hg
        obtain ⟨r, hr⟩ := Part.dom_iff_mem.1 (ih k hk s' call' arg' o' u.tail h4 h5 h6 h7 hd)
        exact Part.dom_iff_mem.2 ⟨r, PFun.mem_fix_iff.2 (.inr ⟨_, more hu h0, hr⟩)⟩

theorem computes (ext : Ext) : ∀ c : Code, Computes ext c
  | .zero' => computes_zero ext
  | .succ => computes_succ ext
  | .tail => computes_tail ext
  | .cons f g => computes_cons (computes ext f) (computes ext g)
  | .comp f g => computes_comp (computes ext f) (computes ext g)
  | .case f g => computes_case (computes ext f) (computes ext g)
  | .fix f => computes_fix (computes ext f)

end Seam
