import Verif.Spec.Machine
import Verif.Lemmas.Double
import Verif.Lemmas.Halt
import Verif.Lemmas.Solo
import Verif.Lemmas.Lists
import Verif.Props.Lists

/-! Counter machines as programs. -/

namespace Seam
open Spec

/-- The outcome of expanding a node, without the state. -/
def outcome (ext : Ext) (c : PNode) (s : St) (f : Nat) : Res (List PNode) := (run ext f (.node c) s).1

/-- The outcome of `c` is that of `c'`, expanded with less fuel. -/
structure Leads (ext : Ext) (c : PNode) (s : St) (c' : PNode) (s' : St) : Prop where
  zero : outcome ext c s 0 = .diverge
  one : outcome ext c s 1 = .diverge
  same : ∀ g, outcome ext c s (g + 2) = .diverge ∨ outcome ext c s (g + 2) = outcome ext c' s' g
  ev : Ev fun g => outcome ext c s (g + 2) = outcome ext c' s' g

/-- The node has an outcome. -/
def Results (ext : Ext) (c : PNode) (s : St) (r : Res (List PNode)) : Prop := r ≠ .diverge ∧ ∃ g, outcome ext c s g = r

theorem outcome_mono {ext : Ext} {c : PNode} {s : St} {g h : Nat} {r : Res (List PNode)} (hr : r ≠ .diverge)
    (hg : outcome ext c s g = r) (hh : g ≤ h) : outcome ext c s h = r := by
  obtain ⟨k, rfl⟩ := Nat.exists_eq_add_of_le hh
  unfold outcome at *
  rcases run_mono ext g k (.node c) s with h1 | h1
  · exact absurd (hg.symm.trans h1) hr
  · rw [← h1]; exact hg

theorem Results.unique {ext : Ext} {c : PNode} {s : St} {r r' : Res (List PNode)} (h : Results ext c s r) (h' : Results ext c s r') : r = r' := by
  obtain ⟨h1, g, hg⟩ := h
  obtain ⟨h2, k, hk⟩ := h'
  rw [← outcome_mono h1 hg (Nat.le_max_left g k), ← outcome_mono h2 hk (Nat.le_max_right g k)]

theorem results_evals {ext : Ext} {c : PNode} {s : St} {r : Res (List PNode)} : Results ext c s r ↔ ∃ t, Evals ext [c] s r t := by
  constructor
  · rintro ⟨hr, g, hg⟩
    refine ⟨(run ext g (.node c) s).2, hr, g, ?_⟩
    rw [expandNodes_one]
    exact Prod.ext hg rfl
  · rintro ⟨t, hr, g, hg⟩
    rw [expandNodes_one] at hg
    exact ⟨hr, g, congrArg Prod.fst hg⟩

theorem Leads.stops {ext : Ext} {c c' : PNode} {s s' : St} (h : Leads ext c s c' s') {r : Res (List PNode)} (hs : Results ext c' s' r) :
    Results ext c s r := by
  obtain ⟨hr, g, hg⟩ := hs
  obtain ⟨k, hk⟩ := h.ev
  refine ⟨hr, max g k + 2, ?_⟩
  rw [hk _ (Nat.le_max_right g k)]
  exact outcome_mono hr hg (Nat.le_max_left g k)

theorem Leads.back {ext : Ext} {c c' : PNode} {s s' : St} (h : Leads ext c s c' s') {g : Nat} (hg : outcome ext c s g ≠ .diverge) :
    ∃ k, k < g ∧ outcome ext c' s' k = outcome ext c s g := by
  match g, hg with
  | 0, hg => exact absurd h.zero hg
  | 1, hg => exact absurd h.one hg
  | g + 2, hg =>
    rcases h.same g with h1 | h1
    · exact absurd h1 hg
    · exact ⟨g, by omega, h1.symm⟩

/-- The outcomes of a call. -/
theorem leads_of_call {ext : Ext} {name : Str} {args : List PNode} {c c' : PNode} {s s' : St} (hc : IsCall name args c)
    (same : ∀ g, (expandInvocation ext (run ext g) name c args s).1 = .diverge ∨
      (expandInvocation ext (run ext g) name c args s).1 = outcome ext c' s' g)
    (ev : Ev fun g => (expandInvocation ext (run ext g) name c args s).1 = outcome ext c' s' g) : Leads ext c s c' s' := by
  have e : ∀ g, outcome ext c s (g + 2) = (expandInvocation ext (run ext g) name c args s).1 := by
    intro g
    unfold outcome
    rw [run_call hc]
    rfl
  refine ⟨rfl, ?_, fun g => ?_, ?_⟩
  · unfold outcome
    rw [run_call hc]
    rfl
  · rw [e]; exact same g
  · exact ev.mono fun g hg => by rw [e]; exact hg

/-- A call of a user's macro with a body of one node. -/
theorem leads_user {ext : Ext} {name : Str} {args vs : List PNode} {c n : PNode} {s v : St} {m : Macro} (hc : IsCall name args c)
    (hb : builtin? name = none) (ha : Evals ext args s (.ok vs) s) (hm : s.scope name = some m)
    (hbd : bindList c m.params vs s = (.ok (), v)) (hn : m.body = [n]) : Leads ext c s n v := by
  have key : ∀ g, expandNodes (run ext g) args s = (.ok vs, s) →
      (expandInvocation ext (run ext g) name c args s).1 = outcome ext n v g := by
    intro g hg
    simp only [expandInvocation, hb]
    rw [userMacro_eq _ _ _ _ _ _ _ _ hg hm, M.inner_def, M.bind_ok hbd, hn, expandNodes_one]
    rfl
  refine leads_of_call hc (fun g => ?_) (ha.ev.mono fun g hg => key g hg)
  rcases known_or_diverges ha g with h | h
  · left
    simp only [expandInvocation, hb]
    exact bind_diverges h
  · exact .inr (key g h)

/-- A call of `%match` of which the first clause is taken. -/
theorem leads_match_first {ext : Ext} {e x pat n : PNode} {rest : List PNode} {cs : Site} {ce : Token} {cw : Str} {c : PNode} {s v : St}
    (hc : IsCall (str! "match") (e :: .list [pat, n] cs ce cw :: rest) c) (he : Evals ext [e] s (.ok [x]) s)
    (hp : Evals ext [pat] s (.ok [pat]) s) (hb : bind pat x s = (.ok (), v)) : Leads ext c s n v := by
  have key : ∀ g, run ext g (.node e) s = (.ok [x], s) → run ext g (.node pat) s = (.ok [pat], s) →
      (matchMacro (run ext g) c (e :: .list [pat, n] cs ce cw :: rest) s).1 = outcome ext n v g := by
    intro g h1 h2
    unfold matchMacro
    simp only
    rw [M.bind_ok h1]
    simp only [matchLoop]
    rw [M.bind_ok h2]
    simp only [hb, expandNodes_one]
    rfl
  have ee : ∀ {n : PNode} {g : Nat}, expandNodes (run ext g) [n] s = run ext g (.node n) s := by
    intro n g; rw [expandNodes_one]
  refine leads_of_call hc (fun g => ?_) ((he.ev.and hp.ev).mono fun g hg => key g (ee ▸ hg.1) (ee ▸ hg.2))
  show (matchMacro (run ext g) c _ s).1 = _ ∨ (matchMacro (run ext g) c _ s).1 = _
  rcases known_or_diverges he g with h | h
  · left
    rw [ee] at h
    exact bind_diverges h
  · rw [ee] at h
    rcases known_or_diverges hp g with h' | h'
    · left
      rw [ee] at h'
      unfold matchMacro
      simp only
      rw [M.bind_ok h]
      simp only [matchLoop]
      exact bind_diverges h'
    · rw [ee] at h'
      exact .inr (key g h h')

/-- A call of `%match` of which the second clause is taken. -/
theorem leads_match_second {ext : Ext} {e x pat n pat' n' : PNode} {cs cs' : Site} {ce ce' : Token} {cw cw' : Str} {c : PNode} {s v u : St}
    {x' : Err}
    (hc : IsCall (str! "match") [e, .list [pat, n] cs ce cw, .list [pat', n'] cs' ce' cw'] c) (he : Evals ext [e] s (.ok [x]) s)
    (hp : Evals ext [pat] s (.ok [pat]) s) (hb : bind pat x s = (.err x', u)) (hu : { u with scope := s.scope } = s)
    (hp' : Evals ext [pat'] s (.ok [pat']) s) (hb' : bind pat' x s = (.ok (), v)) : Leads ext c s n' v := by
  have ee : ∀ {n : PNode} {g : Nat}, expandNodes (run ext g) [n] s = run ext g (.node n) s := by
    intro n g; rw [expandNodes_one]
  have pre : ∀ g, run ext g (.node e) s = (.ok [x], s) → run ext g (.node pat) s = (.ok [pat], s) →
      matchMacro (run ext g) c [e, .list [pat, n] cs ce cw, .list [pat', n'] cs' ce' cw'] s =
        matchLoop (run ext g) x [.list [pat', n'] cs' ce' cw'] s := by
    intro g h1 h2
    unfold matchMacro
    simp only
    rw [M.bind_ok h1]
    simp only
    rw [matchLoop, M.bind_ok h2]
    simp only [hb, hu]
  have key : ∀ g, run ext g (.node e) s = (.ok [x], s) → run ext g (.node pat) s = (.ok [pat], s) →
      run ext g (.node pat') s = (.ok [pat'], s) →
      (matchMacro (run ext g) c [e, .list [pat, n] cs ce cw, .list [pat', n'] cs' ce' cw'] s).1 = outcome ext n' v g := by
    intro g h1 h2 h3
    rw [pre g h1 h2, matchLoop, M.bind_ok h3]
    simp only [hb', expandNodes_one]
    rfl
  refine leads_of_call hc (fun g => ?_) ((he.ev.and (hp.ev.and hp'.ev)).mono fun g hg => key g (ee ▸ hg.1) (ee ▸ hg.2.1) (ee ▸ hg.2.2))
  show (matchMacro (run ext g) c _ s).1 = _ ∨ (matchMacro (run ext g) c _ s).1 = _
  rcases known_or_diverges he g with h | h
  · left
    rw [ee] at h
    exact bind_diverges h
  · rw [ee] at h
    rcases known_or_diverges hp g with h' | h'
    · left
      rw [ee] at h'
      unfold matchMacro
      simp only
      rw [M.bind_ok h]
      simp only [matchLoop]
      exact bind_diverges h'
    · rw [ee] at h'
      rcases known_or_diverges hp' g with h2 | h2
      · left
        rw [ee] at h2
        rw [pre g h h', matchLoop]
        exact bind_diverges h2
      · rw [ee] at h2
        exact .inr (key g h h' h2)


/-! ## Numbers -/

/-- The node is a number as the programs for machines write it. -/
inductive Num : Nat → PNode → Prop
  | zero (si : Site) (e : Token) (w : Str) : e.lw = [] → Num 0 (.list [] si e w)
  | succ (n : Nat) (x : PNode) (si : Site) (e : Token) (w : Str) : e.lw = [] → x.lw = [] → Num n x → Num (n + 1) (.list [x] si e w)

theorem Num.free : ∀ {n : Nat} {x : PNode}, Num n x → MacroFree x
  | _, _, .zero .. => .list _ _ _ _ .nil
  | _, _, .succ _ _ _ _ _ _ _ h => .list _ _ _ _ (.cons _ _ h.free .nil)

theorem Num.setLw {n : Nat} {x : PNode} (h : Num n x) (w : Str) : Num n (x.setLw w) := by
  cases h with
  | zero si e w' he => exact .zero _ _ _ he
  | succ n x si e w' he hx h => exact .succ _ _ _ _ _ he hx h

theorem Num.text (dbg : Str → Str) : ∀ {n : Nat} {x : PNode}, Num n x → sexpNode dbg x = x.lw ++ numeral n
  | _, _, .zero _ _ _ he => by simp [sexpNode, sexpNodes, he, numeral, PNode.lw]
  | _, _, .succ _ _ _ _ _ he hx h => by
    have e := h.text dbg
    rw [hx] at e
    simp [sexpNode, sexpNodes, he, numeral, PNode.lw, e]

theorem Num.evals (ext : Ext) {n : Nat} {x : PNode} (h : Num n x) (s : St) : Evals ext [x] s (.ok [x]) s := macroFree_evals ext x h.free s

/-! ## The nodes of the program -/

def sy (t w : Str) : PNode := .symbol ⟨t, default, w⟩
def li (ns : List PNode) (w : Str) : PNode := .list ns default close w

def numNode : Nat → Str → PNode
  | 0, w => li [] w
  | n + 1, w => li [numNode n []] w

def instrNode : Instr → PNode
  | .inc .a k => li [sy ('%' :: stateName k) [], li [sy (str! "%list") [], sy (str! "%a") [' ']] [' '], sy (str! "%b") [' ']] []
  | .inc .b k => li [sy ('%' :: stateName k) [], sy (str! "%a") [' '], li [sy (str! "%list") [], sy (str! "%b") [' ']] [' ']] []
  | .dec .a k z => li [sy (str! "%match") [], sy (str! "%a") [' '],
      li [li [] [], li [sy ('%' :: stateName z) [], sy (str! "%a") [' '], sy (str! "%b") [' ']] [' ']] [' '],
      li [li [sy (str! "p") []] [], li [sy ('%' :: stateName k) [], sy (str! "%p") [' '], sy (str! "%b") [' ']] [' ']] [' ']] []
  | .dec .b k z => li [sy (str! "%match") [], sy (str! "%b") [' '],
      li [li [] [], li [sy ('%' :: stateName z) [], sy (str! "%a") [' '], sy (str! "%b") [' ']] [' ']] [' '],
      li [li [sy (str! "p") []] [], li [sy ('%' :: stateName k) [], sy (str! "%a") [' '], sy (str! "%p") [' ']] [' ']] [' ']] []
  | .halt => sy (str! "%a") []

def defNode (k : Nat) (i : Instr) : PNode :=
  li [sy (str! "%define") [], li [sy (stateName k) [], sy (str! "a") [' '], sy (str! "b") [' ']] [' '], instrNode i] []

def defNodes : Nat → List Instr → List PNode
  | _, [] => []
  | k, i :: is => defNode k i :: defNodes (k + 1) is

def startNode (a b : Nat) : PNode := li [sy (str! "%q") [], numNode a [' '], numNode b [' ']] []

theorem numNode_lw : ∀ n w, (numNode n w).lw = w
  | 0, _ => rfl
  | _ + 1, _ => rfl

theorem numNode_text (dbg : Str → Str) : ∀ n w, sexpNode dbg (numNode n w) = w ++ numeral n
  | 0, w => by simp [numNode, li, sexpNode, sexpNodes, numeral, close]
  | n + 1, w => by simp [numNode, li, sexpNode, sexpNodes, numeral, close, numNode_text dbg n]

theorem instrNode_text (dbg : Str → Str) (i : Instr) : sexpNode dbg (instrNode i) = instrText i := by
  rcases i with ⟨_ | _, k⟩ | ⟨_ | _, k, z⟩ | _ <;>
    simp [instrNode, li, sy, sexpNode, sexpNodes, instrText, close]

theorem defNodes_text (dbg : Str → Str) : ∀ is k, sexpNodes dbg (defNodes k is) = definitions k is
  | [], _ => rfl
  | i :: is, k => by
    simp [defNodes, defNode, li, sy, sexpNode, sexpNodes, definitions, close, instrNode_text, defNodes_text dbg is]

theorem sexpNodes_app (dbg : Str → Str) : ∀ as bs, sexpNodes dbg (as ++ bs) = sexpNodes dbg as ++ sexpNodes dbg bs
  | [], _ => rfl
  | a :: as, bs => by simp [sexpNodes, sexpNodes_app dbg as bs]

theorem machine_text (dbg : Str → Str) (p : List Instr) (a b : Nat) :
    sexpNodes dbg (defNodes 0 p ++ [startNode a b]) = machineProgram p a b := by
  rw [sexpNodes_app, defNodes_text]
  simp [machineProgram, startNode, li, sy, sexpNode, sexpNodes, close, numNode_text]

theorem state_word (k : Nat) : Word symbolStart (stateName k) :=
  ⟨rfl, fun c hc => by
    have : c = 'q' := by simp [stateName] at hc; rcases hc with h | h; exact h; exact h.2
    subst this; rfl⟩

theorem call_word (k : Nat) : Word symbolStart ('%' :: stateName k) :=
  ⟨rfl, fun c hc => by
    rcases List.mem_cons.1 hc with h | h
    · subst h; rfl
    · exact (state_word k).2 c h⟩

theorem sy_printable (u : Unescape) (dbg : Str → Str) (t w : Str) (hw : Blanks w) (ht : Word symbolStart t) : Printable u dbg (sy t w) :=
  .symbol _ hw ht

theorem li_printable (u : Unescape) (dbg : Str → Str) (ns : List PNode) (w : Str) (hw : Blanks w) (ht : Printables u dbg ns) :
    Printable u dbg (li ns w) := .list _ _ _ _ hw blanks_nil ht

theorem numNode_printable (u : Unescape) (dbg : Str → Str) : ∀ n w, Blanks w → Printable u dbg (numNode n w)
  | 0, _, hw => li_printable _ _ _ _ hw .nil
  | n + 1, _, hw => li_printable _ _ _ _ hw (.one _ (numNode_printable u dbg n _ blanks_nil))

theorem printables_two {u : Unescape} {dbg : Str → Str} {x y : PNode} (hx : Printable u dbg x) (hy : Printable u dbg y) (h : y.lw = [' ']) :
    Printables u dbg [x, y] := .cons _ _ _ hx (spaced_apart _ _ h) (.one _ hy)

theorem printables_three {u : Unescape} {dbg : Str → Str} {x y z : PNode} (hx : Printable u dbg x) (hy : Printable u dbg y) (hz : Printable u dbg z)
    (h : y.lw = [' ']) (h' : z.lw = [' ']) : Printables u dbg [x, y, z] := .cons _ _ _ hx (spaced_apart _ _ h) (printables_two hy hz h')

theorem instrNode_printable (u : Unescape) (dbg : Str → Str) (i : Instr) : Printable u dbg (instrNode i) := by
  have w : ∀ t : Str, t.all identChar = true → Starts symbolStart t → Printable u dbg (sy t [' ']) :=
    fun t h h' => sy_printable _ _ _ _ blanks_one (word_of _ h h')
  have w0 : ∀ t : Str, t.all identChar = true → Starts symbolStart t → Printable u dbg (sy t []) :=
    fun t h h' => sy_printable _ _ _ _ blanks_nil (word_of _ h h')
  have st : ∀ k, Printable u dbg (sy ('%' :: stateName k) []) := fun k => sy_printable _ _ _ _ blanks_nil (call_word k)
  have hp : Printables u dbg [sy (str! "p") []] := .one _ (w0 _ rfl rfl)
  rcases i with ⟨_ | _, k⟩ | ⟨_ | _, k, z⟩ | _
  · exact li_printable _ _ _ _ blanks_nil (printables_three (st k)
      (li_printable _ _ _ _ blanks_one (printables_two (w0 _ rfl rfl) (w _ rfl rfl) rfl)) (w _ rfl rfl) rfl rfl)
  · exact li_printable _ _ _ _ blanks_nil (printables_three (st k) (w _ rfl rfl)
      (li_printable _ _ _ _ blanks_one (printables_two (w0 _ rfl rfl) (w _ rfl rfl) rfl)) rfl rfl)
  · refine li_printable _ _ _ _ blanks_nil (.cons _ _ _ (w0 _ rfl rfl) (spaced_apart _ _ rfl) (printables_three (w _ rfl rfl)
      (li_printable _ _ _ _ blanks_one (printables_two (li_printable _ _ _ _ blanks_nil .nil)
        (li_printable _ _ _ _ blanks_one (printables_three (st z) (w _ rfl rfl) (w _ rfl rfl) rfl rfl)) rfl))
      (li_printable _ _ _ _ blanks_one (printables_two (li_printable _ _ _ _ blanks_nil hp)
        (li_printable _ _ _ _ blanks_one (printables_three (st k) (w _ rfl rfl) (w _ rfl rfl) rfl rfl)) rfl)) rfl rfl))
  · refine li_printable _ _ _ _ blanks_nil (.cons _ _ _ (w0 _ rfl rfl) (spaced_apart _ _ rfl) (printables_three (w _ rfl rfl)
      (li_printable _ _ _ _ blanks_one (printables_two (li_printable _ _ _ _ blanks_nil .nil)
        (li_printable _ _ _ _ blanks_one (printables_three (st z) (w _ rfl rfl) (w _ rfl rfl) rfl rfl)) rfl))
      (li_printable _ _ _ _ blanks_one (printables_two (li_printable _ _ _ _ blanks_nil hp)
        (li_printable _ _ _ _ blanks_one (printables_three (st k) (w _ rfl rfl) (w _ rfl rfl) rfl rfl)) rfl)) rfl rfl))
  · exact w0 _ rfl rfl

theorem lists_apart {dbg : Str → Str} (as bs : List PNode) (v w : Str) (y : PNode) (hy : y = li bs w) : Apart dbg (li as v) y := by
  subst hy
  intro _
  exact ⟨by simp [li, startsWithWord], by simp [li, isStringLit]⟩

theorem list_before {dbg : Str → Str} (as : List PNode) (v : Str) (i : Instr) : Apart dbg (li as v) (instrNode i) := by
  intro _
  refine ⟨?_, ?_⟩ <;> rcases i with ⟨_ | _, k⟩ | ⟨_ | _, k, z⟩ | _ <;> simp [li, endsInWord, endsInEmptyString]

theorem defNode_printable (u : Unescape) (dbg : Str → Str) (k : Nat) (i : Instr) : Printable u dbg (defNode k i) := by
  refine li_printable _ _ _ _ blanks_nil (.cons _ _ _ (sy_printable _ _ _ _ blanks_nil (word_of _ rfl rfl)) (spaced_apart _ _ rfl)
    (.cons _ _ _ (li_printable _ _ _ _ blanks_one (printables_three (sy_printable _ _ _ _ blanks_nil (state_word k))
      (sy_printable _ _ _ _ blanks_one (word_of _ rfl rfl)) (sy_printable _ _ _ _ blanks_one (word_of _ rfl rfl)) rfl rfl))
      (list_before _ _ _) (.one _ (instrNode_printable u dbg i))))

theorem startNode_printable (u : Unescape) (dbg : Str → Str) (a b : Nat) : Printable u dbg (startNode a b) :=
  li_printable _ _ _ _ blanks_nil (printables_three (sy_printable _ _ _ _ blanks_nil (word_of _ rfl rfl))
    (numNode_printable u dbg a _ blanks_one) (numNode_printable u dbg b _ blanks_one) (numNode_lw _ _) (numNode_lw _ _))

theorem machine_printable (u : Unescape) (dbg : Str → Str) (a b : Nat) : ∀ (p : List Instr) (k : Nat),
    Printables u dbg (defNodes k p ++ [startNode a b])
  | [], _ => .one _ (startNode_printable u dbg a b)
  | [i], k => .cons _ _ _ (defNode_printable u dbg k i) (lists_apart _ _ _ _ _ rfl) (machine_printable u dbg a b [] (k + 1))
  | i :: j :: is, k => .cons _ _ _ (defNode_printable u dbg k i) (lists_apart _ _ _ _ _ rfl) (machine_printable u dbg a b (j :: is) (k + 1))

theorem numNode_same : ∀ n w x, SameNode (numNode n w) x → Num n x
  | 0, w, x, h => by
    match x, h with
    | .list [] s e w', h => exact .zero _ _ _ h.2.1.symm
  | n + 1, w, x, h => by
    match x, h with
    | .list [y] s e w', h =>
      exact .succ _ _ _ _ _ h.2.1.symm (by rw [← sameNode_lw h.1.1, numNode_lw]) (numNode_same n [] y h.1.1)

/-! ## Running it -/

theorem builtin_state (k : Nat) : builtin? (stateName k) = none := by
  unfold builtin? amGet
  rfl

theorem stateName_inj {j k : Nat} (h : stateName j = stateName k) : j = k := by
  have := congrArg List.length h
  simpa [stateName] using this

/-- The macro is that of the instruction. -/
def IsMacro (i : Instr) (m : Macro) : Prop :=
  SameNodes [sy (str! "a") [' '], sy (str! "b") [' ']] m.params ∧ SameNodes [instrNode i] m.body

/-- The definitions of the machine are there. -/
structure Ready (p : List Instr) (s : St) : Prop where
  known : ∀ k i, p[k]? = some i → ∃ m, s.scope (stateName k) = some m ∧ IsMacro i m
  unknown : ∀ k, p[k]? = none → s.scope (stateName k) = none

theorem Ready.insert {p : List Instr} {s : St} (h : Ready p s) (c : Char) (hc : c ≠ 'q') (m : Macro) :
    Ready p { s with scope := s.scope.insert [c] m } := by
  have e : ∀ k, (s.scope.insert [c] m) (stateName k) = s.scope (stateName k) := by
    intro k
    unfold Scope.insert
    have : (stateName k == [c]) = false := by
      simp only [stateName, beq_eq_false_iff_ne, ne_eq, List.cons.injEq, not_and]
      intro h
      exact absurd h.symm hc
    simp only [this]
    rfl
  exact ⟨fun k i hk => by simpa only [e] using h.known k i hk, fun k hk => by simpa only [e] using h.unknown k hk⟩

/-- The node calls the macro for where the machine is with what it has in its counters. -/
structure Standing (ext : Ext) (p : List Instr) (d : Config) (c : PNode) (s : St) : Prop where
  ready : Ready p s
  call : ∃ args A B, IsCall (stateName d.pc) args c ∧ Evals ext args s (.ok [A, B]) s ∧ Num d.a A ∧ Num d.b B

/-- The one node has the outcome of the other. -/
structure Hands (ext : Ext) (c : PNode) (s : St) (c' : PNode) (s' : St) : Prop where
  stops : ∀ r, Results ext c' s' r → Results ext c s r
  back : ∀ g, outcome ext c s g ≠ .diverge → ∃ k, k < g ∧ outcome ext c' s' k = outcome ext c s g

theorem Leads.goes {ext : Ext} {c c' : PNode} {s s' : St} (h : Leads ext c s c' s') : Hands ext c s c' s' :=
  ⟨fun _ => h.stops, fun _ => h.back⟩

theorem Hands.trans {ext : Ext} {c c' c'' : PNode} {s s' s'' : St} (h : Hands ext c s c' s') (h' : Hands ext c' s' c'' s'') : Hands ext c s c'' s'' := by
  refine ⟨fun r hr => h.stops r (h'.stops r hr), fun g hg => ?_⟩
  obtain ⟨k, hk, e⟩ := h.back g hg
  obtain ⟨j, hj, e'⟩ := h'.back k (by rw [e]; exact hg)
  exact ⟨j, by omega, e'.trans e⟩

/-- The state in which the body of a macro is expanded. -/
def bodyState (s : St) (A B : PNode) : St :=
  { s with scope := (s.scope.insert (str! "a") (Macro.var [A])).insert (str! "b") (Macro.var [B]) }

theorem bind_two (c : PNode) {x y : Node} (hx : x.value = str! "a") (hy : y.value = str! "b") {m n : Nat} {A B : PNode} (hA : Num m A) (hB : Num n B)
    (s : St) : bindList c [.symbol x, .symbol y] [A, B] s = (.ok (), bodyState s A B) := by
  have hx' : x = ⟨str! "a", x.site, x.lw⟩ := by rw [← hx]
  have hy' : y = ⟨str! "b", y.site, y.lw⟩ := by rw [← hy]
  rw [hx', hy']
  cases hA <;> cases hB <;> rfl

/-- What a variable gives. -/
theorem num_var {ext : Ext} {a : Node} {name : Str} (ha : '%' :: name = a.value) {s : St} {n : Nat} {A : PNode} (hA : Num n A)
    (hs : s.scope name = some (Macro.var [A])) : Evals ext [.symbol a] s (.ok [A.setLw a.lw]) s :=
  evals_var ha.symm hs (hA.evals ext s)

theorem Standing.enter {ext : Ext} {p : List Instr} {d : Config} {c : PNode} {s : St} (h : Standing ext p d c s) {i : Instr} (hi : p[d.pc]? = some i) :
    ∃ n A B, SameNode (instrNode i) n ∧ Num d.a A ∧ Num d.b B ∧ Ready p (bodyState s A B) ∧ Leads ext c s n (bodyState s A B) := by
  obtain ⟨args, A, B, hc, ha, hA, hB⟩ := h.call
  obtain ⟨m, hm, hm1, hm2⟩ := h.ready.known _ _ hi
  match hb : m.body, hm2 with
  | [n], hm2 =>
    match hp : m.params, hm1 with
    | [.symbol x, .symbol y], hm1 =>
      refine ⟨n, A, B, hm2.1, hA, hB, ?_, leads_user hc (builtin_state _) ha hm (v := bodyState s A B) ?_ hb⟩
      · exact (h.ready.insert 'a' (by decide) _).insert 'b' (by decide) _
      · rw [hp]
        exact bind_two c hm1.1.1.symm hm1.2.1.1.symm hA hB s


theorem value_var {ext : Ext} {name w : Str} {x : PNode} (h : SameNode (sy ('%' :: name) w) x) {s : St} {n : Nat} {A : PNode} (hA : Num n A)
    (hs : s.scope name = some (Macro.var [A])) : ∃ v, Evals ext [x] s (.ok [v]) s ∧ Num n v ∧ v.lw = w := by
  match x, h with
  | .symbol a, h => exact ⟨_, num_var h.1 hA hs, hA.setLw _, by rw [setLw_lw]; exact h.2.symm⟩

theorem setLw_same {ns : List PNode} {w v : Str} {x : PNode} (h : SameNode (li ns w) x) : SameNode (li ns v) (x.setLw v) := sameNode_setLw h v

theorem sy_setLw_same {t w v : Str} {x : PNode} (h : SameNode (sy t w) x) : SameNode (sy t v) (x.setLw v) := sameNode_setLw h v

theorem value_succ {ext : Ext} {name w : Str} {x : PNode} (h : SameNode (li [sy (str! "%list") [], sy ('%' :: name) [' ']] w) x) {s : St} {n : Nat}
    {A : PNode} (hA : Num n A) (hs : s.scope name = some (Macro.var [A])) : ∃ v, Evals ext [x] s (.ok [v]) s ∧ Num (n + 1) v := by
  match x, h with
  | .list [.symbol f, y] si e w', h =>
    obtain ⟨⟨⟨hf, -⟩, hy, -⟩, he, -⟩ := h
    obtain ⟨v, h1, h2, h3⟩ := value_var (ext := ext) (sy_setLw_same (v := []) hy) hA hs
    have hc : IsCall (str! "list") [y.setLw []] (.list [.symbol f, y] si e w') := by
      refine .mk f [y] si e w' hf.symm ?_
      have : y.lw = [' '] := (sameNode_lw hy).symm
      simp [dropFirstBlank, this]
    exact ⟨_, C51_list ext _ _ _ si e w' s s hc h1, .succ _ _ _ _ _ he.symm h3 h2⟩

theorem call_same {name w : Str} {X Y n : PNode} (h : SameNode (li [sy ('%' :: name) [], X, Y] w) n) (hX : X.lw = [' ']) :
    ∃ x y, SameNode X x ∧ SameNode Y y ∧ IsCall name [x.setLw [], y] n := by
  match n, h with
  | .list [.symbol f, x, y] si e w', h =>
    obtain ⟨⟨⟨hf, -⟩, hx, hy, -⟩, -, -⟩ := h
    refine ⟨x, y, hx, hy, .mk f [x, y] si e w' hf.symm ?_⟩
    have : x.lw = [' '] := by rw [← sameNode_lw hx, hX]
    simp [dropFirstBlank, this]

theorem bound_a (s : St) (A B : PNode) : (bodyState s A B).scope (str! "a") = some (Macro.var [A]) := rfl
theorem bound_b (s : St) (A B : PNode) : (bodyState s A B).scope (str! "b") = some (Macro.var [B]) := rfl

/-- A call with two variables. -/
theorem stands_vars {ext : Ext} {p : List Instr} {k m n : Nat} {x y v w : Str} {c A B : PNode} {s : St} (hr : Ready p s)
    (h : SameNode (li [sy ('%' :: stateName k) [], sy ('%' :: x) [' '], sy ('%' :: y) v] w) c) (hA : Num m A) (hB : Num n B)
    (ha : s.scope x = some (Macro.var [A])) (hb : s.scope y = some (Macro.var [B])) : Standing ext p ⟨k, m, n⟩ c s := by
  obtain ⟨x', y', hx, hy, hc⟩ := call_same h rfl
  obtain ⟨A', h1, h2, -⟩ := value_var (ext := ext) (sy_setLw_same (v := []) hx) hA ha
  obtain ⟨B', h3, h4, -⟩ := value_var (ext := ext) hy hB hb
  exact ⟨hr, _, A', B', hc, h1.cons h3, h2, h4⟩

theorem same_list {ns : List PNode} {w : Str} {x : PNode} (h : SameNode (li ns w) x) :
    ∃ ms si e, x = .list ms si e w ∧ SameNodes ns ms := by
  match x, h with
  | .list ms si e w', h => exact ⟨ms, si, e, by rw [h.2.2], h.1⟩

/-- The clauses of a `%match` over a counter. -/
theorem match_same {v w : Str} {z k : PNode} {n : PNode}
    (h : SameNode (li [sy (str! "%match") [], sy v [' '], li [li [] [], z] [' '], li [li [sy (str! "p") []] [], k] [' ']] w) n) :
    ∃ x z' k' e0 e1 e2 s0 s1 s2 e3 s3, ∃ pn : Node, SameNode (sy v []) x ∧ SameNode z z' ∧ SameNode k k' ∧ pn.value = str! "p" ∧
      IsCall (str! "match") [x, .list [.list [] s0 e0 [], z'] s1 e1 [' '], .list [.list [.symbol pn] s2 e2 [], k'] s3 e3 [' ']] n := by
  obtain ⟨ms, si, e, rfl, hm⟩ := same_list h
  match ms, hm with
  | [.symbol f, x, c1, c2], hm =>
    obtain ⟨⟨hf, -⟩, hx, h1, h2, -⟩ := hm
    obtain ⟨ms1, s1, e1, rfl, k1⟩ := same_list h1
    obtain ⟨ms2, s2, e2, rfl, k2⟩ := same_list h2
    clear h h1 h2
    match ms1, k1, ms2, k2 with
    | [p1, z'], k1, [p2, k'], k2 =>
      obtain ⟨l1, hz, -⟩ := k1
      obtain ⟨l2, hk, -⟩ := k2
      obtain ⟨ms3, s3, e3, rfl, j1⟩ := same_list l1
      obtain ⟨ms4, s4, e4, rfl, j2⟩ := same_list l2
      clear l1 l2
      match ms3, j1, ms4, j2 with
      | [], j1, [.symbol pn], j2 =>
        refine ⟨x.setLw [], z', k', e3, e1, e4, s3, s1, s4, e2, s2, pn, sy_setLw_same hx, hz, hk, j2.1.1.symm, .mk f _ si e w hf.symm ?_⟩
        have : x.lw = [' '] := (sameNode_lw hx).symm
        simp [dropFirstBlank, this]

/-- The state in which the second clause is expanded. -/
def boundP (s : St) (P : PNode) : St := { s with scope := s.scope.insert (str! "p") (Macro.var [P]) }

/-- A `%match` over a counter. -/
theorem leads_dec {ext : Ext} {v w : Str} {z k n X : PNode} {m : Nat} {s : St}
    (h : SameNode (li [sy ('%' :: str! "match") [], sy ('%' :: v) [' '], li [li [] [], z] [' '], li [li [sy (str! "p") []] [], k] [' ']] w) n)
    (hX : Num m X) (hs : s.scope v = some (Macro.var [X])) :
    (m = 0 → ∃ z', SameNode z z' ∧ Leads ext n s z' s) ∧
    (∀ m', m = m' + 1 → ∃ k' P, SameNode k k' ∧ Num m' P ∧ Leads ext n s k' (boundP s P)) := by
  obtain ⟨x, z', k', e0, e1, e2, s0, s1, s2, e3, s3, pn, hx, hz, hk, hp, hc⟩ := match_same h
  obtain ⟨V, hv, hV, -⟩ := value_var (ext := ext) hx hX hs
  have hf : MacroFree (.list [.symbol pn] s2 e2 []) := .list _ _ _ _ (.cons _ _ (.symbol _ (by rw [hp]; simp)) .nil)
  have hp' : pn = ⟨str! "p", pn.site, pn.lw⟩ := by rw [← hp]
  have e0' := macroFree_evals ext (.list [] s0 e0 []) (.list _ _ _ _ .nil) s
  refine ⟨?_, ?_⟩
  · rintro rfl
    cases hV with
    | zero si e w he => exact ⟨z', hz, leads_match_first hc hv e0' rfl⟩
  · rintro m' rfl
    cases hV with
    | succ _ P si e w he hl hP =>
      refine ⟨k', P, hk, hP, ?_⟩
      cases hP with
      | zero => exact leads_match_second hc hv e0' rfl rfl (macroFree_evals ext _ hf s) (by rw [hp']; rfl)
      | succ => exact leads_match_second hc hv e0' rfl rfl (macroFree_evals ext _ hf s) (by rw [hp']; rfl)

theorem Standing.step {ext : Ext} {p : List Instr} {d d' : Config} {c : PNode} {s : St} {i : Instr} (h : Standing ext p d c s) (hi : p[d.pc]? = some i)
    (hn : i.next d = some d') : ∃ c' s', Standing ext p d' c' s' ∧ Hands ext c s c' s' := by
  obtain ⟨n, A, B, hs, hA, hB, hr, hl⟩ := h.enter hi
  have ha := bound_a s A B
  have hb := bound_b s A B
  generalize hbs : bodyState s A B = t at *
  rcases i with ⟨_ | _, k⟩ | ⟨_ | _, k, z⟩ | _
  · cases hn
    obtain ⟨x', y', hx, hy, hc⟩ := call_same hs rfl
    obtain ⟨A', h1, h2⟩ := value_succ (ext := ext) (setLw_same (v := []) hx) hA ha
    obtain ⟨B', h3, h4, -⟩ := value_var (ext := ext) hy hB hb
    exact ⟨n, t, ⟨hr, _, A', B', hc, h1.cons h3, h2, h4⟩, hl.goes⟩
  · cases hn
    obtain ⟨x', y', hx, hy, hc⟩ := call_same hs rfl
    obtain ⟨A', h1, h2, -⟩ := value_var (ext := ext) (sy_setLw_same (v := []) hx) hA ha
    obtain ⟨B', h3, h4⟩ := value_succ (ext := ext) hy hB hb
    exact ⟨n, t, ⟨hr, _, A', B', hc, h1.cons h3, h2, h4⟩, hl.goes⟩
  · obtain ⟨h0, h1⟩ := leads_dec (ext := ext) hs hA ha
    cases hn
    split
    · rename_i e
      obtain ⟨z', hz, hl'⟩ := h0 e
      exact ⟨z', t, stands_vars hr hz hA hB ha hb, hl.goes.trans hl'.goes⟩
    · rename_i e
      obtain ⟨k', P, hk, hP, hl'⟩ := h1 (d.a - 1) (by omega)
      exact ⟨k', _, stands_vars (hr.insert 'p' (by decide) _) hk hP hB rfl hb, hl.goes.trans hl'.goes⟩
  · obtain ⟨h0, h1⟩ := leads_dec (ext := ext) hs hB hb
    cases hn
    split
    · rename_i e
      obtain ⟨z', hz, hl'⟩ := h0 e
      exact ⟨z', t, stands_vars hr hz hA hB ha hb, hl.goes.trans hl'.goes⟩
    · rename_i e
      obtain ⟨k', P, hk, hP, hl'⟩ := h1 (d.b - 1) (by omega)
      exact ⟨k', _, stands_vars (hr.insert 'p' (by decide) _) hk hA hP ha rfl, hl.goes.trans hl'.goes⟩
  · cases hn

theorem Standing.halt {ext : Ext} {p : List Instr} {d : Config} {c : PNode} {s : St} (h : Standing ext p d c s) (hi : p[d.pc]? = some .halt) :
    ∃ o, Results ext c s (.ok [o]) ∧ Num d.a o ∧ o.lw = [] := by
  obtain ⟨n, A, B, hs, hA, hB, hr, hl⟩ := h.enter hi
  obtain ⟨v, h1, h2, h3⟩ := value_var (ext := ext) hs hA (bound_a s A B)
  exact ⟨v, hl.stops (results_evals.2 ⟨_, h1⟩), h2, h3⟩

theorem Standing.out {ext : Ext} {p : List Instr} {d : Config} {c : PNode} {s : St} (h : Standing ext p d c s) (hi : p[d.pc]? = none) :
    ∃ e, Results ext c s (.err e) := by
  obtain ⟨args, A, B, hc, ha, -, -⟩ := h.call
  have hm := h.ready.unknown _ hi
  have key : Ev fun f => userMacro (run ext f) (stateName d.pc) c args s =
      (M.fail "Macro not found." c.site : M (List PNode)) s := by
    refine ha.ev.mono fun f hf => ?_
    unfold userMacro
    rw [M.bind_ok hf, M.bind_ok (M.lookup_def _ s), hm]
  exact ⟨_, results_evals.2 ⟨_, evals_user hc (builtin_state _) (by simp) key⟩⟩

theorem gives_stops {ext : Ext} {p : List Instr} {r : Nat} {d : Config} (h : Gives p r d) : ∀ {c : PNode} {s : St}, Standing ext p d c s →
    ∃ o, Results ext c s (.ok [o]) ∧ Num r o ∧ o.lw = [] := by
  induction h with
  | halt d hi hr => subst hr; exact fun h => h.halt hi
  | step d d' i hi hn _ ih =>
    intro c s h
    obtain ⟨c', s', h1, h2⟩ := h.step hi hn
    obtain ⟨o, h3, h4⟩ := ih h1
    exact ⟨o, h2.stops _ h3, h4⟩

theorem strays_stops {ext : Ext} {p : List Instr} {d : Config} (h : Strays p d) : ∀ {c : PNode} {s : St}, Standing ext p d c s →
    ∃ e, Results ext c s (.err e) := by
  induction h with
  | out d hi => exact fun h => h.out hi
  | step d d' i hi hn _ ih =>
    intro c s h
    obtain ⟨c', s', h1, h2⟩ := h.step hi hn
    obtain ⟨e, h3⟩ := ih h1
    exact ⟨e, h2.stops _ h3⟩

theorem stops_gives {ext : Ext} {p : List Instr} : ∀ (g : Nat) {d : Config} {c : PNode} {s : St}, Standing ext p d c s → outcome ext c s g ≠ .diverge →
    (∃ r, Gives p r d) ∨ Strays p d := by
  intro g
  induction g using Nat.strongRecOn with
  | ind g ih =>
    intro d c s h hg
    cases hi : p[d.pc]? with
    | none => exact .inr (.out d hi)
    | some i =>
      cases hn : i.next d with
      | none =>
        have : i = .halt := by
          rcases i with ⟨_ | _, k⟩ | ⟨_ | _, k, z⟩ | _ <;> simp [Instr.next] at hn ⊢
        subst this
        exact .inl ⟨d.a, .halt d hi rfl⟩
      | some d' =>
        obtain ⟨c', s', h1, h2⟩ := h.step hi hn
        obtain ⟨k, hk, e⟩ := h2.back g hg
        rcases ih k hk h1 (by rw [e]; exact hg) with ⟨r, h3⟩ | h3
        · exact .inl ⟨r, .step d d' i hi hn h3⟩
        · exact .inr (.step d d' i hi hn h3)

/-! ## The whole program -/

theorem defs_evals (ext : Ext) : ∀ (is : List Instr) (k : Nat) (ns : List PNode), SameNodes (defNodes k is) ns → ∀ s : St,
    ∃ t, Evals ext ns s (.ok []) t ∧ (∀ j i, is[j]? = some i → ∃ m, t.scope (stateName (k + j)) = some m ∧ IsMacro i m) ∧
      (∀ x, (∀ j, j < is.length → x ≠ stateName (k + j)) → t.scope x = s.scope x)
  | [], k, ns, h, s => by
    match ns, h with
    | [], _ => exact ⟨s, Spec.Evals.nil ext s, fun j i h => by simp at h, fun _ _ => rfl⟩
  | i :: is, k, ns, h, s => by
    match ns, h with
    | n :: ns, h =>
      obtain ⟨hn, hns⟩ := h
      obtain ⟨ms, si, e, rfl, hm⟩ := same_list hn
      match ms, hm with
      | [.symbol a, hd, b], hm =>
        obtain ⟨⟨ha, -⟩, hh, hb, -⟩ := hm
        obtain ⟨ms, s1, e1, rfl, hm⟩ := same_list hh
        match ms, hm with
        | [.symbol f, .symbol x, .symbol y], hm =>
          obtain ⟨⟨hf, -⟩, hx, hy, -⟩ := hm
          have hcall : IsCall (str! "define") [.list (.symbol f :: [.symbol x, .symbol y]) s1 e1 [], b]
              (.list [.symbol a, .list [.symbol f, .symbol x, .symbol y] s1 e1 [' '], b] si e []) := .mk a _ _ _ _ ha.symm rfl
          have hd : (createMacro f.value [.symbol x, .symbol y] [b] >>= fun _ => (pure [] : M (List PNode))) s =
              (.ok [], { s with scope := s.scope.insert (stateName k) { params := [.symbol x, .symbol y], body := [b] } }) := by
            rw [← hf]
            have hx' : x = ⟨str! "a", x.site, x.lw⟩ := by
              have : x.value = str! "a" := hx.1.symm
              rw [← this]
            have hy' : y = ⟨str! "b", y.site, y.lw⟩ := by
              have : y.value = str! "b" := hy.1.symm
              rw [← this]
            rw [hx', hy']
            rfl
          have e1' := (evals_define_function (ext := ext) hcall).2 ⟨by simp, hd⟩
          obtain ⟨t, h1, h2, h3⟩ := defs_evals ext is (k + 1) ns hns
            { s with scope := s.scope.insert (stateName k) { params := [.symbol x, .symbol y], body := [b] } }
          refine ⟨t, e1'.cons h1, fun j i' hj => ?_, fun z hz => ?_⟩
          · match j, hj with
            | 0, hj =>
              simp at hj
              subst hj
              refine ⟨{ params := [.symbol x, .symbol y], body := [b] }, ?_, ⟨hx, hy, trivial⟩, hb, trivial⟩
              rw [Nat.add_zero, h3 _ fun j _ e => ?_]
              · simp [Scope.insert]
              · have := stateName_inj e
                omega
            | j + 1, hj =>
              obtain ⟨m, h4, h5⟩ := h2 j i' (by simpa using hj)
              exact ⟨m, by rw [← h4]; congr 2; omega, h5⟩
          · rw [h3 z fun j hj e => hz (j + 1) (by simp; omega) (by rw [e]; congr 1; omega)]
            have := hz 0 (by simp)
            simp only [Nat.add_zero] at this
            simp [Scope.insert, this]

theorem sameNodes_split : ∀ (as bs ns : List PNode), SameNodes (as ++ bs) ns → ∃ as' bs', ns = as' ++ bs' ∧ SameNodes as as' ∧ SameNodes bs bs'
  | [], bs, ns, h => ⟨[], ns, rfl, trivial, h⟩
  | a :: as, bs, ns, h => by
    match ns, h with
    | n :: ns, h =>
      obtain ⟨as', bs', rfl, h1, h2⟩ := sameNodes_split as bs ns h.2
      exact ⟨n :: as', bs', rfl, ⟨h.1, h1⟩, h2⟩

/-- What is read and evaluated before the machine starts. -/
theorem machine_starts (ext : Ext) (order : Order) (path : Str) (p : List Instr) (a b : Nat) :
    ∃ tree c s, parse ext.unescape { path := path, id := 1, code := machineProgram p a b } = .ok tree ∧
      Standing ext p ⟨0, a, b⟩ c s ∧
      ∀ r t, Evals ext tree { scope := Scope.empty, fresh := 2, log := [], hashes := 0, order := order } r t ↔ Evals ext [c] s r t := by
  obtain ⟨tree, h1, h2⟩ := C14_sexp_reads_back ext.unescape id _ (machine_printable ext.unescape id a b p 0) path 1
  rw [machine_text] at h1
  obtain ⟨ds, cs, rfl, hd, hc⟩ := sameNodes_split _ _ _ h2
  match cs, hc with
  | [c], hc =>
    obtain ⟨s, e1, e2, e3⟩ := defs_evals ext p 0 ds hd { scope := Scope.empty, fresh := 2, log := [], hashes := 0, order := order }
    refine ⟨_, c, s, h1, ⟨⟨fun k i hk => by simpa using e2 k i hk, fun k hk => ?_⟩, ?_⟩, fun r t => ?_⟩
    · rw [e3]
      · rfl
      · intro j hj e
        have := stateName_inj e
        simp at hk
        omega
    · obtain ⟨x, y, hx, hy, hcall⟩ := call_same (name := stateName 0) hc.1 (numNode_lw _ _)
      have hX := (numNode_same _ _ _ hx).setLw []
      have hY := numNode_same _ _ _ hy
      exact ⟨_, _, _, hcall, (hX.evals ext s).cons (hY.evals ext s), hX, hY⟩
    · constructor
      · intro h
        rcases h.append_inv with ⟨as, t', r', h3, h4, rfl⟩ | ⟨h3, h4⟩
        · obtain ⟨h5, rfl⟩ := e1.unique h3
          cases h5
          have : addBefore [] r' = r' := by cases r' <;> rfl
          rw [this]
          exact h4
        · exact absurd (h3.unique e1).1 (h4 _)
      · intro h
        have := e1.before h
        have e : addBefore [] r = r := by cases r <;> rfl
        rw [e] at this
        exact this

end Seam
