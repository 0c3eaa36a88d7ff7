import Verif.Lemmas.Levels
import Verif.Lemmas.Cases
import Verif.Props.Machine

/-!
# Loops need no stack, recursion does (C111)

What a bounded stack means is said in `Spec/Levels.lean`.
-/

namespace Seam
open Spec

/-- C111: what is expanded at all is expanded on some stack, and on every larger one to the same. -/
theorem C111_enough (ext : Ext) (ns out : List PNode) (s t : St) :
    (Evals ext ns s (.ok out) t ↔ ∃ n, InLevels ext n ns s out t) ∧
      ∀ n k, InLevels ext n ns s out t → InLevels ext (n + k) ns s out t := by
  refine ⟨⟨fun ⟨_, n, h⟩ => ⟨n, h⟩, fun ⟨n, h⟩ => ⟨by simp, n, h⟩⟩, fun n k h => ?_⟩
  have e : Evals ext ns s (.ok out) t := ⟨by simp, n, h⟩
  rcases expandNodes_le (run_mono ext n k) ns s with h1 | h1
  · unfold InLevels at h
    rw [h] at h1
    cases h1
  · unfold InLevels at h ⊢
    rw [← h1]
    exact h

/-- C111: nodes one after the other need no more than each of them. -/
theorem C111_sequence (ext : Ext) (n : Nat) (as bs out : List PNode) (s t : St) :
    InLevels ext n (as ++ bs) s out t ↔ ∃ o1 u o2, InLevels ext n as s o1 u ∧ InLevels ext n bs u o2 t ∧ out = o1 ++ o2 :=
  levels_append

/-- C111: a loop needs two levels more than the most demanding of its rounds, however many there are. -/
theorem C111_for (ext : Ext) (n : Nat) (c it : PNode) (b : Node) (args xs rest out : List PNode) (si : Site) (e : Token) (w : Str) (s t : St)
    (hc : IsCall (str! "for") args c) (hp : positional args = it :: .symbol b :: .list xs si e w :: rest) (hb : b.value = str! "in") :
    InLevels ext (n + 2) [c] s out t ↔
      ∃ ys u t', InLevels ext n xs s ys u ∧ Rounds ext n it (dropPositional 3 args) ys u out t' ∧ t = { t' with scope := u.scope } :=
  levels_for hc hp hb

/-- C111: so does `%map`. -/
theorem C111_map (ext : Ext) (n : Nat) (c : PNode) (args vs back out : List PNode) (f : Node) (s u t : St)
    (hc : IsCall (str! "map") args c) (ha : InLevels ext n args s vs u) (hp : positional vs = .symbol f :: back) :
    InLevels ext (n + 2) [c] s out t ↔ ∃ rs, TurnsIn ext n f.value c (dropPositional 1 vs) u rs t ∧ out = rs.flatten := by
  rw [levels_function hc (b := .map) rfl map_mem (fun f ns => mapLoop (run ext n) c f ns) rfl ha hp]
  exact mapLoop_turns

/-- C111: and `%filter`. -/
theorem C111_filter (ext : Ext) (n : Nat) (c : PNode) (args vs back out : List PNode) (f : Node) (s u t : St)
    (hc : IsCall (str! "filter") args c) (ha : InLevels ext n args s vs u) (hp : positional vs = .symbol f :: back) :
    InLevels ext (n + 2) [c] s out t ↔
      ∃ rs, TurnsIn ext n f.value c (dropPositional 1 vs) u rs t ∧ out = (rs.filter fun x => !emptyList x).flatten := by
  rw [levels_function hc (b := .filter) rfl filter_mem (fun f ns => filterLoop (run ext n) c f ns) rfl ha hp]
  exact filterLoop_turns

/-- C111: what a turn of `%map` or `%filter` needs is one level less than the call written out. -/
theorem C111_turn (ext : Ext) (n : Nat) (x : PNode) (ns ns' out : List PNode) (f : Str) (si : Site) (e : Token) (w : Str) (s t : St)
    (hc : IsCall f [x] (.list ns' si e w)) :
    CallInLevels ext n f (.list ns si e w) x s out t ↔ InLevels ext (n + 1) [.list ns' si e w] s out t := by
  rw [levels_one, run_call hc]
  unfold CallInLevels
  rw [(invoke_call (ext := ext) n).calls (c := .list ns si e w) (c' := .list ns' si e w)]

/-- C111: a call of a user's macro needs two levels more than its arguments and its body. -/
theorem C111_call (ext : Ext) (n : Nat) (name : Str) (args out : List PNode) (c : PNode) (s t : St) (hc : IsCall name args c)
    (hb : builtin? name = none) : InLevels ext (n + 2) [c] s out t ↔
      ∃ vs u m v t', InLevels ext n args s vs u ∧ u.scope name = some m ∧ bindList c m.params vs u = (.ok (), v) ∧
        InLevels ext n m.body v out t' ∧ t = { t' with scope := u.scope } := levels_user hc hb

/-- C111: recursion needs levels without bound.  The document for a machine that makes at least `m` steps overflows a stack of `m` levels. -/
theorem C111_recursion (ext : Ext) (order : Order) (path : Str) (p : List Instr) (a b m : Nat) (h : Walks p m ⟨0, a, b⟩) :
    ∃ tree, parse ext.unescape { path := path, id := 1, code := machineProgram p a b } = .ok tree ∧
      (expandNodes (run ext m) tree (St.init order)).1 = .diverge := machine_levels ext order path p a b m h

/-- `(%define (q a b) ...)`: take one from the first number until it is zero. -/
def exCountdown : List Instr := [.dec .a 0 1, .halt]

theorem exCountdown_walks (b : Nat) : ∀ a, Walks exCountdown (a + 1) ⟨0, a, b⟩
  | 0 => .step 0 _ ⟨1, 0, b⟩ (.dec .a 0 1) rfl rfl (.start _)
  | a + 1 => .step (a + 1) _ ⟨0, a, b⟩ (.dec .a 0 1) rfl (by simp [Instr.next]) (exCountdown_walks b a)

theorem exCountdown_gives (b : Nat) : ∀ a, Gives exCountdown 0 ⟨0, a, b⟩
  | 0 => .step _ ⟨1, 0, b⟩ (.dec .a 0 1) rfl rfl (.halt _ rfl rfl)
  | a + 1 => .step _ ⟨0, a, b⟩ (.dec .a 0 1) rfl (by simp [Instr.next]) (exCountdown_gives b a)

/-- C111: so for every number of levels there is a document that is printed, as `()`, by a macro that calls itself, and that overflows a
stack of so many levels. -/
theorem C111_no_bound (ext : Ext) (order : Order) (dbg : Str → Str) (doc : Bool) (path : Str) (levels : Nat) :
    Prints ext order dbg (str! "sexp") doc (path, some (machineProgram exCountdown levels 0)) (str! "()") ∧
    ∃ tree, parse ext.unescape { path := path, id := 1, code := machineProgram exCountdown levels 0 } = .ok tree ∧
      (expandNodes (run ext levels) tree (St.init order)).1 = .diverge := by
  refine ⟨(C108_computes ext order dbg doc path exCountdown levels 0 _).2 ⟨0, exCountdown_gives 0 levels, rfl⟩,
    C111_recursion ext order path exCountdown levels 0 levels ?_⟩
  have : ∀ {m d}, Walks exCountdown (m + 1) d → Walks exCountdown m d := by
    intro m
    induction m with
    | zero => exact fun _ => .start _
    | succ m ih =>
      intro d h
      cases h with
      | step _ _ d' i h1 h2 h3 => exact .step _ _ _ _ h1 h2 (ih h3)
  exact this (exCountdown_walks 0 levels)

/-- `(%for x in (a ... a) %x)`. -/
def exLong (k : Nat) : PNode :=
  exList [exSym (str! "%for"), exSym ['x'], exSym (str! "in"), exList (List.replicate k (exSym ['a'])), exSym (str! "%x")]

/-- C111: a loop over a list of any length runs on a stack of four levels. -/
theorem C111_long_loop (ext : Ext) (k : Nat) (s : St) : InLevels ext 4 [exLong k] s (List.replicate k (exSym ['a'])) s := by
  have hrun : ∀ k (u : St), InLevels ext 2 (List.replicate k (exSym ['a'])) u (List.replicate k (exSym ['a'])) u := by
    intro k u
    induction k with
    | zero => rfl
    | succ k ih => exact (levels_append (as := [exSym ['a']])).2 ⟨_, u, _, rfl, ih, rfl⟩
  refine (C111_for ext 2 _ (exSym ['x']) ⟨str! "in", default, []⟩ _ (List.replicate k (exSym ['a'])) _ _ _ _ _ s s (.mk _ _ _ _ _ rfl rfl) rfl rfl).2 ?_
  have key : ∀ k (u : St), ∃ t, Rounds ext 2 (exSym ['x']) [exSym (str! "%x")] (List.replicate k (exSym ['a'])) u (List.replicate k (exSym ['a'])) t ∧
      { t with scope := s.scope } = { u with scope := s.scope } := by
    intro k
    induction k with
    | zero => exact fun u => ⟨u, .done u, rfl⟩
    | succ k ih =>
      intro u
      obtain ⟨t, h1, h2⟩ := ih { u with scope := u.scope.insert ['x'] (Macro.var [exSym ['a']]) }
      exact ⟨t, .item _ _ [exSym ['a']] _ _ _ _ _ rfl rfl h1, h2⟩
  obtain ⟨t, h1, h2⟩ := key k s
  exact ⟨_, s, t, hrun k s, h1, h2.symm⟩

/-- The least it takes: with three levels the loop does not run. -/
example : (expandNodes (run exExt 3) [exLong 2] exSt).1 = .diverge := rfl

/-- `(%map f a a)` after `(%define (f x) (li %x))`: six levels, two of them for the call of `%map` itself. -/
example : ∃ t, InLevels exExt 6 [exList [exSym (str! "%define"), exList [exSym ['f'], exSym ['x']], exList [exSym (str! "li"), exSym (str! "%x")]],
    exList [exSym (str! "%map"), exSym ['f'], exSym ['a'], exSym ['a']]] exSt
    [exList [exSym (str! "li"), exSym ['a']], exList [exSym (str! "li"), exSym ['a']]] t := ⟨_, rfl⟩

/-- The document for the countdown from two. -/
example : machineProgram exCountdown 2 0 =
    str! "(%define (q a b)(%match %a (() (%qq %a %b)) ((p) (%q %p %b))))(%define (qq a b)%a)(%q ((())) ())" := by decide

end Seam
