import Verif.Lemmas.SoundRun
import Verif.Lemmas.Control
import Verif.Lemmas.Apply
import Verif.Spec.Halt

/-!
# A program logic for what the expander leaves behind

`OutC d J P m`: run in a state that satisfies `J`, the computation `m` leaves a
state that satisfies `J`, its result satisfies `P`, and, if `d` holds, it
finishes.  `Out d J P F` says the same of a computation that is given fuel;
there, finishing means that enough fuel gives a definite outcome.
-/

namespace Seam
open Spec

/-- Several nodes without macros. -/
def Free (ns : List PNode) : Prop := ∀ n ∈ ns, MacroFree n

theorem free_iff : ∀ {ns : List PNode}, MacrosFree ns ↔ Free ns
  | [] => ⟨fun _ _ h => absurd h (by simp), fun _ => .nil⟩
  | n :: ns => by
    constructor
    · intro h m hm
      cases h with
      | cons _ _ h h' =>
        rcases List.mem_cons.1 hm with rfl | hm
        · exact h
        · exact free_iff.1 h' m hm
    · intro h
      exact .cons _ _ (h n (by simp)) (free_iff.2 fun m hm => h m (by simp [hm]))

theorem free_nil : Free [] := fun _ h => absurd h (by simp)
theorem free_cons {n : PNode} {ns : List PNode} (h1 : MacroFree n) (h2 : Free ns) : Free (n :: ns) := by
  intro m hm
  rcases List.mem_cons.1 hm with rfl | hm
  · exact h1
  · exact h2 m hm
theorem free_one {n : PNode} (h : MacroFree n) : Free [n] := free_cons h free_nil
theorem Free.head {n : PNode} {ns : List PNode} (h : Free (n :: ns)) : MacroFree n := h n (by simp)
theorem Free.tail {n : PNode} {ns : List PNode} (h : Free (n :: ns)) : Free ns := fun m hm => h m (by simp [hm])
theorem Free.append {as bs : List PNode} (h1 : Free as) (h2 : Free bs) : Free (as ++ bs) := by
  intro m hm
  rcases List.mem_append.1 hm with hm | hm
  · exact h1 m hm
  · exact h2 m hm
theorem free_setLw {n : PNode} (h : MacroFree n) (w : Str) : MacroFree (n.setLw w) := by
  cases h with
  | symbol a h => exact .symbol _ h
  | number a => exact .number _
  | string a => exact .string _
  | raw a => exact .raw _
  | list ns s e w h => exact .list _ _ _ _ h
  | attr k n s w h => exact .attr _ _ _ _ h
theorem Free.firstLw {ns : List PNode} (h : Free ns) (w : Str) : Free (withFirstLw w ns) := by
  cases ns with
  | nil => exact free_nil
  | cons n ns => exact free_cons (free_setLw h.head w) h.tail
theorem free_list {ns : List PNode} {s : Site} {e : Token} {w : Str} (h : Free ns) : MacroFree (.list ns s e w) :=
  .list _ _ _ _ (free_iff.2 h)
theorem free_kids {ns : List PNode} {s : Site} {e : Token} {w : Str} (h : MacroFree (.list ns s e w)) : Free ns := by
  cases h with
  | list _ _ _ _ h => exact free_iff.1 h
theorem free_value {k : Str} {n : PNode} {s : Site} {w : Str} (h : MacroFree (.attr k n s w)) : MacroFree n := by
  cases h with
  | attr _ _ _ _ h => exact h

/-- What is kept must not depend on the log and the like, and bear variables with
macro-free values. -/
structure Steady (J : St → Prop) : Prop where
  fresh : ∀ s n, J s → J { s with fresh := n }
  log : ∀ s l, J s → J { s with log := l }
  data : ∀ s name body, J s → Free body → J { s with scope := s.scope.insert name (Macro.var body) }
  rest : ∀ s (name : Str) (m : List (Str × PNode)), J s → (∀ p ∈ m, MacroFree p.2) →
    J { s with hashes := s.hashes + 1, scope := s.scope.insert name (Macro.var ((s.order s.hashes m).map (·.2))) }
  back : ∀ s t, J s → J t → J { t with scope := s.scope }

/-- The outcome is as wanted. -/
def Fine (d : Prop) (J : St → Prop) {α : Type} (P : α → Prop) (x : Res α × St) : Prop :=
  match x.1 with
  | .ok a => P a ∧ J x.2
  | .err _ => J x.2
  | .panic => True
  | .diverge => ¬ d

/-- The computation is as wanted. -/
def OutC (d : Prop) (J : St → Prop) {α : Type} (P : α → Prop) (m : M α) : Prop := ∀ s, J s → Fine d J P (m s)

/-- The same for a computation that is given fuel. -/
def Out (d : Prop) (J : St → Prop) {α : Type} (P : α → Prop) (F : Nat → M α) : Prop :=
  ∀ s, J s → (∀ f, Fine False J P (F f s)) ∧ (d → ∃ x, Fine True J P x ∧ Ev fun f => F f s = x)

/-- The same for an outcome alone. -/
def FineR (d : Prop) {α : Type} (P : α → Prop) : Res α → Prop
  | .ok a => P a
  | .diverge => ¬ d
  | _ => True

section
variable {d : Prop} {J : St → Prop} {α β : Type}

theorem FineR.mono {P Q : α → Prop} {r : Res α} (h : FineR d P r) (hi : ∀ a, P a → Q a) : FineR d Q r := by
  cases r with
  | ok a => exact hi a h
  | _ => exact h
theorem FineR.bind {P : α → Prop} {Q : β → Prop} {r : Res α} {f : α → Res β} (h : FineR d P r)
    (hf : ∀ a, P a → FineR d Q (f a)) : FineR d Q (r >>= f) := by
  cases r with
  | ok a => exact hf a h
  | _ => exact h

theorem Fine.mono {P Q : α → Prop} {x : Res α × St} (h : Fine d J P x) (hi : ∀ a, P a → Q a) : Fine d J Q x := by
  rcases x with ⟨_ | _ | _ | _, t⟩
  · exact ⟨hi _ h.1, h.2⟩
  all_goals exact h
theorem Fine.weaken {P : α → Prop} {x : Res α × St} (h : Fine True J P x) : Fine d J P x := by
  rcases x with ⟨_ | _ | _ | _, t⟩
  · exact h
  · exact h
  · exact h
  · exact absurd trivial h
theorem Fine.loose {P : α → Prop} {x : Res α × St} (h : Fine d J P x) : Fine False J P x := by
  rcases x with ⟨_ | _ | _ | _, t⟩
  · exact h
  · exact h
  · exact h
  · exact id

theorem OutC.pure {P : α → Prop} {a : α} (h : P a) : OutC d J P (pure a : M α) := fun _ hj => ⟨h, hj⟩
theorem OutC.fail {P : α → Prop} {msg : String} {site : Site} : OutC d J P (M.fail msg site : M α) := fun _ hj => hj
theorem OutC.panic {P : α → Prop} : OutC d J P (M.panic : M α) := fun _ _ => trivial
theorem OutC.lift {P : α → Prop} {r : Res α} (h : FineR d P r) : OutC d J P (M.lift r) := by
  intro s hj
  cases r with
  | ok a => exact ⟨h, hj⟩
  | err e => exact hj
  | panic => trivial
  | diverge => exact h
theorem OutC.data (hs : Steady J) {P : Unit → Prop} {name : Str} {body : List PNode} (h : Free body) (hp : P ()) :
    OutC d J P (M.define name (Macro.var body)) := fun s hj => ⟨hp, hs.data s name body hj h⟩
theorem OutC.emit (hs : Steady J) {P : Unit → Prop} {l : LogLine} (hp : P ()) : OutC d J P (M.emit l) :=
  fun s hj => ⟨hp, hs.log s _ hj⟩
theorem OutC.tick (hs : Steady J) {P : Nat → Prop} (hp : ∀ n, P n) : OutC d J P M.tick :=
  fun s hj => ⟨hp _, hs.fresh s _ hj⟩
theorem OutC.lookup {P : Option Macro → Prop} {name : Str} (hp : ∀ s, J s → P (s.scope name)) : OutC d J P (M.lookup name) :=
  fun s hj => ⟨hp s hj, hj⟩
theorem OutC.bind {P : α → Prop} {Q : β → Prop} {m : M α} {f : α → M β} (h : OutC d J P m)
    (hf : ∀ a, P a → OutC d J Q (f a)) : OutC d J Q (m >>= f) := by
  intro s hj
  have := h s hj
  rw [M.bind_def]
  rcases hm : m s with ⟨r, t⟩
  rw [hm] at this
  cases r with
  | ok a => exact hf a this.1 t this.2
  | _ => exact this
theorem OutC.mono {P Q : α → Prop} {m : M α} (h : OutC d J P m) (hi : ∀ a, P a → Q a) : OutC d J Q m :=
  fun s hj => (h s hj).mono hi
theorem OutC.ignoreErr {P : Unit → Prop} {m : M Unit} (h : OutC d J P m) (hq : P ()) : OutC d J P (ignoreErr m) := by
  intro s hj
  have := h s hj
  unfold Seam.ignoreErr
  rcases hm : m s with ⟨r, t⟩
  rw [hm] at this
  cases r with
  | err e => exact ⟨hq, this⟩
  | _ => exact this

/-! ## Computations with fuel -/

theorem Out.const {P : α → Prop} {m : M α} (h : OutC d J P m) : Out d J P fun _ => m := by
  intro s hj
  refine ⟨fun _ => (h s hj).loose, fun hd => ⟨m s, ?_, Ev.of fun _ => rfl⟩⟩
  have := h s hj
  rcases hm : m s with ⟨r, t⟩
  rw [hm] at this
  cases r with
  | diverge => exact absurd hd this
  | _ => exact this
theorem Out.mono {P Q : α → Prop} {F : Nat → M α} (h : Out d J P F) (hi : ∀ a, P a → Q a) : Out d J Q F := by
  intro s hj
  refine ⟨fun f => ((h s hj).1 f).mono hi, fun hd => ?_⟩
  obtain ⟨x, hx, he⟩ := (h s hj).2 hd
  exact ⟨x, hx.mono hi, he⟩
theorem Out.bind {P : α → Prop} {Q : β → Prop} {F : Nat → M α} {K : Nat → α → M β} (h : Out d J P F)
    (hk : ∀ a, P a → Out d J Q fun f => K f a) : Out d J Q fun f => F f >>= K f := by
  intro s hj
  constructor
  · intro f
    have := (h s hj).1 f
    show Fine False J Q ((F f >>= K f) s)
    rw [M.bind_def]
    rcases hm : F f s with ⟨r, t⟩
    rw [hm] at this
    cases r with
    | ok a => exact (hk a this.1 t this.2).1 f
    | _ => exact this
  · intro hd
    obtain ⟨⟨r, t⟩, hx, he⟩ := (h s hj).2 hd
    cases r with
    | ok a =>
      obtain ⟨y, hy, he'⟩ := (hk a hx.1 t hx.2).2 hd
      exact ⟨y, hy, (he.and he').mono fun f hf => (M.bind_ok hf.1).trans hf.2⟩
    | err e => exact ⟨(.err e, t), hx, he.mono fun f hf => M.bind_err hf⟩
    | panic => exact ⟨(.panic, t), hx, he.mono fun f hf => M.bind_panic hf⟩
    | diverge => exact absurd trivial hx
/-- The usual shape of a macro: its arguments first. -/
theorem Out.eager {P : α → Prop} {Q : β → Prop} {F : Nat → M α} {K : α → M β} (h : Out d J P F)
    (hk : ∀ a, P a → OutC d J Q (K a)) : Out d J Q fun f => F f >>= K := h.bind fun a ha => Out.const (hk a ha)

theorem Fine.back (hs : Steady J) {P : α → Prop} {s : St} (hj : J s) {x : Res α × St} (h : Fine d J P x) :
    Fine d J P (x.1, { x.2 with scope := s.scope }) := by
  rcases x with ⟨_ | _ | _ | _, t⟩
  · exact ⟨h.1, hs.back _ _ hj h.2⟩
  · exact hs.back _ _ hj h
  · exact h
  · exact h

theorem Out.inner (hs : Steady J) {P : α → Prop} {F : Nat → M α} (h : Out d J P F) : Out d J P fun f => M.inner (F f) := by
  intro s hj
  refine ⟨fun f => ((h s hj).1 f).back hs hj, fun hd => ?_⟩
  obtain ⟨x, hx, he⟩ := (h s hj).2 hd
  refine ⟨_, hx.back hs hj, he.mono fun f hf => ?_⟩
  show M.inner (F f) s = _
  rw [M.inner_def, hf]

theorem Out.rethrow {P : α → Prop} {F : Nat → M α} {msg : String} {site : Site} (h : Out d J P F) :
    Out d J P fun f => rethrow msg site (F f) := by
  intro s hj
  constructor
  · intro f
    have := (h s hj).1 f
    show Fine False J P (Seam.rethrow msg site (F f) s)
    unfold Seam.rethrow
    rcases hm : F f s with ⟨r, t⟩
    rw [hm] at this
    cases r <;> exact this
  · intro hd
    obtain ⟨⟨r, t⟩, hx, he⟩ := (h s hj).2 hd
    cases r with
    | ok a => exact ⟨(.ok a, t), hx, he.mono fun f hf => by show Seam.rethrow msg site (F f) s = _; unfold Seam.rethrow; rw [hf]⟩
    | err e => exact ⟨M.fail msg site t, hx, he.mono fun f hf => by show Seam.rethrow msg site (F f) s = _; unfold Seam.rethrow; rw [hf]⟩
    | panic => exact ⟨(.panic, t), hx, he.mono fun f hf => by show Seam.rethrow msg site (F f) s = _; unfold Seam.rethrow; rw [hf]⟩
    | diverge => exact absurd trivial hx

theorem Out.matchStep (hs : Steady J) {P : α → Prop} {b : M Unit} {F G : Nat → M α} (hb : OutC d J (fun _ => True) b)
    (h1 : Out d J P F) (h2 : Out d J P G) : Out d J P fun f => matchStep b (F f) (G f) := by
  intro s hj
  have hb := hb s hj
  rcases hm : b s with ⟨r, t⟩
  rw [hm] at hb
  cases r with
  | ok a =>
    have heq : ∀ f, Seam.matchStep b (F f) (G f) s = ((F f t).1, { (F f t).2 with scope := s.scope }) := by
      intro f
      unfold Seam.matchStep
      rw [hm]
      rfl
    refine ⟨fun f => by show Fine False J P (Seam.matchStep b (F f) (G f) s); rw [heq]; exact ((h1 t hb.2).1 f).back hs hj, fun hd => ?_⟩
    obtain ⟨x, hx, he⟩ := (h1 t hb.2).2 hd
    refine ⟨_, hx.back hs hj, he.mono fun f hf => ?_⟩
    exact (heq f).trans (by rw [hf])
  | err e =>
    have heq : ∀ f, Seam.matchStep b (F f) (G f) s = G f { t with scope := s.scope } := by
      intro f
      unfold Seam.matchStep
      rw [hm]
    refine ⟨fun f => by show Fine False J P (Seam.matchStep b (F f) (G f) s); rw [heq]; exact (h2 _ (hs.back _ _ hj hb)).1 f, fun hd => ?_⟩
    obtain ⟨x, hx, he⟩ := (h2 _ (hs.back _ _ hj hb)).2 hd
    refine ⟨x, hx, he.mono fun f hf => ?_⟩
    exact (heq f).trans (by rw [hf])
  | panic =>
    have heq : ∀ f, Seam.matchStep b (F f) (G f) s = (.panic, { t with scope := s.scope }) := by
      intro f
      unfold Seam.matchStep
      rw [hm]
    exact ⟨fun f => by show Fine False J P (Seam.matchStep b (F f) (G f) s); rw [heq]; trivial, fun _ => ⟨(.panic, { t with scope := s.scope }), trivial, Ev.of heq⟩⟩
  | diverge =>
    have heq : ∀ f, Seam.matchStep b (F f) (G f) s = (.diverge, { t with scope := s.scope }) := by
      intro f
      unfold Seam.matchStep
      rw [hm]
    exact ⟨fun f => by show Fine False J P (Seam.matchStep b (F f) (G f) s); rw [heq]; exact id, fun hd => absurd hd hb⟩

/-! ## Binding -/

/-- All nodes of a map are without macros. -/
def FreeMap (m : List (Str × PNode)) : Prop := ∀ p ∈ m, MacroFree p.2

theorem amInsert_freeMap {k : Str} {n : PNode} (hn : MacroFree n) {m : List (Str × PNode)} (h : FreeMap m) : FreeMap (amInsert k n m) := by
  intro p hp
  rcases amInsert_cases hp with rfl | hp
  · exact hn
  · exact h p hp

theorem skipNamed_free : ∀ {vs : List PNode} {m : List (Str × PNode)}, Free vs → FreeMap m →
    FreeMap (skipNamed m vs).1 ∧ Free (skipNamed m vs).2
  | [], m, _, hm => ⟨hm, free_nil⟩
  | v :: vs, m, hv, hm => by
    cases v with
    | attr k n s w => exact skipNamed_free (vs := vs) hv.tail (amInsert_freeMap hv.head hm)
    | _ => exact ⟨hm, hv⟩

theorem takeRest_free : ∀ {vs : List PNode} {m : List (Str × PNode)}, Free vs → FreeMap m →
    FreeMap (takeRest m vs).1 ∧ Free (takeRest m vs).2
  | [], m, _, hm => ⟨hm, free_nil⟩
  | v :: vs, m, hv, hm => by
    cases v with
    | attr k n s w => exact takeRest_free (vs := vs) hv.tail (amInsert_freeMap hv.head hm)
    | _ =>
      obtain ⟨h1, h2⟩ := takeRest_free hv.tail hm
      exact ⟨h1, free_cons hv.head h2⟩

theorem bindNamed_out (hs : Steady J) : ∀ {lhs rhs : List (Str × PNode)}, FreeMap lhs → FreeMap rhs →
    OutC d J FreeMap (bindNamed rhs lhs)
  | [], rhs, _, hr => OutC.pure hr
  | (k, v) :: lhs, rhs, hl, hr => by
    unfold bindNamed
    refine OutC.bind (P := fun _ => True) (OutC.data hs ?_ trivial) fun _ _ => ?_
    · refine free_one ?_
      have hd : MacroFree v := hl (k, v) (by simp)
      rcases hg : amGet k rhs with _ | n
      · exact hd
      · cases n with
        | attr k' n s w => exact free_value (hr _ (amGet_mem hg))
        | _ => exact hd
    · exact bindNamed_out hs (fun p hp => hl p (by simp [hp])) (fun p hp => hr p (amRemove_sub hp))

/-- The accumulator of the binding loop is without macros. -/
def FreeAcc (acc : BindAcc) : Prop := FreeMap acc.lhs ∧ FreeMap acc.rhs

theorem bindEnd_out (hs : Steady J) {acc : BindAcc} {vs : List PNode} (ha : FreeAcc acc) (hv : Free vs) :
    OutC d J (fun _ => True) (bindEnd acc vs) := by
  obtain ⟨h1, h2⟩ := takeRest_free hv ha.2
  unfold bindEnd
  rcases hr : takeRest acc.rhs vs with ⟨rhs, rest⟩
  rw [hr] at h1 h2
  dsimp only
  have hnext : OutC d J (fun _ => True) (do
      let rhs ← bindNamed rhs acc.lhs
      match acc.kwRest with
      | some name => do
        let entries ← M.iterate rhs
        M.define (name.drop 2) (Macro.var (entries.map (·.2)))
      | none =>
        if rhs.isEmpty then pure ()
        else do
          let entry ← M.firstEntry rhs
          match entry with
          | some (_, n) => M.fail "Unknown excess keywords provided." n.site
          | none => M.panic) := by
    refine OutC.bind (bindNamed_out hs ha.1 h1) fun m hm => ?_
    cases acc.kwRest with
    | some name => exact fun s hj => ⟨trivial, hs.rest s _ m hj hm⟩
    | none =>
      dsimp only
      split
      · exact OutC.pure trivial
      · refine OutC.bind (P := fun _ => True) (fun s hj => ⟨trivial, hj⟩) fun o _ => ?_
        cases o with
        | none => exact OutC.panic
        | some e => exact OutC.fail
  split
  · exact OutC.bind (P := fun _ => True) (OutC.data hs h2 trivial) fun _ _ => hnext
  · exact OutC.bind (P := fun _ => True) OutC.fail fun _ _ => hnext
  · exact hnext

mutual
theorem bind_out (hs : Steady J) : ∀ {p v : PNode}, MacroFree p → MacroFree v → OutC d J (fun _ => True) (bind p v)
  | .attr k0 n0 s0 w0, v, hp, hv => by
    unfold bind
    cases v with
    | attr k1 n1 s1 w1 =>
      dsimp only
      split
      · exact bind_out hs (free_value hp) (free_value hv)
      · exact OutC.fail
    | _ => exact OutC.fail
  | .list ns0 s0 e0 w0, v, hp, hv => by
    unfold bind
    cases v with
    | list ns1 s e w => exact bindLoop_out hs ⟨fun _ h => absurd h (by simp [BindAcc.init]), fun _ h => absurd h (by simp [BindAcc.init])⟩ (free_kids hp) (free_kids hv)
    | _ => exact OutC.fail
  | .symbol a, v, hp, hv => by unfold bind; exact OutC.data hs (free_one hv) trivial
  | .number a, v, hp, hv => by
    unfold bind
    cases v with
    | number b =>
      dsimp only
      split
      · exact OutC.pure trivial
      · exact OutC.fail
    | _ => exact OutC.fail
  | .string a, v, hp, hv => by
    unfold bind
    cases v with
    | string b | raw b =>
      dsimp only
      split
      · exact OutC.pure trivial
      · exact OutC.fail
    | _ => exact OutC.fail
  | .raw a, v, hp, hv => by
    unfold bind
    cases v with
    | string b | raw b =>
      dsimp only
      split
      · exact OutC.pure trivial
      · exact OutC.fail
    | _ => exact OutC.fail
theorem bindLoop_out (hs : Steady J) : ∀ {ps vs : List PNode} {assigned : PNode} {acc : BindAcc}, FreeAcc acc → Free ps →
    Free vs → OutC d J (fun _ => True) (bindLoop assigned acc ps vs)
  | [], vs, assigned, acc, ha, hp, hv => by unfold bindLoop; exact bindEnd_out hs ha hv
  | p :: ps, vs, assigned, acc, ha, hp, hv => by
    have h1 : ∀ acc' vs', FreeAcc acc' → Free vs' → OutC d J (fun _ => True) (bindLoop assigned acc' ps vs') :=
      fun acc' vs' h h' => bindLoop_out hs h hp.tail h'
    have h2 : ∀ v, MacroFree v → OutC d J (fun _ => True) (bind p v) := fun v hv => bind_out hs hp.head hv
    have hm := skipNamed_free hv ha.2
    have hlast : OutC d J (fun _ => True) (match skipNamed acc.rhs vs with
      | (_, []) => M.fail "Too few values given." assigned.site
      | (rhs, v :: values) => do
        bind p v
        bindLoop assigned { acc with rhs := rhs, expected := acc.expected + 1 } ps values) := by
      rcases hr : skipNamed acc.rhs vs with ⟨rhs, _ | ⟨v, values⟩⟩ <;> rw [hr] at hm <;> dsimp only
      · exact OutC.fail
      · exact OutC.bind (h2 v hm.2.head) fun _ _ => h1 _ _ ⟨ha.1, hm.1⟩ hm.2.tail
    cases p with
    | attr k v s w =>
      simp only [bindLoop]
      exact h1 _ _ ⟨amInsert_freeMap (free_value hp.head) ha.1, ha.2⟩ hv
    | symbol a =>
      simp only [bindLoop]
      split
      · split
        · exact h1 _ _ ⟨ha.1, ha.2⟩ hv
        · exact OutC.fail
      · split
        · split
          · exact h1 _ _ ⟨ha.1, ha.2⟩ hv
          · exact OutC.fail
        · exact hlast
    | _ =>
      simp only [bindLoop]
      split
      · split
        · exact h1 _ _ ⟨ha.1, ha.2⟩ hv
        · exact OutC.fail
      · split
        · split
          · exact h1 _ _ ⟨ha.1, ha.2⟩ hv
          · exact OutC.fail
        · exact hlast
end

theorem bindList_out (hs : Steady J) {assigned : PNode} {ps vs : List PNode} (hp : Free ps) (hv : Free vs) :
    OutC d J (fun _ => True) (bindList assigned ps vs) :=
  bindLoop_out hs ⟨fun _ h => absurd h (by simp [BindAcc.init]), fun _ h => absurd h (by simp [BindAcc.init])⟩ hp hv

end

end Seam
