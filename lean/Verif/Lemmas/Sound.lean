import Verif.Lemmas.Keeps
import Verif.Lemmas.Builtins
import Verif.Lemmas.Data
import Verif.Spec.Tree
import Verif.Spec.Marks

/-!
# A program logic for the expander

`Snd S strict Q m`: run in a state whose macros and log lines only have sites and marks in `S`,
the computation `m` keeps this invariant, its result satisfies `Q`, the site of
its error is in `S`, and it panics only if `strict` is false; all this if the number
of buffers in use afterwards is within the bound of `S`.
-/

namespace Seam
open Spec

/-- A set of sites, a bound on the number of source buffers in use, a set of marks, and the
macros of the program that may be called. -/
structure Region where
  has : Site → Prop
  lim : Nat → Prop
  down : ∀ {i j : Nat}, i ≤ j → lim j → lim i
  mark : Mark → Prop
  uses : Builtin → Prop

instance : CoeFun Region fun _ => Site → Prop := ⟨Region.has⟩
/-- A set of sites, with no bound on the buffers and all marks and macros. -/
instance : Coe (Site → Prop) Region := ⟨fun S => ⟨S, fun _ => True, fun _ _ => trivial, fun _ => True, fun _ => True⟩⟩

/-- All sites and all marks of a node are in `S`. -/
def Good (S : Region) (n : PNode) : Prop := (∀ x ∈ sites n, S x) ∧ ∀ m ∈ marksOf n, S.mark m
/-- The same for several nodes. -/
def Goods (S : Region) (ns : List PNode) : Prop := ∀ n ∈ ns, Good S n

/-- What every computation of the expander keeps true of the state. -/
structure Inv (S : Region) (s : St) : Prop where
  scope : ∀ name m, s.scope name = some m → Goods S m.params ∧ Goods S m.body
  log : ∀ l ∈ s.log, S l.site
  fair : Fair s.order

/-- The outcome is as wanted. -/
def ROk (S : Region) (strict : Prop) {α : Type} (Q : α → Prop) : Res α → Prop
  | .ok a => Q a
  | .err e => S e.site
  | .panic => ¬ strict
  | .diverge => True

/-- The computation is as wanted. -/
def Snd (S : Region) (strict : Prop) {α : Type} (Q : α → Prop) (m : M α) : Prop :=
  ∀ s, S.lim (m s).2.fresh → Inv S s → Inv S (m s).2 ∧ ROk S strict Q (m s).1

section
variable {S : Region} {strict : Prop}

theorem sitess_mem {x : Site} : ∀ {ns : List PNode}, x ∈ sitess ns ↔ ∃ n ∈ ns, x ∈ sites n
  | [] => by simp [sitess]
  | n :: ns => by simp [sitess, sitess_mem (ns := ns)]

theorem marksOfAll_mem {x : Mark} : ∀ {ns : List PNode}, x ∈ marksOfAll ns ↔ ∃ n ∈ ns, x ∈ marksOf n
  | [] => by simp [marksOfAll]
  | n :: ns => by simp [marksOfAll, marksOfAll_mem (ns := ns)]

theorem site_mem (n : PNode) : n.site ∈ sites n := by cases n <;> simp [sites, PNode.site]

theorem sites_setLw (w : Str) (n : PNode) : sites (n.setLw w) = sites n := by cases n <;> simp [sites, PNode.setLw]

theorem marksOf_setLw (w : Str) (n : PNode) : marksOf (n.setLw w) = marksOf n := by cases n <;> simp [marksOf, PNode.setLw]

theorem goods_iff {ns : List PNode} : Goods S ns ↔ (∀ x ∈ sitess ns, S x) ∧ ∀ m ∈ marksOfAll ns, S.mark m :=
  ⟨fun h => ⟨fun x hx => by obtain ⟨n, hn, hx⟩ := sitess_mem.1 hx; exact (h n hn).1 x hx,
      fun m hm => by obtain ⟨n, hn, hm⟩ := marksOfAll_mem.1 hm; exact (h n hn).2 m hm⟩,
    fun h n hn => ⟨fun x hx => h.1 x (sitess_mem.2 ⟨n, hn, hx⟩), fun m hm => h.2 m (marksOfAll_mem.2 ⟨n, hn, hm⟩)⟩⟩

theorem Good.site {n : PNode} (h : Good S n) : S n.site := h.1 _ (site_mem n)
theorem Good.setLw {n : PNode} (h : Good S n) (w : Str) : Good S (n.setLw w) := by
  unfold Good; rw [sites_setLw, marksOf_setLw]; exact h
theorem Good.name {a : Node} (h : Good S (.symbol a)) : S.mark (.name a.value) := h.2 _ (by simp [marksOf])
theorem Good.key {k : Str} {n : PNode} {s : Site} {w : Str} (h : Good S (.attr k n s w)) : S.mark (.key k) :=
  h.2 _ (by simp [marksOf])
theorem Good.atomic {n : PNode} {a : Node} (h : Good S n) (ha : n.atomic? = some a) : S a.site := by
  have : a.site = n.site := by cases n <;> simp [PNode.atomic?] at ha <;> subst ha <;> rfl
  rw [this]; exact h.site
theorem Good.kids {ns : List PNode} {s : Site} {e : Token} {w : Str} (h : Good S (.list ns s e w)) : Goods S ns :=
  goods_iff.2 ⟨fun x hx => h.1 x (by simp only [sites, List.mem_cons, List.mem_append]; exact Or.inr (Or.inl hx)),
    fun m hm => h.2 m (by simpa only [marksOf] using hm)⟩
theorem Good.close {ns : List PNode} {s : Site} {e : Token} {w : Str} (h : Good S (.list ns s e w)) : S e.site :=
  h.1 _ (by simp [sites])
theorem Good.value {k : Str} {n : PNode} {s : Site} {w : Str} (h : Good S (.attr k n s w)) : Good S n :=
  ⟨fun x hx => h.1 x (by simp [sites, hx]), fun m hm => h.2 m (by simp [marksOf, hm])⟩

theorem good_symbol {a : Node} (h : S a.site) (hm : S.mark (.name a.value)) : Good S (.symbol a) := by
  simpa [Good, sites, marksOf] using ⟨h, hm⟩
theorem good_number {a : Node} (h : S a.site) : Good S (.number a) := by simpa [Good, sites, marksOf] using h
theorem good_string {a : Node} (h : S a.site) : Good S (.string a) := by simpa [Good, sites, marksOf] using h
theorem good_raw {a : Node} (h : S a.site) (hm : S.mark (.raw a.value)) : Good S (.raw a) := by
  simpa [Good, sites, marksOf] using ⟨h, hm⟩
theorem good_list {ns : List PNode} {s : Site} {e : Token} {w : Str} (h1 : Goods S ns) (h2 : S s) (h3 : S e.site) :
    Good S (.list ns s e w) := by
  refine ⟨fun x hx => ?_, fun m hm => (goods_iff.1 h1).2 m (by simpa only [marksOf] using hm)⟩
  simp only [sites, List.mem_cons, List.mem_append, List.not_mem_nil, or_false] at hx
  rcases hx with rfl | hx | rfl
  · exact h2
  · exact (goods_iff.1 h1).1 x hx
  · exact h3
theorem good_attr {k : Str} {n : PNode} {s : Site} {w : Str} (h1 : Good S n) (h2 : S s) (hk : S.mark (.key k)) :
    Good S (.attr k n s w) := by
  refine ⟨fun x hx => ?_, fun m hm => ?_⟩
  · simp only [sites, List.mem_cons] at hx
    rcases hx with rfl | hx
    · exact h2
    · exact h1.1 x hx
  · simp only [marksOf, List.mem_cons] at hm
    rcases hm with rfl | hm
    · exact hk
    · exact h1.2 m hm

theorem goods_nil : Goods S [] := fun _ h => absurd h (by simp)
theorem goods_cons {n : PNode} {ns : List PNode} (h1 : Good S n) (h2 : Goods S ns) : Goods S (n :: ns) := by
  intro m hm
  rcases List.mem_cons.1 hm with rfl | hm
  · exact h1
  · exact h2 m hm
theorem goods_one {n : PNode} (h : Good S n) : Goods S [n] := goods_cons h goods_nil
theorem Goods.head {n : PNode} {ns : List PNode} (h : Goods S (n :: ns)) : Good S n := h n (by simp)
theorem Goods.tail {n : PNode} {ns : List PNode} (h : Goods S (n :: ns)) : Goods S ns := fun m hm => h m (by simp [hm])
theorem Goods.append {as bs : List PNode} (h1 : Goods S as) (h2 : Goods S bs) : Goods S (as ++ bs) := by
  intro m hm
  rcases List.mem_append.1 hm with hm | hm
  · exact h1 m hm
  · exact h2 m hm
theorem Goods.sub {as bs : List PNode} (h : Goods S bs) (hs : ∀ n ∈ as, n ∈ bs) : Goods S as := fun n hn => h n (hs n hn)
theorem Goods.firstLw {ns : List PNode} (h : Goods S ns) (w : Str) : Goods S (withFirstLw w ns) := by
  cases ns with
  | nil => exact goods_nil
  | cons n ns => exact goods_cons (h.head.setLw w) h.tail
theorem Goods.trimFirst {ns : List PNode} (h : Goods S ns) : Goods S (trimFirstParam ns) := by
  cases ns with
  | nil => exact goods_nil
  | cons n ns => exact goods_cons (h.head.setLw _) h.tail

/-! ## Rules -/

theorem ROk.mono {α : Type} {Q R : α → Prop} {r : Res α} (h : ROk S strict Q r) (hi : ∀ a, Q a → R a) : ROk S strict R r := by
  cases r with
  | ok a => exact hi a h
  | _ => exact h

theorem ROk.bind {α β : Type} {Q : α → Prop} {R : β → Prop} {r : Res α} {f : α → Res β} (h : ROk S strict Q r)
    (hf : ∀ a, Q a → ROk S strict R (f a)) : ROk S strict R (r >>= f) := by
  cases r with
  | ok a => exact hf a h
  | _ => exact h

/-- The number of source buffers in use does not shrink. -/
def Grows (α : Type) (m : M α) : Prop := Keeps (fun s t => s.fresh ≤ t.fresh) m

theorem grow_rel : StepRel fun s t => s.fresh ≤ t.fresh where
  refl _ := Nat.le_refl _
  trans := Nat.le_trans
  define _ _ _ := Nat.le_refl _
  back h := h
  exported _ h := h
  tick _ := Nat.le_succ _
  iterate _ := Nat.le_refl _
  emit _ _ := Nat.le_refl _

theorem grow : Closed Grows := grow_rel.closed

theorem bindNamed_grows (lhs rhs : List (Str × PNode)) : Grows _ (bindNamed rhs lhs) := bindNamed_keeps grow_rel lhs rhs
theorem iterate_grows (m : List (Str × PNode)) : Grows _ (M.iterate m) := fun _ => Nat.le_refl _
theorem firstEntry_grows (m : List (Str × PNode)) : Grows _ (M.firstEntry m) := fun _ => Nat.le_refl _

/-- The recursive calls are as wanted. -/
structure RecSnd (S : Region) (strict : Prop) (rec : Rec) : Prop where
  grows : ClosedRec Grows rec
  node : ∀ n, Good S n → Snd S strict (Goods S) (rec (.node n))
  invoke : ∀ name call ps, call.list?.isSome = true → (∀ b, builtin? name = some b → S.uses b) → Good S call →
    Goods S ps → Snd S strict (Goods S) (rec (.invoke name call ps))

theorem RecSnd.grow {rec : Rec} (h : RecSnd S strict rec) (c : Call) : Grows _ (rec c) := h.grows c
theorem bindList_grows (call : PNode) (ps vs : List PNode) : Grows _ (bindList call ps vs) := bindLoop_closed grow ps call _ vs
theorem timezone_grows (ext : Ext) (tz : Option Node) : Grows _ (timezone ext tz) := by
  unfold timezone
  closed_walk grow []

/-- Show that a computation does not shrink the number of buffers. -/
macro "grows" : tactic => `(tactic| (intros; repeat' (first
    | with_reducible exact Closed.pure grow _
    | with_reducible exact Closed.lift grow _
    | with_reducible exact Closed.fail grow _ _
    | with_reducible exact Closed.panic grow
    | with_reducible exact Closed.lookup grow _
    | with_reducible exact Closed.define grow _ _
    | with_reducible exact Closed.tick grow
    | with_reducible exact Closed.emit grow _
    | with_reducible exact Closed.arguments grow _ _ _ _
    | with_reducible exact bind_closed grow _ _
    | with_reducible exact bindLoop_closed grow _ _ _ _
    | with_reducible exact iterate_grows _
    | with_reducible exact firstEntry_grows _
    | with_reducible exact bindNamed_grows _ _
    | with_reducible exact Closed.bindEnd grow _ _
    | with_reducible exact yScalar_closed grow _ _ _ _
    | with_reducible exact yEnd_closed grow _ _ _
    | with_reducible exact yEvents_closed grow _ _ _ _
    | with_reducible exact expandYaml_closed grow _ _ _ _
    | with_reducible exact tomlValue_closed grow _ _ _ _ _
    | with_reducible exact tomlArray_closed grow _ _ _ _ _ _
    | with_reducible exact tomlTable_closed grow _ _ _ _ _
    | with_reducible exact expandToml_closed grow _ _ _ _
    | with_reducible exact frontmatter_closed grow _ _ _ _ _
    | with_reducible exact createMacro_closed grow _ _ _
    | with_reducible exact expandNodes_closed grow (RecSnd.grows ‹RecSnd _ _ _›) _
    | with_reducible exact matchLoop_closed grow (RecSnd.grows ‹RecSnd _ _ _›) _ _
    | with_reducible exact forLoop_closed grow (RecSnd.grows ‹RecSnd _ _ _›) _ _ _
    | with_reducible exact mapLoop_closed grow (RecSnd.grows ‹RecSnd _ _ _›) _ _ _
    | with_reducible exact filterLoop_closed grow (RecSnd.grows ‹RecSnd _ _ _›) _ _ _
    | with_reducible exact sortKeys_closed grow (RecSnd.grows ‹RecSnd _ _ _›) _ _ _ _
    | with_reducible exact RecSnd.grow ‹RecSnd _ _ _› _
    | with_reducible exact timezone_grows _ _
    | with_reducible exact bindList_grows _ _ _
    | (with_reducible refine Closed.matchStep grow ?_ ?_ ?_)
    | (with_reducible refine Closed.rethrow grow _ _ ?_)
    | (with_reducible refine Closed.ignoreErr grow ?_)
    | (with_reducible refine Closed.inner grow ?_)
    | (with_reducible refine Closed.bind grow ?_ (fun _ => ?_))
    | dsimp only
    | split)))

theorem Snd.pure {α : Type} {Q : α → Prop} {a : α} (h : Q a) : Snd S strict Q (pure a : M α) := fun _ _ hi => ⟨hi, h⟩
theorem Snd.lift {α : Type} {Q : α → Prop} {r : Res α} (h : ROk S strict Q r) : Snd S strict Q (M.lift r) :=
  fun _ _ hi => ⟨hi, h⟩
theorem Snd.fail {α : Type} {Q : α → Prop} {msg : String} {site : Site} (h : S site) :
    Snd S strict Q (M.fail msg site : M α) := fun _ _ hi => ⟨hi, h⟩
theorem Snd.panic {α : Type} {Q : α → Prop} (h : ¬ strict) : Snd S strict Q (M.panic : M α) := fun _ _ hi => ⟨hi, h⟩
theorem Snd.lookup (name : Str) : Snd S strict (fun o => ∀ m, o = some m → Goods S m.params ∧ Goods S m.body) (M.lookup name) :=
  fun _ _ hi => ⟨hi, fun m hm => hi.scope name m hm⟩
theorem Snd.define {Q : Unit → Prop} (name : Str) (m : Macro) (h1 : Goods S m.params) (h2 : Goods S m.body) (hq : Q ()) :
    Snd S strict Q (M.define name m) := by
  intro s _ hi
  refine ⟨⟨?_, hi.log, hi.fair⟩, hq⟩
  intro name' m' h
  simp only [M.define, Scope.insert] at h
  split at h
  · simp only [Option.some.injEq] at h
    subst h
    exact ⟨h1, h2⟩
  · exact hi.scope _ _ h
theorem Snd.tick : Snd S strict (fun id => S.lim (id + 1)) M.tick :=
  fun _ hl hi => ⟨⟨hi.scope, hi.log, hi.fair⟩, hl⟩
theorem Snd.emit {Q : Unit → Prop} (l : LogLine) (h : S l.site) (hq : Q ()) : Snd S strict Q (M.emit l) := by
  intro s _ hi
  refine ⟨⟨hi.scope, ?_, hi.fair⟩, hq⟩
  intro l' hl
  simp only [M.emit, List.mem_append, List.mem_singleton] at hl
  rcases hl with hl | rfl
  · exact hi.log _ hl
  · exact h
theorem Snd.bind {α β : Type} {Q : α → Prop} {R : β → Prop} {m : M α} {f : α → M β} (h : Snd S strict Q m)
    (hf : ∀ a, Q a → Snd S strict R (f a)) (hg : ∀ a, Grows _ (f a) := by grows) : Snd S strict R (m >>= f) := by
  intro s
  have := h s
  rw [M.bind_def]
  rcases hm : m s with ⟨r, t⟩
  rw [hm] at this
  cases r with
  | ok a =>
    intro hl hi
    have h1 := this (S.down (hg a t) hl) hi
    exact hf a h1.2 t hl h1.1
  | _ => exact this
theorem Snd.mono {α : Type} {Q R : α → Prop} {m : M α} (h : Snd S strict Q m) (hi : ∀ a, Q a → R a) : Snd S strict R m :=
  fun s hl hs => ⟨(h s hl hs).1, (h s hl hs).2.mono hi⟩

theorem inv_rescope {s t : St} (hs : Inv S s) (ht : Inv S t) : Inv S { t with scope := s.scope } := ⟨hs.scope, ht.log, ht.fair⟩

theorem Snd.inner {α : Type} {Q : α → Prop} {m : M α} (h : Snd S strict Q m) : Snd S strict Q (M.inner m) := by
  intro s hl hi
  exact ⟨inv_rescope hi (h s hl hi).1, (h s hl hi).2⟩
theorem Snd.rethrow {α : Type} {Q : α → Prop} {m : M α} (msg : String) {site : Site} (hs : S site) (h : Snd S strict Q m) :
    Snd S strict Q (rethrow msg site m) := by
  intro s
  have := h s
  unfold Seam.rethrow
  rcases hm : m s with ⟨r, t⟩
  rw [hm] at this
  cases r with
  | err e => exact fun hl hi => ⟨(this hl hi).1, hs⟩
  | _ => exact this
theorem Snd.ignoreErr {Q : Unit → Prop} {m : M Unit} (h : Snd S strict Q m) (hq : Q ()) : Snd S strict Q (ignoreErr m) := by
  intro s
  have := h s
  unfold Seam.ignoreErr
  rcases hm : m s with ⟨r, t⟩
  rw [hm] at this
  cases r with
  | err e => exact fun hl hi => ⟨(this hl hi).1, hq⟩
  | _ => exact this
theorem Snd.matchStep {α : Type} {Q : α → Prop} {b : M Unit} {body rest : M α} (hb : Snd S strict (fun _ => True) b)
    (h1 : Snd S strict Q body) (h2 : Snd S strict Q rest) (g1 : Grows _ body := by grows) (g2 : Grows _ rest := by grows) :
    Snd S strict Q (matchStep b body rest) := by
  intro s
  have := hb s
  unfold Seam.matchStep
  rcases hm : b s with ⟨r, t⟩
  rw [hm] at this
  cases r with
  | ok a =>
    intro hl hi
    have h := h1 t hl (this (S.down (g1 t) hl) hi).1
    exact ⟨inv_rescope hi h.1, h.2⟩
  | err e => exact fun hl hi => h2 _ hl (inv_rescope hi (this (S.down (g2 { t with scope := s.scope }) hl) hi).1)
  | panic => exact fun hl hi => ⟨inv_rescope hi (this hl hi).1, (this hl hi).2⟩
  | diverge => exact fun hl hi => ⟨inv_rescope hi (this hl hi).1, (this hl hi).2⟩
theorem Snd.exporting {m : M (List PNode)} {f : List PNode → Res (Str × List PNode)} (h : Snd S strict (Goods S) m)
    (hf : ∀ args, Goods S args → ROk S strict (fun p => Goods S p.2) (f args)) :
    Snd S strict (Goods S) (exporting m f) := by
  intro s hl hi
  have := h s
  unfold Seam.exporting at hl ⊢
  rcases hm : m s with ⟨r, t⟩
  rw [hm] at this hl
  have hl : S.lim t.fresh := by
    cases r with
    | ok args => dsimp only at hl; split at hl <;> exact hl
    | _ => exact hl
  have := this hl hi
  cases r with
  | ok args =>
    have h2 := hf args this.2
    dsimp only
    rcases hr : f args with ⟨pre, rest⟩ | e | _ | _ <;> rw [hr] at h2
    · refine ⟨⟨?_, this.1.log, this.1.fair⟩, h2⟩
      intro name m hm
      simp only [exportScope] at hm
      split at hm
      · split at hm
        · rename_i m' hm'
          simp only [Option.some.injEq] at hm
          subst hm
          exact this.1.scope _ _ hm'
        · exact hi.scope _ _ hm
      · exact hi.scope _ _ hm
    · exact ⟨inv_rescope hi this.1, h2⟩
    · exact ⟨inv_rescope hi this.1, h2⟩
    · exact ⟨inv_rescope hi this.1, h2⟩
  | err e => exact ⟨inv_rescope hi this.1, this.2⟩
  | panic => exact ⟨inv_rescope hi this.1, this.2⟩
  | diverge => exact ⟨inv_rescope hi this.1, this.2⟩

/-! ## Binding -/

/-- All nodes of a map are good. -/
def GoodMap (S : Region) (m : List (Str × PNode)) : Prop := ∀ p ∈ m, Good S p.2

theorem amInsert_goodMap {k : Str} {n : PNode} (hn : Good S n) : ∀ {m : List (Str × PNode)}, GoodMap S m → GoodMap S (amInsert k n m)
  | [], _ => by
    intro p hp
    simp only [amInsert, List.mem_singleton] at hp
    subst hp
    exact hn
  | (k', n') :: m, h => by
    intro p hp
    simp only [amInsert] at hp
    split at hp
    · rcases List.mem_cons.1 hp with rfl | hp
      · exact hn
      · exact h p (by simp [hp])
    · rcases List.mem_cons.1 hp with rfl | hp
      · exact h _ (by simp)
      · exact amInsert_goodMap hn (fun p hp => h p (by simp [hp])) p hp

theorem amRemove_sub {α β : Type} [BEq α] {k : α} {p : α × β} : ∀ {m : List (α × β)}, p ∈ amRemove k m → p ∈ m
  | [], h => by simp [amRemove] at h
  | (k', v') :: m, h => by
    simp only [amRemove] at h
    split at h
    · exact List.mem_cons_of_mem _ h
    · rcases List.mem_cons.1 h with rfl | h
      · simp
      · exact List.mem_cons_of_mem _ (amRemove_sub h)

theorem skipNamed_good : ∀ {vs : List PNode} {m : List (Str × PNode)}, Goods S vs → GoodMap S m →
    GoodMap S (skipNamed m vs).1 ∧ Goods S (skipNamed m vs).2
  | [], m, _, hm => ⟨hm, goods_nil⟩
  | v :: vs, m, hv, hm => by
    cases v with
    | attr k n s w => exact skipNamed_good (vs := vs) hv.tail (amInsert_goodMap hv.head hm)
    | _ => exact ⟨hm, hv⟩

theorem takeRest_good : ∀ {vs : List PNode} {m : List (Str × PNode)}, Goods S vs → GoodMap S m →
    GoodMap S (takeRest m vs).1 ∧ Goods S (takeRest m vs).2
  | [], m, _, hm => ⟨hm, goods_nil⟩
  | v :: vs, m, hv, hm => by
    cases v with
    | attr k n s w => exact takeRest_good (vs := vs) hv.tail (amInsert_goodMap hv.head hm)
    | _ =>
      obtain ⟨h1, h2⟩ := takeRest_good hv.tail hm
      exact ⟨h1, goods_cons hv.head h2⟩

theorem bindNamed_snd : ∀ {lhs rhs : List (Str × PNode)}, GoodMap S lhs → GoodMap S rhs →
    Snd S strict (GoodMap S) (bindNamed rhs lhs)
  | [], rhs, _, hr => Snd.pure hr
  | (k, d) :: lhs, rhs, hl, hr => by
    unfold bindNamed
    refine Snd.bind (Q := fun _ => True) (Snd.define _ _ goods_nil ?_ trivial) fun _ _ => ?_
    · refine goods_one ?_
      have hd : Good S d := hl (k, d) (by simp)
      rcases hg : amGet k rhs with _ | n
      · exact hd
      · cases n with
        | attr k' n s w => exact (hr _ (amGet_mem hg)).value
        | _ => exact hd
    · exact bindNamed_snd (fun p hp => hl p (by simp [hp])) (fun p hp => hr p (amRemove_sub hp))

/-- The accumulator of the binding loop only has good nodes. -/
def GoodAcc (S : Region) (acc : BindAcc) : Prop := GoodMap S acc.lhs ∧ GoodMap S acc.rhs

theorem iterate_snd {m : List (Str × PNode)} (h : GoodMap S m) : Snd S strict (GoodMap S) (M.iterate m) := by
  intro s _ hi
  refine ⟨⟨hi.scope, hi.log, hi.fair⟩, ?_⟩
  intro p hp
  exact h p ((hi.fair s.hashes m).subset hp)

theorem firstEntry_snd {m : List (Str × PNode)} (h : GoodMap S m) (hm : m ≠ []) :
    Snd S strict (fun o => ∃ k n, o = some (k, n) ∧ Good S n) (M.firstEntry m) := by
  intro s _ hi
  refine ⟨hi, ?_⟩
  have hp := hi.fair s.hashes m
  show ∃ k n, (s.order s.hashes m).head? = some (k, n) ∧ Good S n
  rcases ho : s.order s.hashes m with _ | ⟨⟨k, n⟩, rest⟩
  · rw [ho] at hp
    exact absurd hp.symm.eq_nil hm
  · exact ⟨k, n, rfl, h (k, n) (hp.subset (by simp [ho]))⟩

theorem bindEnd_snd {acc : BindAcc} {vs : List PNode} (ha : GoodAcc S acc) (hv : Goods S vs) :
    Snd S strict (fun _ => True) (bindEnd acc vs) := by
  obtain ⟨h1, h2⟩ := takeRest_good hv ha.2
  unfold bindEnd
  rcases hr : takeRest acc.rhs vs with ⟨rhs, rest⟩
  rw [hr] at h1 h2
  dsimp only
  have hnext : Snd S strict (fun _ => True) (do
      let rhs ← bindNamed rhs acc.lhs
      match acc.kwRest with
      | some name => do
        let entries ← M.iterate rhs
        M.define (name.drop 2) (Macro.var (entries.map (·.2)))
      | none =>
        if rhs.isEmpty then pure ()
        else do
          let entry ← M.firstEntry rhs
          match entry with
          | some (_, n) => M.fail "Unknown excess keywords provided." n.site
          | none => M.panic) := by
    refine Snd.bind (bindNamed_snd ha.1 h1) fun m hm => ?_
    cases acc.kwRest with
    | some name =>
      refine Snd.bind (iterate_snd hm) fun es hes => Snd.define _ _ goods_nil ?_ trivial
      intro n hn
      obtain ⟨p, hp, rfl⟩ := List.mem_map.1 hn
      exact hes p hp
    | none =>
      dsimp only
      cases m with
      | nil => exact Snd.pure trivial
      | cons e es =>
        refine Snd.bind (firstEntry_snd hm (by simp)) fun o ho => ?_
        obtain ⟨k, n, rfl, hn⟩ := ho
        exact Snd.fail hn.site
  split
  · exact Snd.bind (Q := fun _ => True) (Snd.define _ _ goods_nil h2 trivial) fun _ _ => hnext
  · rename_i hl
    exact Snd.bind (Q := fun _ => True) (Snd.fail (h2 _ (List.mem_of_getLast? hl)).site) fun _ _ => hnext
  · exact hnext

mutual
theorem bind_snd : ∀ {p v : PNode}, Good S p → Good S v → Snd S strict (fun _ => True) (bind p v)
  | .attr k0 n0 s0 w0, v, hp, hv => by
    unfold bind
    cases v with
    | attr k1 n1 s1 w1 =>
      dsimp only
      split
      · exact bind_snd hp.value hv.value
      · exact Snd.fail hv.site
    | _ => exact Snd.fail hv.site
  | .list ns0 s0 e0 w0, v, hp, hv => by
    unfold bind
    cases v with
    | list ns1 s e w => exact bindLoop_snd hv.site ⟨fun _ h => absurd h (by simp [BindAcc.init]), fun _ h => absurd h (by simp [BindAcc.init])⟩ hp.kids hv.kids
    | _ => exact Snd.fail hv.site
  | .symbol a, v, hp, hv => by unfold bind; exact Snd.define _ _ goods_nil (goods_one hv) trivial
  | .number a, v, hp, hv => by
    unfold bind
    cases v with
    | number b =>
      dsimp only
      split
      · exact Snd.pure trivial
      · exact Snd.fail hv.site
    | _ => exact Snd.fail hv.site
  | .string a, v, hp, hv => by
    unfold bind
    cases v with
    | string b | raw b =>
      dsimp only
      split
      · exact Snd.pure trivial
      · exact Snd.fail hv.site
    | _ => exact Snd.fail hv.site
  | .raw a, v, hp, hv => by
    unfold bind
    cases v with
    | string b | raw b =>
      dsimp only
      split
      · exact Snd.pure trivial
      · exact Snd.fail hv.site
    | _ => exact Snd.fail hv.site
theorem bindLoop_snd : ∀ {ps vs : List PNode} {assigned : PNode} {acc : BindAcc}, S assigned.site → GoodAcc S acc → Goods S ps →
    Goods S vs → Snd S strict (fun _ => True) (bindLoop assigned acc ps vs)
  | [], vs, assigned, acc, hs, ha, hp, hv => by unfold bindLoop; exact bindEnd_snd ha hv
  | p :: ps, vs, assigned, acc, hs, ha, hp, hv => by
    have h1 : ∀ acc' vs', GoodAcc S acc' → Goods S vs' → Snd S strict (fun _ => True) (bindLoop assigned acc' ps vs') :=
      fun acc' vs' h h' => bindLoop_snd hs h hp.tail h'
    have h2 : ∀ v, Good S v → Snd S strict (fun _ => True) (bind p v) := fun v hv => bind_snd hp.head hv
    have hsite := hp.head.site
    have hm := skipNamed_good hv ha.2
    have hlast : Snd S strict (fun _ => True) (match skipNamed acc.rhs vs with
      | (_, []) => M.fail "Too few values given." assigned.site
      | (rhs, v :: values) => do
        bind p v
        bindLoop assigned { acc with rhs := rhs, expected := acc.expected + 1 } ps values) := by
      rcases hr : skipNamed acc.rhs vs with ⟨rhs, _ | ⟨v, values⟩⟩ <;> rw [hr] at hm <;> dsimp only
      · exact Snd.fail hs
      · exact Snd.bind (h2 v hm.2.head) fun _ _ => h1 _ _ ⟨ha.1, hm.1⟩ hm.2.tail
    cases p with
    | attr k d s w =>
      simp only [bindLoop]
      exact h1 _ _ ⟨amInsert_goodMap hp.head.value ha.1, ha.2⟩ hv
    | symbol a =>
      simp only [bindLoop]
      split
      · split
        · exact h1 _ _ ⟨ha.1, ha.2⟩ hv
        · exact Snd.fail hsite
      · split
        · split
          · exact h1 _ _ ⟨ha.1, ha.2⟩ hv
          · exact Snd.fail hsite
        · exact hlast
    | _ =>
      simp only [bindLoop]
      split
      · split
        · exact h1 _ _ ⟨ha.1, ha.2⟩ hv
        · exact Snd.fail hsite
      · split
        · split
          · exact h1 _ _ ⟨ha.1, ha.2⟩ hv
          · exact Snd.fail hsite
        · exact hlast
end

theorem bindList_snd {assigned : PNode} {ps vs : List PNode} (hs : S assigned.site) (hp : Goods S ps) (hv : Goods S vs) :
    Snd S strict (fun _ => True) (bindList assigned ps vs) :=
  bindLoop_snd hs ⟨fun _ h => absurd h (by simp [BindAcc.init]), fun _ h => absurd h (by simp [BindAcc.init])⟩ hp hv

end

end Seam
