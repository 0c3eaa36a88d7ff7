import Verif.Spec.Layout
import Verif.Lemmas.Lists

/-!
# A relational program logic for the expander

`Sim S W R m m'`: run in states that differ only in positions, the computations `m` and
`m'` have the same outcome up to positions, their results related by `R`; nothing is
said if `m` does not finish.
-/

namespace Seam
open Spec
set_option linter.unusedSectionVars false

/-- Relations between blanks that the expander respects. -/
class Blanking (W : Str → Str → Prop) : Prop where
  const : ∀ {w}, Blanks w → W w w
  first : ∀ {w v}, W w v → W (firstLw w) (firstLw v)

section
variable {S : Site → Site → Prop} {W : Str → Str → Prop} [Blanking W]

/-! ## Nodes -/

theorem Spec.LaidAtom.value {a b : Node} (h : LaidAtom S W a b) : a.value = b.value := h.1
theorem Spec.LaidAtom.lw {a b : Node} (h : LaidAtom S W a b) : W a.lw b.lw := h.2.1
theorem Spec.LaidAtom.site {a b : Node} (h : LaidAtom S W a b) : S a.site b.site := h.2.2

theorem Spec.Laid.site {n m : PNode} (h : Laid S W n m) : S n.site m.site := by
  cases h with
  | symbol a b h | number a b h | string a b h | raw a b h => exact h.site
  | list _ _ _ _ _ _ _ _ _ h _ _ => exact h
  | attr _ _ _ _ _ _ _ _ h => exact h
theorem Spec.Laid.lw {n m : PNode} (h : Laid S W n m) : W n.lw m.lw := by
  cases h with
  | symbol a b h | number a b h | string a b h | raw a b h => exact h.lw
  | list _ _ _ _ _ _ _ _ _ _ _ _ h => exact h
  | attr _ _ _ _ _ _ _ _ _ h => exact h
theorem Spec.Laid.setLw {n m : PNode} (h : Laid S W n m) {w v : Str} (hw : W w v) : Laid S W (n.setLw w) (m.setLw v) := by
  cases h with
  | symbol a b h => exact .symbol _ _ ⟨h.value, hw, h.site⟩
  | number a b h => exact .number _ _ ⟨h.value, hw, h.site⟩
  | string a b h => exact .string _ _ ⟨h.value, hw, h.site⟩
  | raw a b h => exact .raw _ _ ⟨h.value, hw, h.site⟩
  | list _ _ _ _ _ _ _ _ h1 h2 h3 h4 hbl => exact .list _ _ _ _ _ _ _ _ h1 h2 h3 h4 hw
  | attr _ _ _ _ _ _ _ h1 h2 hbl => exact .attr _ _ _ _ _ _ _ h1 h2 hw

theorem Blanking.nil : W [] [] := Blanking.const (by intro c hc; simp at hc)
theorem Blanking.space : W [' '] [' '] := Blanking.const (by intro c hc; simp at hc; subst hc; rfl)
theorem Blanking.item (first : Bool) : W (itemLw first) (itemLw first) := by
  cases first
  · exact Blanking.space
  · exact Blanking.nil

/-- Related if both are there, and either both are there or none. -/
inductive OptR {α β : Type} (R : α → β → Prop) : Option α → Option β → Prop
  | none : OptR R none none
  | some {a : α} {b : β} : R a b → OptR R (some a) (some b)

theorem Spec.Laid.atomic {n m : PNode} (h : Laid S W n m) : OptR (LaidAtom S W) n.atomic? m.atomic? := by
  cases h with
  | symbol a b h | number a b h | string a b h | raw a b h => exact .some h
  | list => exact .none
  | attr => exact .none
theorem Spec.Laid.symbol? {n m : PNode} (h : Laid S W n m) : OptR (LaidAtom S W) n.symbol? m.symbol? := by
  cases h with
  | symbol a b h => exact .some h
  | _ => exact .none
theorem Spec.Laid.list? {n m : PNode} (h : Laid S W n m) : OptR (Laids S W) n.list? m.list? := by
  cases h with
  | list _ _ _ _ _ _ _ _ h => exact .some h
  | _ => exact .none
theorem Spec.Laid.null {n m : PNode} (h : Laid S W n m) : n.null = m.null := by
  cases h with
  | list _ _ _ _ _ _ _ _ h => cases h <;> rfl
  | _ => rfl

theorem Spec.Laids.one {n m : PNode} (h : Laid S W n m) : Laids S W [n] [m] := .cons _ _ _ _ h .nil
theorem Spec.Laids.append {as bs : List PNode} : ∀ {as' bs' : List PNode}, Laids S W as as' → Laids S W bs bs' → Laids S W (as ++ bs) (as' ++ bs') := by
  induction as with
  | nil => intro as' bs' h h'; cases h; exact h'
  | cons n ns ih =>
    intro as' bs' h h'
    cases h with
    | cons _ _ _ _ h1 h2 => exact .cons _ _ _ _ h1 (ih h2 h')
theorem Spec.Laids.reverse {as : List PNode} : ∀ {bs : List PNode}, Laids S W as bs → Laids S W as.reverse bs.reverse := by
  induction as with
  | nil => intro bs h; cases h; exact .nil
  | cons n ns ih =>
    intro bs h
    cases h with
    | cons _ _ _ _ h1 h2 => simp only [List.reverse_cons]; exact (ih h2).append (.one h1)
theorem Spec.Laids.firstLw {as bs : List PNode} (h : Laids S W as bs) {w v : Str} (hw : W w v) : Laids S W (withFirstLw w as) (withFirstLw v bs) := by
  cases h with
  | nil => exact .nil
  | cons _ _ _ _ h1 h2 => exact .cons _ _ _ _ (h1.setLw hw) h2
theorem Spec.Laids.trimFirst {as bs : List PNode} (h : Laids S W as bs) : Laids S W (trimFirstParam as) (trimFirstParam bs) := by
  cases h with
  | nil => exact .nil
  | cons _ _ _ _ h1 h2 =>
    simp only [trimFirstParam]
    exact .cons _ _ _ _ (h1.setLw (Blanking.first h1.lw)) h2
theorem Spec.Laids.length {as : List PNode} : ∀ {bs : List PNode}, Laids S W as bs → as.length = bs.length := by
  induction as with
  | nil => intro bs h; cases h; rfl
  | cons n ns ih => intro bs h; cases h with | cons _ _ _ _ h1 h2 => simp [ih h2]
theorem Spec.Laids.isEmpty {as bs : List PNode} (h : Laids S W as bs) : as.isEmpty = bs.isEmpty := by cases h <;> rfl
theorem Spec.Laids.last {as : List PNode} : ∀ {bs : List PNode}, Laids S W as bs → OptR (Laid S W) as.getLast? bs.getLast? := by
  induction as with
  | nil => intro bs h; cases h; exact .none
  | cons n ns ih =>
    intro bs h
    cases h with
    | cons _ _ _ _ h1 h2 =>
      cases h2 with
      | nil => exact .some h1
      | cons a b as bs h3 h4 =>
        have := ih (.cons a b as bs h3 h4)
        simpa [List.getLast?_cons_cons] using this
theorem Spec.Laids.get {as : List PNode} : ∀ {bs : List PNode} (i : Nat), Laids S W as bs → OptR (Laid S W) as[i]? bs[i]? := by
  induction as with
  | nil => intro bs i h; cases h; simp; exact .none
  | cons n ns ih =>
    intro bs i h
    cases h with
    | cons _ _ _ _ h1 h2 =>
      cases i with
      | zero => simpa using OptR.some h1
      | succ i => simpa using ih i h2
theorem Spec.Laids.filter {as : List PNode} {p : PNode → Bool} (hp : ∀ a b, Laid S W a b → p a = p b) :
    ∀ {bs : List PNode}, Laids S W as bs → Laids S W (as.filter p) (bs.filter p) := by
  induction as with
  | nil => intro bs h; cases h; exact .nil
  | cons n ns ih =>
    intro bs h
    cases h with
    | cons _ _ _ _ h1 h2 =>
      rw [List.filter_cons, List.filter_cons, hp _ _ h1]
      split
      · exact .cons _ _ _ _ h1 (ih h2)
      · exact ih h2
theorem Spec.Laids.layout {as : List PNode} : ∀ {bs cs ds : List PNode}, Laids S W as bs → Laids S W cs ds →
    Laids S W (layoutOf as cs) (layoutOf bs ds) := by
  induction as with
  | nil => intro bs cs ds h h'; cases h; unfold layoutOf; simp; exact .nil
  | cons n ns ih =>
    intro bs cs ds h h'
    cases h with
    | cons _ _ _ _ h1 h2 =>
      cases h' with
      | nil => exact .nil
      | cons _ _ _ _ h3 h4 =>
        show Laids S W (_ :: layoutOf _ _) (_ :: layoutOf _ _)
        dsimp only
        exact .cons _ _ _ _ (h3.setLw h1.lw) (ih h2 h4)
theorem Spec.Laid.isRest {n m : PNode} (h : Laid S W n m) : Seam.isRest n = Seam.isRest m := by
  unfold Seam.isRest
  cases h with
  | symbol a b h => simp [PNode.symbol?, h.value]
  | _ => rfl
theorem Spec.Laid.isKwRest {n m : PNode} (h : Laid S W n m) : Seam.isKwRest n = Seam.isKwRest m := by
  unfold Seam.isKwRest
  cases h with
  | symbol a b h => simp [PNode.symbol?, h.value]
  | _ => rfl

/-! ## Maps -/

/-- Maps with the same keys and related values. -/
def LaidMap {α : Type} (S : Site → Site → Prop) (W : Str → Str → Prop) : List (α × PNode) → List (α × PNode) → Prop :=
  Pairs fun p q => p.1 = q.1 ∧ Laid S W p.2 q.2

section
variable {α : Type} [BEq α]
theorem LaidMap.insert {k : α} {v v' : PNode} (hv : Laid S W v v') : ∀ {l l' : List (α × PNode)}, LaidMap S W l l' →
    LaidMap S W (amInsert k v l) (amInsert k v' l')
  | _, _, .nil => .cons ⟨rfl, hv⟩ .nil
  | (k1, v1) :: _, (k2, v2) :: _, .cons h hs => by
    obtain ⟨h1, h2⟩ := h
    simp only at h1 h2
    subst h1
    simp only [amInsert]
    split
    · exact .cons ⟨rfl, hv⟩ hs
    · exact .cons ⟨rfl, h2⟩ (LaidMap.insert hv hs)
theorem LaidMap.get {k : α} : ∀ {l l' : List (α × PNode)}, LaidMap S W l l' → OptR (Laid S W) (amGet k l) (amGet k l')
  | _, _, .nil => .none
  | (k1, v1) :: _, (k2, v2) :: _, .cons h hs => by
    obtain ⟨h1, h2⟩ := h
    simp only at h1 h2
    subst h1
    simp only [amGet]
    split
    · exact .some h2
    · exact LaidMap.get hs
theorem LaidMap.remove {k : α} : ∀ {l l' : List (α × PNode)}, LaidMap S W l l' → LaidMap S W (amRemove k l) (amRemove k l')
  | _, _, .nil => .nil
  | (k1, v1) :: _, (k2, v2) :: _, .cons h hs => by
    obtain ⟨h1, h2⟩ := h
    simp only at h1 h2
    subst h1
    simp only [amRemove]
    split
    · exact hs
    · exact .cons ⟨rfl, h2⟩ (LaidMap.remove hs)
end

theorem LaidMap.isEmpty {α : Type} {l l' : List (α × PNode)} (h : LaidMap S W l l') : l.isEmpty = l'.isEmpty := by cases h <;> rfl
theorem LaidMap.keys {α : Type} : ∀ {l l' : List (α × PNode)}, LaidMap S W l l' → l.map (·.1) = l'.map (·.1)
  | _, _, .nil => rfl
  | _ :: _, _ :: _, .cons h hs => by simp [h.1, LaidMap.keys hs]
theorem LaidMap.values {α : Type} : ∀ {l l' : List (α × PNode)}, LaidMap S W l l' → Laids S W (l.map (·.2)) (l'.map (·.2))
  | _, _, .nil => .nil
  | _ :: _, _ :: _, .cons h hs => .cons _ _ _ _ h.2 (LaidMap.values hs)
theorem pairs_get {α β : Type} {R : α → β → Prop} : ∀ {l : List α} {l' : List β} (i : Nat), Pairs R l l' → OptR R l[i]? l'[i]?
  | _, _, i, .nil => by simp; exact .none
  | _ :: _, _ :: _, 0, .cons h hs => by simpa using OptR.some h
  | _ :: _, _ :: _, i + 1, .cons h hs => by simpa using pairs_get i hs
theorem pairs_places {α β : Type} {R : α → β → Prop} {l : List α} {l' : List β} (h : Pairs R l l') : ∀ places : List Nat,
    Pairs R (places.filterMap (fun k => l[k]?)) (places.filterMap (fun k => l'[k]?))
  | [] => .nil
  | k :: ks => by
    have hk := pairs_get k h
    have ih := pairs_places h ks
    rw [List.filterMap_cons, List.filterMap_cons]
    revert hk
    generalize l[k]? = x
    generalize l'[k]? = y
    intro hk
    cases hk with
    | none => exact ih
    | some hab => exact .cons hab ih
theorem LaidMap.order {o : Order} (ho : ByKeys o) {l l' : List (Str × PNode)} (h : LaidMap S W l l') (i : Nat) :
    LaidMap S W (o i l) (o i l') := by
  obtain ⟨places, h1, h2⟩ := ho i l l' h.keys
  rw [h1, h2]
  exact pairs_places h places
theorem pairs_append {α β : Type} {R : α → β → Prop} {as : List α} {as' : List β} {bs : List α} {bs' : List β}
    (h : Pairs R as as') (h' : Pairs R bs bs') : Pairs R (as ++ bs) (as' ++ bs') := by
  induction h with
  | nil => exact h'
  | cons h _ ih => exact .cons h ih
theorem pairs_reverse {α β : Type} {R : α → β → Prop} {as : List α} {as' : List β}
    (h : Pairs R as as') : Pairs R as.reverse as'.reverse := by
  induction h with
  | nil => exact .nil
  | cons h _ ih => simp only [List.reverse_cons]; exact pairs_append ih (.cons h .nil)

/-! ## Outcomes -/

/-- States that differ only in positions, with an order of hash maps that depends on the
keys only. -/
def Near (S : Site → Site → Prop) (W : Str → Str → Prop) (s t : St) : Prop := LaidSt S W s t ∧ ByKeys s.order

/-- The same outcome without state. -/
def SameR (S : Site → Site → Prop) {α β : Type} (R : α → β → Prop) : Res α → Res β → Prop
  | .ok a, .ok b => R a b
  | .err e, .err e' => MovedErr S e e'
  | .panic, .panic => True
  | .diverge, _ => True
  | _, _ => False

/-- The same outcome. -/
def SameX (S : Site → Site → Prop) (W : Str → Str → Prop) {α β : Type} (R : α → β → Prop) (x : Res α × St) (y : Res β × St) : Prop :=
  SameR S R x.1 y.1 ∧ (x.1 ≠ .diverge → Near S W x.2 y.2)

/-- The same computation. -/
def Sim (S : Site → Site → Prop) (W : Str → Str → Prop) {α β : Type} (R : α → β → Prop) (m : M α) (m' : M β) : Prop :=
  ∀ s t, Near S W s t → SameX S W R (m s) (m' t)

section
variable {α β γ δ : Type} {R : α → β → Prop} {Q : γ → δ → Prop}

theorem SameR.bind {r : Res α} {r' : Res β} {f : α → Res γ} {f' : β → Res δ} (h : SameR S R r r')
    (hf : ∀ a b, R a b → SameR S Q (f a) (f' b)) : SameR S Q (r >>= f) (r' >>= f') := by
  cases r <;> cases r' <;> first | exact hf _ _ h | exact h | exact absurd h id
theorem SameR.ok {a : α} {b : β} (h : R a b) : SameR S R (.ok a) (.ok b) := h
theorem SameR.err {msg : String} {s t : Site} (h : S s t) : SameR S R (.err (expErr msg s)) (.err (expErr msg t)) :=
  ⟨rfl, rfl, h⟩
theorem SameR.mono {R' : α → β → Prop} {r : Res α} {r' : Res β} (h : SameR S R r r') (hi : ∀ a b, R a b → R' a b) : SameR S R' r r' := by
  cases r <;> cases r' <;> first | exact hi _ _ h | exact h

theorem Sim.pure {a : α} {b : β} (h : R a b) : Sim S W R (pure a : M α) (pure b : M β) := fun _ _ hn => ⟨h, fun _ => hn⟩
theorem Sim.fail {msg : String} {s t : Site} (h : S s t) : Sim S W R (M.fail msg s : M α) (M.fail msg t : M β) :=
  fun _ _ hn => ⟨⟨rfl, rfl, h⟩, fun _ => hn⟩
theorem Sim.panic : Sim S W R (M.panic : M α) (M.panic : M β) := fun _ _ hn => ⟨trivial, fun _ => hn⟩
theorem Sim.lift {r : Res α} {r' : Res β} (h : SameR S R r r') : Sim S W R (M.lift r) (M.lift r') :=
  fun _ _ hn => ⟨h, fun _ => hn⟩
theorem Sim.bind {m : M α} {m' : M β} {f : α → M γ} {f' : β → M δ} (h : Sim S W R m m')
    (hf : ∀ a b, R a b → Sim S W Q (f a) (f' b)) : Sim S W Q (m >>= f) (m' >>= f') := by
  intro s t hn
  have := h s t hn
  rw [M.bind_def, M.bind_def]
  rcases hm : m s with ⟨r, s1⟩
  rcases hm' : m' t with ⟨r', t1⟩
  rw [hm, hm'] at this
  obtain ⟨h1, h2⟩ := this
  cases r <;> cases r' <;> first
    | exact ⟨trivial, fun h => absurd rfl h⟩
    | exact absurd h1 id
    | exact hf _ _ h1 _ _ (h2 (by simp))
    | exact ⟨h1, fun _ => h2 (by simp)⟩
theorem Sim.mono {R' : α → β → Prop} {m : M α} {m' : M β} (h : Sim S W R m m') (hi : ∀ a b, R a b → R' a b) : Sim S W R' m m' := by
  intro s t hn
  obtain ⟨h1, h2⟩ := h s t hn
  exact ⟨h1.mono hi, h2⟩
theorem Sim.inner {m : M α} {m' : M β} (h : Sim S W R m m') : Sim S W R (M.inner m) (M.inner m') := by
  intro s t hn
  obtain ⟨h1, h2⟩ := h s t hn
  refine ⟨h1, fun hd => ?_⟩
  have := h2 hd
  exact ⟨⟨hn.1.defined, hn.1.scope, this.1.fresh, this.1.log, this.1.hashes, this.1.order⟩, this.2⟩
theorem Sim.rethrow {msg : String} {s1 s2 : Site} {m : M α} {m' : M β} (hs : S s1 s2) (h : Sim S W R m m') :
    Sim S W R (rethrow msg s1 m) (rethrow msg s2 m') := by
  intro s t hn
  have := h s t hn
  unfold Seam.rethrow
  rcases hm : m s with ⟨r, s1⟩
  rcases hm' : m' t with ⟨r', t1⟩
  rw [hm, hm'] at this
  obtain ⟨h1, h2⟩ := this
  cases r <;> cases r' <;> first
    | exact ⟨trivial, fun h => absurd rfl h⟩
    | exact absurd h1 id
    | exact ⟨h1, h2⟩
    | exact ⟨⟨rfl, rfl, hs⟩, fun _ => h2 (by simp)⟩
end

theorem Sim.ignoreErr {m m' : M Unit} {R : Unit → Unit → Prop} (h : Sim S W R m m') (hr : R () ()) : Sim S W R (ignoreErr m) (ignoreErr m') := by
  intro s t hn
  have := h s t hn
  unfold Seam.ignoreErr
  rcases hm : m s with ⟨r, s1⟩
  rcases hm' : m' t with ⟨r', t1⟩
  rw [hm, hm'] at this
  obtain ⟨h1, h2⟩ := this
  cases r <;> cases r' <;> first
    | exact ⟨trivial, fun h => absurd rfl h⟩
    | exact absurd h1 id
    | exact ⟨h1, h2⟩
    | exact ⟨hr, fun _ => h2 (by simp)⟩

/-- Any two results. -/
def anyR {α β : Type} : α → β → Prop := fun _ _ => True

theorem Sim.define {name : Str} {m m' : Macro} {R : Unit → Unit → Prop} (h : LaidMacro S W m m') (hr : R () ()) :
    Sim S W R (M.define name m) (M.define name m') := by
  intro s t hn
  refine ⟨hr, fun _ => ⟨⟨?_, ?_, hn.1.fresh, hn.1.log, hn.1.hashes, hn.1.order⟩, hn.2⟩⟩
  · intro k
    show s.scope.insert name m k = none ↔ t.scope.insert name m' k = none
    simp only [Scope.insert]
    split
    · simp
    · exact hn.1.defined k
  · intro k a b ha hb
    replace ha : s.scope.insert name m k = some a := ha
    replace hb : t.scope.insert name m' k = some b := hb
    simp only [Scope.insert] at ha hb
    split at ha
    · rename_i hk
      rw [if_pos hk] at hb
      cases ha; cases hb; exact h
    · rename_i hk
      rw [if_neg hk] at hb
      exact hn.1.scope k a b ha hb
theorem Sim.var {name : Str} {ns ms : List PNode} {R : Unit → Unit → Prop} (h : Laids S W ns ms) (hr : R () ()) :
    Sim S W R (M.define name (Macro.var ns)) (M.define name (Macro.var ms)) := Sim.define ⟨.nil, h⟩ hr
theorem Near.lookup {s t : St} (h : Near S W s t) (name : Str) : OptR (LaidMacro S W) (s.scope name) (t.scope name) := by
  have h1 := h.1.defined name
  have h2 := h.1.scope name
  cases ha : s.scope name with
  | none => rw [h1.1 ha]; exact .none
  | some m =>
    cases hb : t.scope name with
    | none => rw [h1.2 hb] at ha; cases ha
    | some m' => exact .some (h2 m m' ha hb)
theorem Sim.lookup {name : Str} : Sim S W (OptR (LaidMacro S W)) (M.lookup name) (M.lookup name) :=
  fun _ _ hn => ⟨hn.lookup name, fun _ => hn⟩
theorem Sim.tick : Sim S W (fun i j => i = j ∨ ∀ p q, Reread p q → S p q) M.tick M.tick :=
  fun _ _ hn => ⟨hn.1.fresh, fun _ => ⟨⟨hn.1.defined, hn.1.scope, hn.1.fresh.imp_left (congrArg (· + 1)), hn.1.log, hn.1.hashes, hn.1.order⟩, hn.2⟩⟩
theorem Sim.emit {l l' : LogLine} {R : Unit → Unit → Prop} (h : MovedLine S l l') (hr : R () ()) : Sim S W R (M.emit l) (M.emit l') :=
  fun _ _ hn => ⟨hr, fun _ => ⟨⟨hn.1.defined, hn.1.scope, hn.1.fresh, pairs_append hn.1.log (.cons h .nil), hn.1.hashes, hn.1.order⟩, hn.2⟩⟩
theorem Sim.iterate {l l' : List (Str × PNode)} (h : LaidMap S W l l') : Sim S W (LaidMap S W) (M.iterate l) (M.iterate l') := by
  intro s t hn
  refine ⟨?_, fun _ => ⟨⟨hn.1.defined, hn.1.scope, hn.1.fresh, hn.1.log, congrArg (· + 1) hn.1.hashes, hn.1.order⟩, hn.2⟩⟩
  show LaidMap S W (s.order s.hashes l) (t.order t.hashes l')
  rw [← hn.1.order, ← hn.1.hashes]
  exact h.order hn.2 _
theorem Sim.firstEntry {l l' : List (Str × PNode)} (h : LaidMap S W l l') :
    Sim S W (OptR fun p q => p.1 = q.1 ∧ Laid S W p.2 q.2) (M.firstEntry l) (M.firstEntry l') := by
  intro s t hn
  refine ⟨?_, fun _ => hn⟩
  show OptR _ (s.order s.hashes l).head? (t.order t.hashes l').head?
  rw [← hn.1.order, ← hn.1.hashes]
  have := h.order hn.2 s.hashes
  revert this
  generalize s.order s.hashes l = x
  generalize s.order s.hashes l' = y
  intro this
  cases this with
  | nil => exact .none
  | cons h _ => exact .some h

/-! ## Binding -/

/-- The local variables of `bind_list`, moved. -/
structure LaidAcc (S : Site → Site → Prop) (W : Str → Str → Prop) (a b : BindAcc) : Prop where
  rest : a.rest = b.rest
  kwRest : a.kwRest = b.kwRest
  rhs : LaidMap S W a.rhs b.rhs
  lhs : LaidMap S W a.lhs b.lhs

theorem skipNamed_moved : ∀ {ns ms : List PNode} {l l' : List (Str × PNode)}, Laids S W ns ms → LaidMap S W l l' →
    LaidMap S W (skipNamed l ns).1 (skipNamed l' ms).1 ∧ Laids S W (skipNamed l ns).2 (skipNamed l' ms).2 := by
  intro ns
  induction ns with
  | nil => intro ms l l' h hl; cases h; exact ⟨hl, .nil⟩
  | cons n ns ih =>
    intro ms l l' h hl
    cases h with
    | cons _ _ _ _ h1 h2 =>
      cases h1 with
      | attr k n m s t w v hv hs hbl =>
        simp only [skipNamed]
        exact ih h2 (hl.insert (.attr k n m s t w v hv hs hbl))
      | symbol a b h => exact ⟨hl, .cons _ _ _ _ (.symbol a b h) h2⟩
      | number a b h => exact ⟨hl, .cons _ _ _ _ (.number a b h) h2⟩
      | string a b h => exact ⟨hl, .cons _ _ _ _ (.string a b h) h2⟩
      | raw a b h => exact ⟨hl, .cons _ _ _ _ (.raw a b h) h2⟩
      | list ns ms s t e f w v h3 h4 h5 h6 hbl => exact ⟨hl, .cons _ _ _ _ (.list ns ms s t e f w v h3 h4 h5 h6 hbl) h2⟩

theorem takeRest_moved : ∀ {ns ms : List PNode} {l l' : List (Str × PNode)}, Laids S W ns ms → LaidMap S W l l' →
    LaidMap S W (takeRest l ns).1 (takeRest l' ms).1 ∧ Laids S W (takeRest l ns).2 (takeRest l' ms).2 := by
  intro ns
  induction ns with
  | nil => intro ms l l' h hl; cases h; exact ⟨hl, .nil⟩
  | cons n ns ih =>
    intro ms l l' h hl
    cases h with
    | cons _ _ _ _ h1 h2 =>
      cases h1 with
      | attr k n m s t w v hv hs hbl =>
        simp only [takeRest]
        exact ih h2 (hl.insert (.attr k n m s t w v hv hs hbl))
      | symbol a b h => exact ⟨(ih h2 hl).1, .cons _ _ _ _ (.symbol a b h) (ih h2 hl).2⟩
      | number a b h => exact ⟨(ih h2 hl).1, .cons _ _ _ _ (.number a b h) (ih h2 hl).2⟩
      | string a b h => exact ⟨(ih h2 hl).1, .cons _ _ _ _ (.string a b h) (ih h2 hl).2⟩
      | raw a b h => exact ⟨(ih h2 hl).1, .cons _ _ _ _ (.raw a b h) (ih h2 hl).2⟩
      | list ns ms s t e f w v h3 h4 h5 h6 hbl =>
        exact ⟨(ih h2 hl).1, .cons _ _ _ _ (.list ns ms s t e f w v h3 h4 h5 h6 hbl) (ih h2 hl).2⟩

theorem bindNamed_sim : ∀ {lhs lhs' : List (Str × PNode)} {rhs rhs' : List (Str × PNode)}, LaidMap S W lhs lhs' →
    LaidMap S W rhs rhs' → Sim S W (LaidMap S W) (bindNamed rhs lhs) (bindNamed rhs' lhs') := by
  intro lhs
  induction lhs with
  | nil => intro lhs' rhs rhs' h hr; cases h; exact .pure hr
  | cons p lhs ih =>
    intro lhs' rhs rhs' h hr
    cases h with
    | cons h hs =>
      rename_i q qs
      obtain ⟨k, d⟩ := p
      obtain ⟨k', d'⟩ := q
      obtain ⟨h1, h2⟩ := h
      simp only at h1 h2
      subst h1
      simp only [bindNamed]
      have hg : OptR (Laid S W) (amGet k rhs) (amGet k rhs') := hr.get
      refine Sim.bind (R := anyR) (Sim.var (Laids.one ?_) trivial) fun _ _ _ => ih hs hr.remove
      revert hg
      generalize amGet k rhs = x
      generalize amGet k rhs' = y
      intro hg
      cases hg with
      | none => exact h2
      | some h =>
        cases h with
        | attr k n m s t w v hv hs hbl => exact hv
        | _ => exact h2

theorem bindEnd_sim {a b : BindAcc} {ns ms : List PNode} (ha : LaidAcc S W a b) (h : Laids S W ns ms) :
    Sim S W anyR (bindEnd a ns) (bindEnd b ms) := by
  unfold bindEnd
  obtain ⟨h1, h2⟩ := takeRest_moved h ha.rhs
  revert h1 h2
  generalize takeRest a.rhs ns = x
  generalize takeRest b.rhs ms = y
  obtain ⟨r, rest⟩ := x
  obtain ⟨r', rest'⟩ := y
  intro h1 h2
  simp only at h1 h2 ⊢
  have tail : Sim S W anyR (do
      let rhs ← bindNamed r a.lhs
      match a.kwRest with
      | some name => do
        let entries ← M.iterate rhs
        M.define (name.drop 2) (Macro.var (entries.map (·.2)))
      | none =>
        if rhs.isEmpty then pure ()
        else do
          let entry ← M.firstEntry rhs
          match entry with
          | some (_, n) => M.fail "Unknown excess keywords provided." n.site
          | none => M.panic) (do
      let rhs ← bindNamed r' b.lhs
      match b.kwRest with
      | some name => do
        let entries ← M.iterate rhs
        M.define (name.drop 2) (Macro.var (entries.map (·.2)))
      | none =>
        if rhs.isEmpty then pure ()
        else do
          let entry ← M.firstEntry rhs
          match entry with
          | some (_, n) => M.fail "Unknown excess keywords provided." n.site
          | none => M.panic) := by
    refine Sim.bind (bindNamed_sim ha.lhs h1) fun r r' hr => ?_
    rw [← ha.kwRest]
    cases a.kwRest with
    | some name => exact Sim.bind (Sim.iterate hr) fun e e' he => Sim.var he.values trivial
    | none =>
      simp only
      rw [hr.isEmpty]
      split
      · exact .pure trivial
      · refine Sim.bind (Sim.firstEntry hr) fun e e' he => ?_
        cases he with
        | none => exact .panic
        | some h => exact .fail h.2.site
  rw [← ha.rest]
  have hl := h2.last
  revert hl
  generalize rest.getLast? = x
  generalize rest'.getLast? = y
  intro hl
  cases a.rest with
  | some name => exact Sim.bind (R := anyR) (Sim.var h2 trivial) fun _ _ _ => tail
  | none =>
    cases hl with
    | none => exact tail
    | some h => exact Sim.bind (R := anyR) (.fail h.site) fun _ _ _ => tail

mutual
theorem bind_sim : ∀ (p : PNode) {p' v v' : PNode}, Laid S W p p' → Laid S W v v' → Sim S W anyR (bind p v) (bind p' v')
  | .symbol a, _, v, v', h, hv => by
    cases h with | symbol a b h =>
    simp only [bind, h.value]
    exact Sim.var (.one hv) trivial
  | .number a, _, v, v', h, hv => by
    cases h with | number a b h =>
    cases hv with
    | number c d hc =>
      simp only [bind, h.value, hc.value]
      split
      · exact .pure trivial
      · exact .fail hc.site
    | symbol c d hc => simp only [bind]; exact .fail hc.site
    | string c d hc => simp only [bind]; exact .fail hc.site
    | raw c d hc => simp only [bind]; exact .fail hc.site
    | list _ _ _ _ _ _ _ _ _ hs => simp only [bind]; exact .fail hs
    | attr _ _ _ _ _ _ _ _ hs => simp only [bind]; exact .fail hs
  | .string a, _, v, v', h, hv => by
    cases h with | string a b h =>
    cases hv with
    | string c d hc | raw c d hc =>
      simp only [bind, h.value, hc.value]
      split
      · exact .pure trivial
      · exact .fail hc.site
    | symbol c d hc => simp only [bind]; exact .fail hc.site
    | number c d hc => simp only [bind]; exact .fail hc.site
    | list _ _ _ _ _ _ _ _ _ hs => simp only [bind]; exact .fail hs
    | attr _ _ _ _ _ _ _ _ hs => simp only [bind]; exact .fail hs
  | .raw a, _, v, v', h, hv => by
    cases h with | raw a b h =>
    cases hv with
    | string c d hc | raw c d hc =>
      simp only [bind, h.value, hc.value]
      split
      · exact .pure trivial
      · exact .fail hc.site
    | symbol c d hc => simp only [bind]; exact .fail hc.site
    | number c d hc => simp only [bind]; exact .fail hc.site
    | list _ _ _ _ _ _ _ _ _ hs => simp only [bind]; exact .fail hs
    | attr _ _ _ _ _ _ _ _ hs => simp only [bind]; exact .fail hs
  | .attr k n s w, _, v, v', h, hv => by
    cases h with | attr _ _ m _ t _ _ hn hs hbl =>
    cases hv with
    | attr k' n' m' s' t' w' v' hn' hs' hbl =>
      simp only [bind]
      split
      · exact bind_sim n hn hn'
      · exact .fail hs'
    | symbol c d hc | number c d hc | string c d hc | raw c d hc => simp only [bind]; exact .fail hc.site
    | list _ _ _ _ _ _ _ _ _ hs => simp only [bind]; exact .fail hs
  | .list ns s e w, _, v, v', h, hv => by
    cases h with | list _ ms _ t _ f _ _ hn hs he hes hbl =>
    cases hv with
    | list ns' ms' s' t' e' f' w' v' hn' hs' he' hes' hbl =>
      simp only [bind]
      exact bindLoop_sim ns (.list ns' ms' s' t' e' f' w' v' hn' hs' he' hes' hbl) ⟨rfl, rfl, .nil, .nil⟩ hn hn'
    | symbol c d hc | number c d hc | string c d hc | raw c d hc => simp only [bind]; exact .fail hc.site
    | attr _ _ _ _ _ _ _ _ hs => simp only [bind]; exact .fail hs
theorem bindLoop_sim : ∀ (ps : List PNode) {ps' vs vs' : List PNode} {a a' : PNode} {acc acc' : BindAcc}, Laid S W a a' → LaidAcc S W acc acc' →
    Laids S W ps ps' → Laids S W vs vs' → Sim S W anyR (bindLoop a acc ps vs) (bindLoop a' acc' ps' vs')
  | [], _, vs, vs', a, a', acc, acc', ha, hacc, h, hv => by
    cases h
    simp only [bindLoop]
    exact bindEnd_sim hacc hv
  | p :: ps, _, vs, vs', a, a', acc, acc', ha, hacc, h, hv => by
    cases h with
    | cons _ p' _ ps' h1 h2 =>
    have other : ∀ (hp : ∀ k d s w, p ≠ .attr k d s w) (hp' : ∀ k d s w, p' ≠ .attr k d s w),
        Sim S W anyR (bindLoop a acc (p :: ps) vs) (bindLoop a' acc' (p' :: ps') vs') := by
      intro hp hp'
      rw [bindLoop.eq_3 _ _ _ _ _ hp, bindLoop.eq_3 _ _ _ _ _ hp']
      have hkw := hacc.kwRest
      have hre := hacc.rest
      rw [← h1.isKwRest, ← h1.isRest]
      split
      · have hsym := h1.symbol?
        have hsite := h1.site
        revert hsym
        generalize p.symbol? = x
        generalize p'.symbol? = y
        intro hsym
        cases hsym with
        | none =>
          rw [← hkw]
          cases acc.kwRest <;> exact .fail hsite
        | some hsy =>
          cases hk : acc.kwRest with
          | some _ =>
            rw [hk] at hkw
            rw [← hkw]
            exact .fail hsite
          | none =>
            rw [hk] at hkw
            rw [← hkw]
            simp only [hsy.value]
            exact bindLoop_sim ps ha ⟨hacc.rest, rfl, hacc.rhs, hacc.lhs⟩ h2 hv
      · split
        · have hsym := h1.symbol?
          have hsite := h1.site
          revert hsym
          generalize p.symbol? = x
          generalize p'.symbol? = y
          intro hsym
          cases hsym with
          | none =>
            rw [← hre]
            cases acc.rest <;> exact .fail hsite
          | some hsy =>
            cases hk : acc.rest with
            | some _ =>
              rw [hk] at hre
              rw [← hre]
              exact .fail hsite
            | none =>
              rw [hk] at hre
              rw [← hre]
              simp only [hsy.value]
              exact bindLoop_sim ps ha ⟨rfl, hacc.kwRest, hacc.rhs, hacc.lhs⟩ h2 hv
        · obtain ⟨g1, g2⟩ := skipNamed_moved hv hacc.rhs
          revert g1 g2
          generalize skipNamed acc.rhs vs = x
          generalize skipNamed acc'.rhs vs' = y
          obtain ⟨r, rest⟩ := x
          obtain ⟨r', rest'⟩ := y
          intro g1 g2
          simp only at g1 g2
          cases g2 with
          | nil => exact .fail ha.site
          | cons v v' rest rest' g3 g4 =>
            exact Sim.bind (bind_sim p h1 g3) fun _ _ _ => bindLoop_sim ps ha ⟨hacc.rest, hacc.kwRest, g1, hacc.lhs⟩ h2 g4
    cases h1 with
    | attr k n m s t w v hn hs hbl =>
      simp only [bindLoop]
      exact bindLoop_sim ps ha ⟨hacc.rest, hacc.kwRest, hacc.rhs, hacc.lhs.insert hn⟩ h2 hv
    | symbol => exact other (by simp) (by simp)
    | number => exact other (by simp) (by simp)
    | string => exact other (by simp) (by simp)
    | raw => exact other (by simp) (by simp)
    | list => exact other (by simp) (by simp)
end

end
end Seam
