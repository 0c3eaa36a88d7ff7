import Verif.Spec.Bind
import Verif.Lemmas.Indep

/-! `bind` and `bind_list` against the specification of matching. -/

namespace Seam
open Spec

/-! ## Association lists -/

section
variable {β : Type}

theorem amGet_insert {α : Type} [BEq α] [LawfulBEq α] [DecidableEq α] (k k' : α) (v : β) : ∀ m : List (α × β),
    amGet k (amInsert k' v m) = if k' = k then some v else amGet k m
  | [] => by simp [amInsert, amGet]
  | (k₀, v₀) :: m => by
    simp only [amInsert, beq_iff_eq]
    by_cases h : k₀ = k'
    · subst h
      simp only [if_true, amGet, beq_iff_eq]
      split <;> rfl
    · simp only [h, if_false, amGet, beq_iff_eq, amGet_insert k k' v m]
      by_cases h' : k₀ = k
      · subst h'
        simp [Ne.symm h]
      · simp [h']

/-- No key twice. -/
def KeysNodup (m : List (Str × β)) : Prop := (m.map (·.1)).Nodup

theorem amGet_eq_none {k : Str} : ∀ {m : List (Str × β)}, amGet k m = none ↔ ∀ e ∈ m, e.1 ≠ k
  | [] => by simp [amGet]
  | (k₀, v₀) :: m => by
    simp only [amGet, beq_iff_eq]
    by_cases h : k₀ = k
    · simp [h]
    · simp only [h, if_false, List.mem_cons, forall_eq_or_imp, ne_eq, not_false_eq_true, true_and]
      exact amGet_eq_none

theorem amGet_mem {k : Str} {v : β} : ∀ {m : List (Str × β)}, amGet k m = some v → (k, v) ∈ m
  | [], h => by simp [amGet] at h
  | (k₀, v₀) :: m, h => by
    simp only [amGet, beq_iff_eq] at h
    split at h
    · next h' => subst h'; simp_all
    · exact List.mem_cons_of_mem _ (amGet_mem h)

theorem amGet_of_mem {k : Str} {v : β} : ∀ {m : List (Str × β)}, KeysNodup m → (k, v) ∈ m → amGet k m = some v
  | [], _, h => by simp at h
  | (k₀, v₀) :: m, hn, h => by
    simp only [KeysNodup, List.map_cons, List.nodup_cons] at hn
    simp only [amGet, beq_iff_eq]
    rcases List.mem_cons.1 h with h | h
    · obtain ⟨rfl, rfl⟩ := Prod.mk.inj h
      simp
    · have : k₀ ≠ k := by
        rintro rfl
        exact hn.1 (List.mem_map.2 ⟨_, h, rfl⟩)
      rw [if_neg this]
      exact amGet_of_mem hn.2 h

theorem keys_insert (k : Str) (v : β) : ∀ m : List (Str × β), KeysNodup m → KeysNodup (amInsert k v m)
  | [], _ => by simp [amInsert, KeysNodup]
  | (k₀, v₀) :: m, hn => by
    have hn' := hn
    simp only [KeysNodup, List.map_cons, List.nodup_cons] at hn
    simp only [amInsert, beq_iff_eq]
    split
    · next h => subst h; exact hn'
    · next h =>
      simp only [KeysNodup, List.map_cons, List.nodup_cons]
      refine ⟨?_, keys_insert k v m hn.2⟩
      intro hm
      obtain ⟨⟨k₁, v₁⟩, he, rfl⟩ := List.mem_map.1 hm
      have := amGet_of_mem (keys_insert k v m hn.2) he
      rw [amGet_insert, if_neg (Ne.symm h)] at this
      exact hn.1 (List.mem_map.2 ⟨_, amGet_mem this, rfl⟩)

theorem keys_remove (k : Str) : ∀ m : List (Str × β), KeysNodup m →
    KeysNodup (amRemove k m) ∧ ∀ x, amGet x (amRemove k m) = if x = k then none else amGet x m
  | [], _ => by simp [amRemove, KeysNodup, amGet]
  | (k₀, v₀) :: m, hn => by
    have hn' := hn
    simp only [KeysNodup, List.map_cons, List.nodup_cons] at hn
    obtain ⟨h1, h2⟩ := keys_remove k m hn.2
    simp only [amRemove, beq_iff_eq]
    split
    · next h =>
      subst h
      refine ⟨hn.2, fun x => ?_⟩
      split
      · next h =>
        subst h
        refine amGet_eq_none.2 fun e he hk => ?_
        exact hn.1 (List.mem_map.2 ⟨e, he, hk⟩)
      · next h => simp [amGet, Ne.symm h]
    · next h =>
      constructor
      · simp only [KeysNodup, List.map_cons, List.nodup_cons]
        refine ⟨?_, h1⟩
        intro hm
        obtain ⟨⟨k₁, v₁⟩, he, rfl⟩ := List.mem_map.1 hm
        have := amGet_of_mem h1 he
        rw [h2, if_neg h] at this
        exact hn.1 (List.mem_map.2 ⟨_, amGet_mem this, rfl⟩)
      · intro x
        simp only [amGet, beq_iff_eq, h2]
        by_cases hx : k₀ = x
        · subst hx; simp [h]
        · simp [hx]

end

/-! ## Collecting named arguments and parameters -/

/-- The named arguments, last one first served. -/
def collect (m : List (Str × PNode)) : List PNode → List (Str × PNode)
  | [] => m
  | .attr k n s w :: r => collect (amInsert k (.attr k n s w) m) r
  | _ :: r => collect m r

/-- The defaults of the named parameters. -/
def collectD (m : List (Str × PNode)) : List PNode → List (Str × PNode)
  | [] => m
  | .attr k d _ _ :: r => collectD (amInsert k d m) r
  | _ :: r => collectD m r

theorem takeRest_eq : ∀ (vs : List PNode) (m : List (Str × PNode)), takeRest m vs = (collect m vs, positional vs)
  | [], m => rfl
  | v :: vs, m => by
    cases v <;> simp only [takeRest, collect, positional, takeRest_eq vs]

theorem skipNamed_spec : ∀ (vs : List PNode) (m : List (Str × PNode)),
    (positional vs = [] ∧ (skipNamed m vs).2 = []) ∨
    ∃ v values, (skipNamed m vs).2 = v :: values ∧ positional vs = v :: positional values ∧
      collect m vs = collect (skipNamed m vs).1 values
  | [], m => Or.inl ⟨rfl, rfl⟩
  | v :: vs, m => by
    cases v with
    | attr k n s w =>
      simp only [skipNamed, positional, collect]
      exact skipNamed_spec vs _
    | _ => exact Or.inr ⟨_, vs, rfl, rfl, rfl⟩

theorem amGet_collect (k : Str) : ∀ (vs : List PNode) (m : List (Str × PNode)),
    amGet k (collect m vs) = (lastAttr k vs).or (amGet k m)
  | [], m => by simp [collect, lastAttr]
  | v :: vs, m => by
    cases v with
    | attr k' n s w =>
      simp only [collect, lastAttr, amGet_collect k vs, amGet_insert, Option.or_assoc]
      congr 1
      split <;> simp
    | _ => simp only [collect, lastAttr, amGet_collect k vs]

theorem amGet_collectD (k : Str) : ∀ (vs : List PNode) (m : List (Str × PNode)),
    amGet k (collectD m vs) = (lastNamed k vs).or (amGet k m)
  | [], m => by simp [collectD, lastNamed]
  | v :: vs, m => by
    cases v with
    | attr k' n s w =>
      simp only [collectD, lastNamed, amGet_collectD k vs, amGet_insert, Option.or_assoc]
      congr 1
      split <;> simp
    | _ => simp only [collectD, lastNamed, amGet_collectD k vs]

theorem keys_collect : ∀ (vs : List PNode) (m : List (Str × PNode)), KeysNodup m → KeysNodup (collect m vs)
  | [], _, h => h
  | v :: vs, m, h => by
    cases v with
    | attr k n s w => exact keys_collect vs _ (keys_insert _ _ _ h)
    | _ => exact keys_collect vs _ h

theorem keys_collectD : ∀ (vs : List PNode) (m : List (Str × PNode)), KeysNodup m → KeysNodup (collectD m vs)
  | [], _, h => h
  | v :: vs, m, h => by
    cases v with
    | attr k n s w => exact keys_collectD vs _ (keys_insert _ _ _ h)
    | _ => exact keys_collectD vs _ h

theorem lastAttr_form (k : Str) : ∀ {vs : List PNode} {n : PNode}, lastAttr k vs = some n →
    ∃ v s w, n = .attr k v s w ∧ lastNamed k vs = some v
  | [], _, h => by simp [lastAttr] at h
  | .attr k' v s w :: vs, n, h => by
    simp only [lastAttr, Option.or_eq_some_iff] at h
    rcases h with h | ⟨h, h'⟩
    · obtain ⟨v', s', w', h1, h2⟩ := lastAttr_form k h
      exact ⟨v', s', w', h1, by simp [lastNamed, h2]⟩
    · split at h'
      · next hk =>
        subst hk
        obtain rfl := Option.some.inj h'
        refine ⟨v, s, w, rfl, ?_⟩
        have : lastNamed k' vs = none := by
          cases hl : lastNamed k' vs with
          | none => rfl
          | some x =>
            have := lastNamed_attr k' vs x hl
            obtain ⟨n, hn⟩ := this
            rw [hn] at h
            cases h
        simp [lastNamed, this]
      · cases h'
  | .symbol _ :: vs, n, h => lastAttr_form k (vs := vs) h
  | .number _ :: vs, n, h => lastAttr_form k (vs := vs) h
  | .string _ :: vs, n, h => lastAttr_form k (vs := vs) h
  | .raw _ :: vs, n, h => lastAttr_form k (vs := vs) h
  | .list _ _ _ _ :: vs, n, h => lastAttr_form k (vs := vs) h
where
  lastNamed_attr (k : Str) : ∀ (vs : List PNode) (v : PNode), lastNamed k vs = some v → ∃ n, lastAttr k vs = some n
    | [], _, h => by simp [lastNamed] at h
    | w :: vs, v, h => by
      cases w with
      | attr k' v' s w =>
        simp only [lastNamed, Option.or_eq_some_iff] at h
        rcases h with h | ⟨h, h'⟩
        · obtain ⟨n, hn⟩ := lastNamed_attr k vs v h
          exact ⟨n, by simp [lastAttr, hn]⟩
        · split at h'
          · next hk =>
            cases hl : lastAttr k vs with
            | none => exact ⟨.attr k' v' s w, by simp [lastAttr, hl, hk]⟩
            | some n => exact ⟨n, by simp [lastAttr, hl]⟩
          · cases h'
      | _ => exact lastNamed_attr k vs v h

theorem lastAttr_none {k : Str} {vs : List PNode} : lastAttr k vs = none ↔ lastNamed k vs = none := by
  constructor
  · intro h
    cases hl : lastNamed k vs with
    | none => rfl
    | some v =>
      obtain ⟨n, hn⟩ := lastAttr_form.lastNamed_attr k vs v hl
      rw [h] at hn; cases hn
  · intro h
    cases hl : lastAttr k vs with
    | none => rfl
    | some n =>
      obtain ⟨_, _, _, _, h2⟩ := lastAttr_form k hl
      rw [h] at h2; cases h2

/-! ## The end of `bind_list` -/

/-- What `bindEnd` does with the remaining values sorted out. -/
def finish (rest kw : Option Str) (lhs rhs : List (Str × PNode)) (left : List PNode) : M Unit := do
  match rest, left.getLast? with
  | some name, _ => M.define name (Macro.var left)
  | none, some n => M.fail "Excess number of arguments." n.site
  | none, none => pure ()
  let rhs ← bindNamed rhs lhs
  match kw with
  | some name => do
    let entries ← M.iterate rhs
    M.define name (Macro.var (entries.map (·.2)))
  | none =>
    if rhs.isEmpty then pure ()
    else do
      let entry ← M.firstEntry rhs
      match entry with
      | some (_, n) => M.fail "Unknown excess keywords provided." n.site
      | none => M.panic

theorem bindEnd_eq (acc : BindAcc) (vs : List PNode) : bindEnd acc vs =
    finish (acc.rest.map (·.drop 1)) (acc.kwRest.map (·.drop 2)) acc.lhs (collect acc.rhs vs) (positional vs) := by
  unfold bindEnd finish
  rw [takeRest_eq]
  rcases acc with ⟨rest, kw, _, _, _⟩
  dsimp only
  cases (positional vs).getLast? <;> cases rest <;> cases kw <;> rfl

/-- What is left of the arguments without those of the parameters. -/
def removeAll : List (Str × PNode) → List (Str × PNode) → List (Str × PNode)
  | [], rhs => rhs
  | (k, _) :: lhs, rhs => removeAll lhs (amRemove k rhs)

/-- The value of an argument, or the default. -/
def argOr (k : Str) (d : PNode) (rhs : List (Str × PNode)) : PNode :=
  match amGet k rhs with
  | some (.attr _ n _ _) => n
  | _ => d

/-- The scope after `bindNamed`. -/
def namedScope : List (Str × PNode) → List (Str × PNode) → Scope → Scope
  | [], _, sc => sc
  | (k, d) :: lhs, rhs, sc => namedScope lhs (amRemove k rhs) (sc.insert k (Macro.var [argOr k d rhs]))

theorem bindNamed_eq : ∀ (lhs rhs : List (Str × PNode)) (s : St),
    bindNamed rhs lhs s = (.ok (removeAll lhs rhs), { s with scope := namedScope lhs rhs s.scope })
  | [], _, _ => rfl
  | (k, d) :: lhs, rhs, s => by
    unfold bindNamed
    rw [M.bind_ok (M.define_def _ _ _), bindNamed_eq lhs]
    rfl

theorem removeAll_spec : ∀ (lhs rhs : List (Str × PNode)), KeysNodup rhs →
    KeysNodup (removeAll lhs rhs) ∧
    ∀ x, amGet x (removeAll lhs rhs) = if (amGet x lhs).isSome then none else amGet x rhs
  | [], rhs, h => ⟨h, fun x => by simp [removeAll, amGet]⟩
  | (k, d) :: lhs, rhs, h => by
    obtain ⟨h1, h2⟩ := keys_remove k rhs h
    obtain ⟨h3, h4⟩ := removeAll_spec lhs (amRemove k rhs) h1
    refine ⟨h3, fun x => ?_⟩
    simp only [removeAll, h4, h2, amGet, beq_iff_eq]
    by_cases hx : k = x
    · subst hx; simp
    · simp [hx, Ne.symm hx]

theorem argOr_remove {k k' : Str} (h : k ≠ k') (d : PNode) {rhs : List (Str × PNode)} (hn : KeysNodup rhs) :
    argOr k d (amRemove k' rhs) = argOr k d rhs := by
  unfold argOr
  rw [(keys_remove k' rhs hn).2, if_neg h]

theorem namedScope_spec (x : Str) : ∀ (lhs rhs : List (Str × PNode)) (sc : Scope), KeysNodup lhs → KeysNodup rhs →
    namedScope lhs rhs sc x = match amGet x lhs with
      | some d => some (Macro.var [argOr x d rhs])
      | none => sc x
  | [], _, _, _, _ => rfl
  | (k, d) :: lhs, rhs, sc, hl, hr => by
    have hl' := hl
    simp only [KeysNodup, List.map_cons, List.nodup_cons] at hl
    simp only [namedScope, amGet, beq_iff_eq]
    rw [namedScope_spec x lhs _ _ hl.2 (keys_remove k rhs hr).1]
    by_cases hx : k = x
    · subst hx
      have : amGet k lhs = none := amGet_eq_none.2 fun e he hk => hl.1 (List.mem_map.2 ⟨e, he, hk⟩)
      rw [this]
      simp [Scope.insert]
    · rw [if_neg hx]
      cases amGet x lhs with
      | none => simp [Scope.insert, Ne.symm hx]
      | some d' => dsimp only; rw [argOr_remove (Ne.symm hx) d' hr]

theorem insert_bound (sc : Scope) (name : Str) (ns : List PNode) : sc.insert name (Macro.var ns) = bound sc name ns := by
  funext x
  simp [Scope.insert, bound, Macro.var]

/-- The scope after the `&` parameter. -/
def restScope (left : List PNode) (sc : Scope) : Option Str → Scope
  | some r => bound sc r left
  | none => sc

theorem finish_eq (rest kw : Option Str) (lhs rhs : List (Str × PNode)) (left : List PNode) (s : St)
    (hl : rest = none → left = []) :
    finish rest kw lhs rhs left s = (match kw with
      | some name => (.ok (), { s with
          scope := bound (namedScope lhs rhs (restScope left s.scope rest)) name ((s.order s.hashes (removeAll lhs rhs)).map (·.2)),
          hashes := s.hashes + 1 })
      | none =>
        if (removeAll lhs rhs).isEmpty then (.ok (), { s with scope := namedScope lhs rhs (restScope left s.scope rest) })
        else match (s.order s.hashes (removeAll lhs rhs)).head? with
          | some (_, n) => (.err (expErr "Unknown excess keywords provided." n.site), { s with scope := namedScope lhs rhs (restScope left s.scope rest) })
          | none => (.panic, { s with scope := namedScope lhs rhs (restScope left s.scope rest) })) := by
  have key : ∀ s : St, ((bindNamed rhs lhs >>= fun rhs => match kw with
      | some name => do
        let entries ← M.iterate rhs
        M.define name (Macro.var (entries.map (·.2)))
      | none =>
        if rhs.isEmpty then pure ()
        else do
          let entry ← M.firstEntry rhs
          match entry with
          | some (_, n) => M.fail "Unknown excess keywords provided." n.site
          | none => M.panic) : M Unit) s = (match kw with
      | some name => (.ok (), { s with
          scope := bound (namedScope lhs rhs s.scope) name ((s.order s.hashes (removeAll lhs rhs)).map (·.2)),
          hashes := s.hashes + 1 })
      | none =>
        if (removeAll lhs rhs).isEmpty then (.ok (), { s with scope := namedScope lhs rhs s.scope })
        else match (s.order s.hashes (removeAll lhs rhs)).head? with
          | some (_, n) => (.err (expErr "Unknown excess keywords provided." n.site), { s with scope := namedScope lhs rhs s.scope })
          | none => (.panic, { s with scope := namedScope lhs rhs s.scope })) := by
    intro s
    rw [M.bind_ok (bindNamed_eq lhs rhs s)]
    cases kw with
    | some name =>
      simp only [← insert_bound]
      rfl
    | none =>
      dsimp only
      split
      · rfl
      · show (match (s.order s.hashes (removeAll lhs rhs)).head? with
          | some (_, n) => M.fail "Unknown excess keywords provided." n.site
          | none => M.panic : M Unit) _ = _
        cases (s.order s.hashes (removeAll lhs rhs)).head? <;> rfl
  cases rest with
  | some r =>
    show (M.define r (Macro.var left) >>= fun _ => _) s = _
    rw [M.bind_ok (M.define_def _ _ _), restScope, ← insert_bound]
    exact key _
  | none =>
    rw [hl rfl]
    exact key s

theorem finish_excess (kw : Option Str) (lhs rhs : List (Str × PNode)) {left : List PNode} (h : left ≠ []) (s : St) :
    ∃ e, finish none kw lhs rhs left s = (.err e, s) := by
  unfold finish
  cases hl : left.getLast? with
  | none => exact absurd (List.getLast?_eq_none_iff.1 hl) h
  | some n => exact ⟨_, rfl⟩

theorem isEmpty_iff_amGet (m : List (Str × PNode)) : m.isEmpty = true ↔ ∀ k, amGet k m = none := by
  cases m with
  | nil => simp [amGet]
  | cons e m =>
    simp only [List.isEmpty_cons, Bool.false_eq_true, false_iff]
    intro h
    have := h e.1
    rcases e with ⟨k, v⟩
    simp [amGet] at this

/-- The end of `bind_list` never panics. -/
theorem finish_total (rest kw : Option Str) (lhs rhs : List (Str × PNode)) (left : List PNode) (s : St)
    (hf : Fair s.order) :
    (∃ t, finish rest kw lhs rhs left s = (.ok (), t)) ∨ ∃ e t, finish rest kw lhs rhs left s = (.err e, t) := by
  by_cases hl : rest = none → left = []
  · rw [finish_eq rest kw lhs rhs left s hl]
    cases kw with
    | some name => exact Or.inl ⟨_, rfl⟩
    | none =>
      dsimp only
      split
      · exact Or.inl ⟨_, rfl⟩
      · next h =>
        obtain ⟨e, he, _⟩ := hf.firstEntry (l := removeAll lhs rhs) (by intro h'; rw [h'] at h; simp at h) s.hashes
        rw [he]
        exact Or.inr ⟨_, _, rfl⟩
  · obtain ⟨rfl, h⟩ := Classical.not_imp.1 hl
    obtain ⟨e, he⟩ := finish_excess kw lhs rhs h s
    exact Or.inr ⟨e, s, he⟩

/-! ## The loop -/

theorem kwRestOf_isSome (v : Str) : startsWith ['&', '&'] v = (kwRestOf v).isSome := by
  unfold kwRestOf startsWith
  split
  · simp [List.isPrefixOf]
  · next h =>
    rcases v with _ | ⟨c, _ | ⟨d, v⟩⟩
    · rfl
    · simp [List.isPrefixOf]
    · by_cases hc : c = '&'
      · subst hc
        by_cases hd : d = '&'
        · subst hd; exact absurd rfl (h v)
        · simp [List.isPrefixOf, Ne.symm hd]
      · simp [List.isPrefixOf, Ne.symm hc]

theorem restOf_isSome (v : Str) (hk : kwRestOf v = none) : startsWith ['&'] v = (restOf v).isSome := by
  unfold restOf startsWith
  split
  · simp [kwRestOf] at hk
  · simp [List.isPrefixOf]
  · next h =>
    rcases v with _ | ⟨c, v⟩
    · rfl
    · by_cases hc : c = '&'
      · subst hc; exact absurd rfl (h v)
      · simp [List.isPrefixOf, Ne.symm hc]

theorem isKwRest_eq (p : PNode) : isKwRest p = (kwRestName? p).isSome := by
  cases p with
  | symbol a => exact kwRestOf_isSome a.value
  | _ => rfl

theorem isRest_eq (p : PNode) (h : kwRestName? p = none) : isRest p = (restName? p).isSome := by
  cases p with
  | symbol a => exact restOf_isSome a.value h
  | _ => rfl

theorem kwRestOf_some {v r : Str} (h : kwRestOf v = some r) : v = '&' :: '&' :: r := by
  unfold kwRestOf at h
  split at h
  · rw [Option.some.inj h]
  · cases h

theorem restOf_some {v r : Str} (h : restOf v = some r) : v = '&' :: r ∧ kwRestOf v = none := by
  unfold restOf at h
  split at h
  · cases h
  · next h' =>
    obtain rfl := Option.some.inj h
    refine ⟨rfl, ?_⟩
    unfold kwRestOf
    split
    · next hv => injection hv with _ hv; exact absurd hv (h' _)
    · rfl
  · cases h

theorem kwRestName?_some {p : PNode} {r : Str} (h : kwRestName? p = some r) :
    ∃ a, p = .symbol a ∧ a.value.drop 2 = r ∧ restName? p = none := by
  cases p with
  | symbol a =>
    have hv := kwRestOf_some h
    exact ⟨a, rfl, by rw [hv]; rfl, by simp [restName?, hv, restOf]⟩
  | _ => simp [kwRestName?] at h

theorem restName?_some {p : PNode} {r : Str} (h : restName? p = some r) :
    ∃ a, p = .symbol a ∧ a.value.drop 1 = r ∧ kwRestName? p = none := by
  cases p with
  | symbol a =>
    obtain ⟨hv, hk⟩ := restOf_some h
    exact ⟨a, rfl, by rw [hv]; rfl, hk⟩
  | _ => simp [restName?] at h

/-- Binding plain patterns one after the other. -/
inductive BindsEach : List PNode → List PNode → St → St → Prop
  | nil (s : St) : BindsEach [] [] s s
  | cons (p v : PNode) (ps vs : List PNode) (s s' s'' : St) :
      bind p v s = (.ok (), s') → BindsEach ps vs s' s'' → BindsEach (p :: ps) (v :: vs) s s''

theorem toList_two {α : Type} {a b : α} {l : List α} {o : Option α} (h : a :: b :: l = o.toList) : False := by
  cases o <;> simp at h

theorem bindLoop_ok (call : PNode) : ∀ (ps : List PNode) (acc : BindAcc) (vs : List PNode) (s t : St),
    bindLoop call acc ps vs s = (.ok (), t) ↔
    ∃ front left s₁ rest kw, positional vs = front ++ left ∧ BindsEach (plainParams ps) front s s₁ ∧
      (acc.rest.map (·.drop 1)).toList ++ restNames ps = rest.toList ∧
      (acc.kwRest.map (·.drop 2)).toList ++ kwRestNames ps = kw.toList ∧
      finish rest kw (collectD acc.lhs ps) (collect acc.rhs vs) left s₁ = (.ok (), t)
  | [], acc, vs, s, t => by
    unfold bindLoop
    rw [bindEnd_eq]
    constructor
    · intro h
      exact ⟨[], positional vs, s, _, _, rfl, .nil s, by simp [restNames], by simp [kwRestNames], h⟩
    · rintro ⟨front, left, s₁, rest, kw, h1, h2, h3, h4, h5⟩
      cases h2
      have hr : rest = acc.rest.map (·.drop 1) := by
        cases hr : acc.rest <;> cases rest <;> simp_all [restNames]
      have hk : kw = acc.kwRest.map (·.drop 2) := by
        cases hr : acc.kwRest <;> cases kw <;> simp_all [kwRestNames]
      subst hr; subst hk
      rw [h1]
      exact h5
  | p :: ps, acc, vs, s, t => by
    by_cases hattr : ∃ k d si w, p = .attr k d si w
    · obtain ⟨k, d, si, w, rfl⟩ := hattr
      simp only [bindLoop, plainParams]
      rw [bindLoop_ok call ps]
      simp only [collectD, restNames, kwRestNames, List.filterMap_cons, restName?, kwRestName?]
    · have hplain : plainParams (p :: ps) =
          if (restName? p).isSome ∨ (kwRestName? p).isSome then plainParams ps else p :: plainParams ps := by
        cases p with
        | attr k d si w => exact absurd ⟨k, d, si, w, rfl⟩ hattr
        | _ => rfl
      have hcd : collectD acc.lhs (p :: ps) = collectD acc.lhs ps := by
        cases p with
        | attr k d si w => exact absurd ⟨k, d, si, w, rfl⟩ hattr
        | _ => rfl
      have hloop : bindLoop call acc (p :: ps) vs =
          if isKwRest p then
            match acc.kwRest, p.symbol? with
            | none, some a => bindLoop call { acc with kwRest := some a.value } ps vs
            | _, _ => M.fail "Found multiple nodes matching named argument &&-rest syntax." p.site
          else if isRest p then
            match acc.rest, p.symbol? with
            | none, some a => bindLoop call { acc with rest := some a.value } ps vs
            | _, _ => M.fail "Found multiple nodes matching &-rest syntax." p.site
          else
            match skipNamed acc.rhs vs with
            | (_, []) => M.fail "Too few values given." call.site
            | (rhs, v :: values) => bind p v >>= fun _ =>
              bindLoop call { acc with rhs := rhs, expected := acc.expected + 1 } ps values := by
        cases p with
        | attr k d si w => exact absurd ⟨k, d, si, w, rfl⟩ hattr
        | _ => simp only [bindLoop]; rfl
      rw [hloop, hplain, hcd, isKwRest_eq]
      cases hkw : kwRestName? p with
      | some r =>
        obtain ⟨a, rfl, ha, hr⟩ := kwRestName?_some hkw
        simp only [Option.isSome_some, if_true, or_true, PNode.symbol?]
        have e1 : restNames (.symbol a :: ps) = restNames ps := by simp [restNames, hr]
        have e2 : kwRestNames (.symbol a :: ps) = r :: kwRestNames ps := by simp [kwRestNames, hkw]
        rw [e1, e2]
        cases hacc : acc.kwRest with
        | none =>
          simp only
          rw [bindLoop_ok call ps]
          simp only [Option.map_some, Option.toList_some, ha, List.singleton_append, Option.map_none, Option.toList_none,
            List.nil_append]
        | some x =>
          constructor
          · intro h; simp [M.fail, M.lift] at h
          · rintro ⟨front, left, s₁, rest, kw, h1, h2, h3, h4, h5⟩
            simp only [Option.map_some, Option.toList_some, List.singleton_append] at h4
            exact (toList_two h4).elim
      | none =>
        simp only [Option.isSome_none, Bool.false_eq_true, if_false, or_false]
        rw [isRest_eq p hkw]
        have e2 : kwRestNames (p :: ps) = kwRestNames ps := by simp [kwRestNames, hkw]
        rw [e2]
        cases hr : restName? p with
        | some r =>
          obtain ⟨a, rfl, ha, _⟩ := restName?_some hr
          simp only [Option.isSome_some, if_true, PNode.symbol?]
          have e1 : restNames (.symbol a :: ps) = r :: restNames ps := by simp [restNames, hr]
          rw [e1]
          cases hacc : acc.rest with
          | none =>
            simp only
            rw [bindLoop_ok call ps]
            simp only [Option.map_some, Option.toList_some, ha, List.singleton_append, Option.map_none, Option.toList_none,
              List.nil_append]
          | some x =>
            constructor
            · intro h; simp [M.fail, M.lift] at h
            · rintro ⟨front, left, s₁, rest, kw, h1, h2, h3, h4, h5⟩
              simp only [Option.map_some, Option.toList_some, List.singleton_append] at h3
              exact (toList_two h3).elim
        | none =>
          have e1 : restNames (p :: ps) = restNames ps := by simp [restNames, hr]
          rw [e1]
          simp only [Option.isSome_none, Bool.false_eq_true, if_false]
          rcases skipNamed_spec vs acc.rhs with ⟨h1, h2⟩ | ⟨v, values, h1, h2, h3⟩
          · rcases hsk : skipNamed acc.rhs vs with ⟨rhs, rest⟩
            rw [hsk] at h2
            dsimp only at h2
            subst h2
            constructor
            · intro h; simp [M.fail, M.lift] at h
            · rintro ⟨front, left, s₁, rest, kw, g1, g2, _⟩
              cases g2
              rw [h1] at g1
              simp at g1
          · rcases hsk : skipNamed acc.rhs vs with ⟨rhs, rest⟩
            rw [hsk] at h1 h3
            dsimp only at h1 h3
            subst h1
            rw [h2, h3]
            dsimp only
            constructor
            · intro h
              obtain ⟨_, u, hb, hl⟩ := M.bind_eq_ok h
              obtain ⟨front, left, s₁, rest, kw, g1, g2, g3, g4, g5⟩ := (bindLoop_ok call ps _ _ _ _).1 hl
              exact ⟨v :: front, left, s₁, rest, kw, by rw [g1]; rfl, .cons _ _ _ _ _ _ _ hb g2, g3, g4, g5⟩
            · rintro ⟨front, left, s₁, rest, kw, g1, g2, g3, g4, g5⟩
              cases g2 with
              | cons _ v' _ vs' _ u _ hb g2 =>
                injection g1 with g1 g1'
                subst g1
                rw [M.bind_ok hb]
                exact (bindLoop_ok call ps _ _ _ _).2 ⟨vs', left, s₁, rest, kw, g1', g2, g3, g4, g5⟩

/-! ## Against the specification -/

theorem argOr_collect {x : Str} {d : PNode} (vs : List PNode) : argOr x d (collect [] vs) = (lastNamed x vs).getD d := by
  unfold argOr
  rw [amGet_collect]
  simp only [amGet, Option.or_none]
  cases hl : lastAttr x vs with
  | none => rw [lastAttr_none.1 hl]; rfl
  | some n =>
    obtain ⟨v, s, w, rfl, hv⟩ := lastAttr_form x hl
    rw [hv]
    rfl

theorem keysNodup_nil {β : Type} : KeysNodup ([] : List (Str × β)) := by simp [KeysNodup]

theorem amGet_left (ps vs : List PNode) (k : Str) :
    amGet k (removeAll (collectD [] ps) (collect [] vs)) = if (lastNamed k ps).isSome then none else lastAttr k vs := by
  rw [(removeAll_spec _ _ (keys_collect vs [] keysNodup_nil)).2, amGet_collectD, amGet_collect]
  simp [amGet]

theorem leftover_of_perm {ps vs : List PNode} {es : List (Str × PNode)}
    (h : es.Perm (removeAll (collectD [] ps) (collect [] vs))) : Leftover ps vs (es.map (·.2)) := by
  have hk := (removeAll_spec (collectD [] ps) _ (keys_collect vs [] keysNodup_nil)).1
  have hform : ∀ e ∈ es, ∃ v s w, e = (e.1, .attr e.1 v s w) ∧ lastAttr e.1 vs = some (.attr e.1 v s w) ∧ lastNamed e.1 ps = none := by
    intro e he
    have := amGet_of_mem hk (h.subset he)
    rw [amGet_left] at this
    split at this
    · cases this
    · next hn =>
      obtain ⟨v, s, w, h1, _⟩ := lastAttr_form _ this
      refine ⟨v, s, w, by rw [← h1], by rw [this, h1], by simpa using hn⟩
  constructor
  · intro n hn
    obtain ⟨e, he, rfl⟩ := List.mem_map.1 hn
    obtain ⟨v, s, w, h1, h2, h3⟩ := hform e he
    have h4 : e.2 = .attr e.1 v s w := by rw [h1]
    exact ⟨e.1, v, s, w, h4, by rw [h2, h4], h3⟩
  · intro k n h1 h2
    have : amGet k (removeAll (collectD [] ps) (collect [] vs)) = some n := by rw [amGet_left, h2]; simpa using h1
    exact List.mem_map.2 ⟨(k, n), h.symm.subset (amGet_mem this), rfl⟩
  · have h1 : (es.map (·.2)).map (fun n => n.attribute?.map (·.1)) = (es.map (·.1)).map some := by
      rw [List.map_map, List.map_map]
      refine List.map_congr_left fun e he => ?_
      obtain ⟨v, s, w, h1, _⟩ := hform e he
      have h4 : e.2 = .attr e.1 v s w := by rw [h1]
      simp only [Function.comp_apply, h4]
      rfl
    rw [h1]
    have h2 : (es.map (·.1)).Nodup := (List.Perm.map (fun e : Str × PNode => e.1) h).nodup_iff.2 hk
    unfold List.Nodup
    rw [List.pairwise_map]
    exact List.Pairwise.imp (fun h he => h (Option.some.inj he)) h2

theorem bind_order {p v : PNode} {s t : St} {r : Res Unit} (h : bind p v s = (r, t)) : t.order = s.order :=
  (bind_keeps advances_rel p v h).2.2.2

/-- Binding gives a scope that matching allows. -/
def Sound (p : PNode) : Prop := ∀ v s t, Fair s.order → bind p v s = (.ok (), t) → Matches p v s.scope t.scope

/-- What matches can be bound. -/
def Complete (p : PNode) : Prop := ∀ v sc sc' s, Fair s.order → Matches p v sc sc' → ∃ t, bind p v s = (.ok (), t)

theorem each_sound : ∀ {ps vs : List PNode} {s t : St}, (∀ p ∈ ps, Sound p) → Fair s.order → BindsEach ps vs s t →
    MatchesEach ps vs s.scope t.scope ∧ Fair t.order
  | [], _, _, _, _, hf, h => by cases h; exact ⟨.nil _, hf⟩
  | p :: ps, _, s, t, hp, hf, h => by
    cases h with
    | cons _ v _ vs _ s' _ hb h =>
      have hf' : Fair s'.order := bind_order hb ▸ hf
      obtain ⟨h1, h2⟩ := each_sound (fun q hq => hp q (List.mem_cons_of_mem _ hq)) hf' h
      exact ⟨.cons _ _ _ _ _ _ _ (hp p (List.mem_cons_self ..) v s s' hf hb) h1, h2⟩

theorem each_complete : ∀ {ps vs : List PNode} {sc sc' : Scope}, (∀ p ∈ ps, Complete p) → MatchesEach ps vs sc sc' →
    ∀ s : St, Fair s.order → ∃ t, BindsEach ps vs s t ∧ Fair t.order
  | [], _, _, _, _, h, s, hf => by cases h; exact ⟨s, .nil s, hf⟩
  | p :: ps, _, _, _, hp, h, s, hf => by
    cases h with
    | cons _ v _ vs _ sc' _ hb h =>
      obtain ⟨s', hs'⟩ := hp p (List.mem_cons_self ..) v _ _ s hf hb
      have hf' : Fair s'.order := bind_order hs' ▸ hf
      obtain ⟨t, h1, h2⟩ := each_complete (fun q hq => hp q (List.mem_cons_of_mem _ hq)) h s' hf'
      exact ⟨t, .cons _ _ _ _ _ _ _ hs' h1, h2⟩

theorem plainParams_sub : ∀ (ps : List PNode), ∀ p ∈ plainParams ps, p ∈ ps
  | [], p, h => by simp [plainParams] at h
  | q :: ps, p, h => by
    cases q with
    | attr k d s w =>
      simp only [plainParams] at h
      exact List.mem_cons_of_mem _ (plainParams_sub ps p h)
    | _ =>
      simp only [plainParams] at h
      split at h
      · exact List.mem_cons_of_mem _ (plainParams_sub ps p h)
      · rcases List.mem_cons.1 h with rfl | h
        · exact List.mem_cons_self ..
        · exact List.mem_cons_of_mem _ (plainParams_sub ps p h)

theorem toList_cases {o : Option Str} {l : List Str} (h : l = o.toList) :
    (o = none ∧ l = []) ∨ ∃ r, o = some r ∧ l = [r] := by
  cases o with
  | none => exact Or.inl ⟨rfl, h⟩
  | some r => exact Or.inr ⟨r, rfl, h⟩

theorem bindList_sound {call : PNode} {ps : List PNode} (hps : ∀ p ∈ ps, Sound p) (vs : List PNode) {s t : St}
    (hf : Fair s.order) (h : bindLoop call BindAcc.init ps vs s = (.ok (), t)) : MatchesList ps vs s.scope t.scope := by
  obtain ⟨front, left, s₁, rest, kw, h1, h2, h3, h4, h5⟩ := (bindLoop_ok call ps _ vs s t).1 h
  obtain ⟨h2, hf₁⟩ := each_sound (fun p hp => hps p (plainParams_sub ps p hp)) hf h2
  have h3 : restNames ps = rest.toList := by simpa [BindAcc.init] using h3
  have h4 : kwRestNames ps = kw.toList := by simpa [BindAcc.init] using h4
  have hl : rest = none → left = [] := by
    rintro rfl
    apply Classical.byContradiction
    intro hne
    obtain ⟨e, he⟩ := finish_excess kw (collectD BindAcc.init.lhs ps) (collect BindAcc.init.rhs vs) hne s₁
    rw [he] at h5
    simp at h5
  have h5 : finish rest kw (collectD [] ps) (collect [] vs) left s₁ = (.ok (), t) := h5
  rw [finish_eq rest kw _ _ left s₁ hl] at h5
  have hnamed : ∀ x, namedScope (collectD [] ps) (collect [] vs) (restScope left s₁.scope rest) x =
      match lastNamed x ps with
        | some d => some { params := [], body := [(lastNamed x vs).getD d] }
        | none => restScope left s₁.scope rest x := by
    intro x
    rw [namedScope_spec x _ _ _ (keys_collectD ps [] keysNodup_nil) (keys_collect vs [] keysNodup_nil), amGet_collectD]
    simp only [amGet, Option.or_none]
    cases lastNamed x ps with
    | none => rfl
    | some d => dsimp only; rw [argOr_collect]; rfl
  refine .mk ps vs front left _ s₁.scope (restScope left s₁.scope rest) _ _ h1 h2 ?_ hnamed ?_
  · rcases toList_cases h3 with ⟨rfl, hr⟩ | ⟨r, rfl, hr⟩
    · exact Or.inl ⟨hr, hl rfl, rfl⟩
    · exact Or.inr ⟨r, hr, rfl⟩
  · rcases toList_cases h4 with ⟨rfl, hr⟩ | ⟨r, rfl, hr⟩
    · dsimp only at h5
      by_cases he : (removeAll (collectD [] ps) (collect [] vs)).isEmpty = true
      · rw [if_pos he] at h5
        obtain ⟨_, rfl⟩ := Prod.mk.inj h5
        refine Or.inl ⟨hr, fun k hk => ?_, rfl⟩
        have := (isEmpty_iff_amGet _).1 he k
        rw [amGet_left, hk] at this
        exact lastAttr_none.1 (by simpa using this)
      · rw [if_neg he] at h5
        cases hh : (s₁.order s₁.hashes (removeAll (collectD [] ps) (collect [] vs))).head? with
        | none => rw [hh] at h5; simp at h5
        | some e => rw [hh] at h5; simp at h5
    · dsimp only at h5
      obtain ⟨_, rfl⟩ := Prod.mk.inj h5
      exact Or.inr ⟨r, _, hr, leftover_of_perm (hf₁ _ _), rfl⟩

theorem bindList_complete (call : PNode) {ps : List PNode} (hps : ∀ p ∈ ps, Complete p) {vs : List PNode}
    {sc sc' : Scope} (h : MatchesList ps vs sc sc') (s : St) (hf : Fair s.order) :
    ∃ t, bindLoop call BindAcc.init ps vs s = (.ok (), t) := by
  cases h with
  | mk _ _ front left _ sc₁ sc₂ sc₃ _ h1 h2 h3 h4 h5 =>
    obtain ⟨s₁, h2, hf₁⟩ := each_complete (fun p hp => hps p (plainParams_sub ps p hp)) h2 s hf
    have hr : ∃ rest : Option Str, restNames ps = rest.toList ∧ (rest = none → left = []) := by
      rcases h3 with ⟨h, h', _⟩ | ⟨r, h, _⟩
      · exact ⟨none, h, fun _ => h'⟩
      · exact ⟨some r, h, fun h => by cases h⟩
    obtain ⟨rest, hr, hl⟩ := hr
    have hk : ∃ kw : Option Str, kwRestNames ps = kw.toList ∧
        (kw = none → (removeAll (collectD [] ps) (collect [] vs)).isEmpty = true) := by
      rcases h5 with ⟨h, h', _⟩ | ⟨r, es, h, _⟩
      · refine ⟨none, h, fun _ => (isEmpty_iff_amGet _).2 fun k => ?_⟩
        rw [amGet_left]
        cases hn : lastNamed k ps with
        | some d => rfl
        | none => exact lastAttr_none.2 (h' k hn)
      · exact ⟨some r, h, fun h => by cases h⟩
    obtain ⟨kw, hk, he⟩ := hk
    have hfin : ∃ t, finish rest kw (collectD [] ps) (collect [] vs) left s₁ = (.ok (), t) := by
      rw [finish_eq rest kw _ _ left s₁ hl]
      cases kw with
      | some r => exact ⟨_, rfl⟩
      | none =>
        dsimp only
        rw [if_pos (he rfl)]
        exact ⟨_, rfl⟩
    obtain ⟨t, ht⟩ := hfin
    exact ⟨t, (bindLoop_ok call ps _ vs s t).2
      ⟨front, left, s₁, rest, kw, h1, h2, by simpa [BindAcc.init] using hr, by simpa [BindAcc.init] using hk, ht⟩⟩

mutual
theorem bind_sound : ∀ (p : PNode), Sound p
  | .attr k0 n0 s0 w0 => by
    intro v s t hf h
    unfold bind at h
    split at h
    · split at h
      · next hk =>
        subst hk
        exact .attr _ _ _ _ _ _ _ _ _ (bind_sound n0 _ s t hf h)
      · simp [M.fail, M.lift] at h
    · simp [M.fail, M.lift] at h
  | .list ns0 s0 e0 w0 => by
    intro v s t hf h
    unfold bind at h
    split at h
    · exact .list _ _ _ _ _ _ _ _ _ _ (bindList_sound (binds_sound ns0) _ hf h)
    · simp [M.fail, M.lift] at h
  | .symbol a => by
    intro v s t hf h
    unfold bind at h
    rw [M.define_def] at h
    obtain ⟨_, rfl⟩ := Prod.mk.inj h
    dsimp only
    rw [insert_bound]
    exact .symbol a v _
  | .number a => by
    intro v s t hf h
    unfold bind at h
    split at h
    · split at h
      · next hv =>
        obtain ⟨_, rfl⟩ := Prod.mk.inj h
        exact .number _ _ _ hv
      · simp [M.fail, M.lift] at h
    · simp [M.fail, M.lift] at h
  | .string a => by
    intro v s t hf h
    unfold bind at h
    split at h
    · split at h
      · next hv =>
        obtain ⟨_, rfl⟩ := Prod.mk.inj h
        exact .string _ _ _ _ _ (Or.inl rfl) (Or.inl rfl) hv
      · simp [M.fail, M.lift] at h
    · split at h
      · next hv =>
        obtain ⟨_, rfl⟩ := Prod.mk.inj h
        exact .string _ _ _ _ _ (Or.inl rfl) (Or.inr rfl) hv
      · simp [M.fail, M.lift] at h
    · simp [M.fail, M.lift] at h
  | .raw a => by
    intro v s t hf h
    unfold bind at h
    split at h
    · split at h
      · next hv =>
        obtain ⟨_, rfl⟩ := Prod.mk.inj h
        exact .string _ _ _ _ _ (Or.inr rfl) (Or.inl rfl) hv
      · simp [M.fail, M.lift] at h
    · split at h
      · next hv =>
        obtain ⟨_, rfl⟩ := Prod.mk.inj h
        exact .string _ _ _ _ _ (Or.inr rfl) (Or.inr rfl) hv
      · simp [M.fail, M.lift] at h
    · simp [M.fail, M.lift] at h
theorem binds_sound : ∀ (ps : List PNode), ∀ p ∈ ps, Sound p
  | [], _, h => by simp at h
  | q :: ps, p, h => by
    have h1 := bind_sound q
    have h2 := binds_sound ps
    rcases List.mem_cons.1 h with rfl | h
    · exact h1
    · exact h2 p h
end

mutual
theorem bind_complete : ∀ (p : PNode), Complete p
  | .attr k0 n0 s0 w0 => by
    intro v sc sc' s hf h
    cases h with
    | attr _ _ v s s' w w' _ _ h =>
      obtain ⟨t, ht⟩ := bind_complete n0 _ _ _ _ hf h
      exact ⟨t, by simp only [bind, if_true]; exact ht⟩
    | string _ _ _ _ _ h => rcases h with h | h <;> cases h
  | .list ns0 s0 e0 w0 => by
    intro v sc sc' s hf h
    cases h with
    | list _ vs _ s' _ e' _ w' _ _ h =>
      obtain ⟨t, ht⟩ := bindList_complete (.list vs s' e' w') (binds_complete ns0) h s hf
      exact ⟨t, by simp only [bind]; exact ht⟩
    | string _ _ _ _ _ h => rcases h with h | h <;> cases h
  | .symbol a => by
    intro v sc sc' s hf h
    exact ⟨_, by unfold bind; exact M.define_def _ _ _⟩
  | .number a => by
    intro v sc sc' s hf h
    cases h with
    | number _ b _ h => exact ⟨s, by simp only [bind, h, if_true]; rfl⟩
    | string _ _ _ _ _ h => rcases h with h | h <;> cases h
  | .string a => by
    intro v sc sc' s hf h
    cases h with
    | string _ _ a b _ h h' hv =>
      rcases h with h | h
      · cases h
        rcases h' with rfl | rfl
        · exact ⟨s, by simp only [bind, hv, if_true]; rfl⟩
        · exact ⟨s, by simp only [bind, hv, if_true]; rfl⟩
      · cases h
  | .raw a => by
    intro v sc sc' s hf h
    cases h with
    | string _ _ a b _ h h' hv =>
      rcases h with h | h
      · cases h
      · cases h
        rcases h' with rfl | rfl
        · exact ⟨s, by simp only [bind, hv, if_true]; rfl⟩
        · exact ⟨s, by simp only [bind, hv, if_true]; rfl⟩
theorem binds_complete : ∀ (ps : List PNode), ∀ p ∈ ps, Complete p
  | [], _, h => by simp at h
  | q :: ps, p, h => by
    have h1 := bind_complete q
    have h2 := binds_complete ps
    rcases List.mem_cons.1 h with rfl | h
    · exact h1
    · exact h2 p h
end

/-- A computation that neither panics nor runs out of fuel. -/
def Total (m : M Unit) : Prop := ∀ s, Fair s.order → (∃ t, m s = (.ok (), t)) ∨ ∃ e t, m s = (.err e, t)

theorem total_lift_ok : Total (pure ()) := fun s _ => Or.inl ⟨s, rfl⟩
theorem total_fail (msg : String) (site : Site) : Total (M.fail msg site) := fun s _ => Or.inr ⟨_, s, rfl⟩

mutual
theorem bind_total : ∀ (p : PNode), ∀ v, Total (bind p v)
  | .attr k0 n0 _ _, v => by
    have hrec := bind_total n0
    unfold bind
    repeat' split
    all_goals first | exact hrec _ | exact total_fail _ _
  | .list ns0 _ _ _, v => by
    have hrec := bindLoop_total ns0
    unfold bind
    repeat' split
    all_goals first | exact hrec _ _ _ | exact total_fail _ _
  | .symbol a, v => by unfold bind; exact fun s _ => Or.inl ⟨_, M.define_def _ _ s⟩
  | .number a, v => by
    unfold bind
    repeat' split
    all_goals first | exact total_lift_ok | exact total_fail _ _
  | .string a, v => by
    unfold bind
    repeat' split
    all_goals first | exact total_lift_ok | exact total_fail _ _
  | .raw a, v => by
    unfold bind
    repeat' split
    all_goals first | exact total_lift_ok | exact total_fail _ _
theorem bindLoop_total : ∀ (ps : List PNode) (assigned : PNode) (acc : BindAcc) (vs : List PNode),
    Total (bindLoop assigned acc ps vs)
  | [], assigned, acc, vs => by
    unfold bindLoop
    rw [bindEnd_eq]
    exact fun s hf => finish_total _ _ _ _ _ s hf
  | p :: ps, assigned, acc, vs => by
    have h1 := bind_total p
    have h2 := bindLoop_total ps
    have hseq : ∀ v acc' vs', Total (bind p v >>= fun _ => bindLoop assigned acc' ps vs') := by
      intro v acc' vs' s hf
      rcases h1 v s hf with ⟨t, ht⟩ | ⟨e, t, ht⟩
      · rw [M.bind_ok ht]
        exact h2 _ _ _ t (bind_order ht ▸ hf)
      · rw [M.bind_err ht]
        exact Or.inr ⟨e, t, rfl⟩
    cases p <;> simp only [bindLoop]
    case attr => exact h2 _ _ _
    all_goals
      repeat' split
      all_goals first | exact h2 _ _ _ | exact total_fail _ _ | exact hseq _ _ _
end

end Seam
