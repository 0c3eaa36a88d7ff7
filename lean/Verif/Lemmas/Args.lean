import Verif.Lemmas.Bind
import Verif.Lemmas.Macros
import Verif.Spec.Args

/-! Argument checking against its specification. -/

namespace Seam
open Spec

theorem checkAll_iff (ps : List ArgPred) (n : PNode) : checkAll ps n = .ok () ↔ Satisfies ps n := by
  have hc : ∀ p : ArgPred, p.check n = true ↔ (match p with
      | .exactly v => ∃ a, Literal n a ∧ a.value = v
      | .matching re => ∃ a, Literal n a ∧ re a.value = true
      | .satisfying test => test n = true) := by
    intro p
    cases p with
    | exactly v =>
      simp only [ArgPred.check]
      cases h : n.atomic? with
      | none => simp [literal_iff, h]
      | some a => simp [literal_iff, h]
    | matching re =>
      simp only [ArgPred.check]
      cases h : n.atomic? with
      | none => simp [literal_iff, h]
      | some a => simp [literal_iff, h]
    | satisfying test => exact Iff.rfl
  unfold checkAll Satisfies
  cases ps with
  | nil => simp
  | cons p ps =>
    simp only [List.isEmpty_cons, Bool.false_eq_true, if_false, List.any_eq_true]
    constructor
    · intro h
      split at h
      · next hx =>
        obtain ⟨q, hq, hq'⟩ := hx
        exact Or.inr ⟨q, hq, (hc q).1 hq'⟩
      · cases h
    · rintro (h | ⟨q, hq, hq'⟩)
      · cases h
      · rw [if_pos ⟨q, hq, (hc q).2 hq'⟩]

theorem checkAll_cases (ps : List ArgPred) (n : PNode) : checkAll ps n = .ok () ∨ ∃ e, checkAll ps n = .err e := by
  unfold checkAll
  repeat' split
  · exact Or.inl rfl
  · exact Or.inl rfl
  · exact Or.inr ⟨_, rfl⟩

/-- An outcome that is `ok ()` exactly if the proposition holds, and an error otherwise. -/
def Decides (r : Res Unit) (p : Prop) : Prop := (r = .ok () ∧ p) ∨ (∃ e, r = .err e) ∧ ¬ p

theorem checkAll_decides {ps : List ArgPred} {n : PNode} {p : Prop} (h : p ↔ Satisfies ps n) : Decides (checkAll ps n) p := by
  rcases checkAll_cases ps n with h' | ⟨e, h'⟩
  · exact Or.inl ⟨h', h.2 ((checkAll_iff ps n).1 h')⟩
  · refine Or.inr ⟨⟨e, h'⟩, fun hp => ?_⟩
    rw [(checkAll_iff ps n).2 (h.1 hp)] at h'
    cases h'

theorem haveTypes_length : ∀ (ts : List ArgType) (ns : List PNode), HaveTypes ts ns → ns.length = ts.length
  | [], ns, h => by cases h; rfl
  | t :: ts, ns, h => by
    cases h with
    | cons _ n _ ns _ h => simp [haveTypes_length ts ns h]

mutual
theorem check_decides : ∀ (t : ArgType) (n : PNode), Decides (ArgType.check t n) (HasType t n)
  | t, .symbol n => by
    unfold ArgType.check
    split
    · exact checkAll_decides ⟨fun h => by cases h; assumption, .literal _ _ n (.symbol n)⟩
    · exact checkAll_decides ⟨fun h => by cases h; assumption, .symbol _ _⟩
    · exact checkAll_decides ⟨fun h => by cases h; assumption, .symbolic _ _ n (Or.inl rfl)⟩
    · exact checkAll_decides ⟨fun h => by cases h; assumption, .any _ _⟩
    · refine Or.inr ⟨⟨_, rfl⟩, fun h => ?_⟩
      cases h <;> simp_all
  | t, .string n => by
    unfold ArgType.check
    split
    · exact checkAll_decides ⟨fun h => by cases h; assumption, .literal _ _ n (.string n)⟩
    · exact checkAll_decides ⟨fun h => by cases h; assumption, .string _ _⟩
    · exact checkAll_decides ⟨fun h => by cases h; assumption, .any _ _⟩
    · refine Or.inr ⟨⟨_, rfl⟩, fun h => ?_⟩
      cases h <;> simp_all
  | t, .raw n => by
    unfold ArgType.check
    split
    · exact checkAll_decides ⟨fun h => by cases h; assumption, .literal _ _ n (.raw n)⟩
    · exact checkAll_decides ⟨fun h => by cases h; assumption, .raw _ _⟩
    · exact checkAll_decides ⟨fun h => by cases h; assumption, .any _ _⟩
    · refine Or.inr ⟨⟨_, rfl⟩, fun h => ?_⟩
      cases h <;> simp_all
  | t, .number n => by
    unfold ArgType.check
    split
    · exact checkAll_decides ⟨fun h => by cases h; assumption, .literal _ _ n (.number n)⟩
    · exact checkAll_decides ⟨fun h => by cases h; assumption, .symbolic _ _ n (Or.inr rfl)⟩
    · exact checkAll_decides ⟨fun h => by cases h; assumption, .number _ _⟩
    · exact checkAll_decides ⟨fun h => by cases h; assumption, .any _ _⟩
    · refine Or.inr ⟨⟨_, rfl⟩, fun h => ?_⟩
      cases h <;> simp_all
  | .list ts, .list ns s e w => by
    unfold ArgType.check
    have hz := checkZip_decides ts ns
    by_cases hl : (ts.length != 0 && ns.length != ts.length) = true
    · rw [if_pos hl]
      refine Or.inr ⟨⟨_, rfl⟩, fun h => ?_⟩
      simp only [Bool.and_eq_true, bne_iff_ne] at hl
      cases h with
      | anyList => simp at hl
      | list _ _ _ _ _ h => exact hl.2 (haveTypes_length _ _ h)
    · rw [if_neg hl]
      cases ts with
      | nil =>
        refine Or.inl ⟨?_, .anyList ns s e w⟩
        unfold ArgType.checkZip
        cases ns <;> rfl
      | cons t ts =>
        have hl : ns.length = (t :: ts).length := by simpa using hl
        rcases hz hl with ⟨h1, h2⟩ | ⟨h1, h2⟩
        · exact Or.inl ⟨h1, .list _ _ _ _ _ h2⟩
        · refine Or.inr ⟨h1, fun h => h2 ?_⟩
          cases h with
          | list _ _ _ _ _ h => exact h
  | .any p, .list ns s e w => by
    unfold ArgType.check
    exact checkAll_decides ⟨fun h => by cases h; assumption, .any _ _⟩
  | .literal p, .list ns s e w => Or.inr ⟨⟨_, rfl⟩, fun h => by cases h with | literal _ _ _ h => cases h⟩
  | .string p, .list ns s e w => Or.inr ⟨⟨_, rfl⟩, fun h => by cases h⟩
  | .symbol p, .list ns s e w => Or.inr ⟨⟨_, rfl⟩, fun h => by cases h⟩
  | .number p, .list ns s e w => Or.inr ⟨⟨_, rfl⟩, fun h => by cases h⟩
  | .symbolic p, .list ns s e w => Or.inr ⟨⟨_, rfl⟩, fun h => by
      cases h with | symbolic _ _ _ h => rcases h with h | h <;> cases h⟩
  | .any p, .attr k v s w => by
    unfold ArgType.check
    exact checkAll_decides ⟨fun h => by cases h; assumption, .any _ _⟩
  | .literal p, .attr k v s w => Or.inr ⟨⟨_, rfl⟩, fun h => by cases h with | literal _ _ _ h => cases h⟩
  | .string p, .attr k v s w => Or.inr ⟨⟨_, rfl⟩, fun h => by cases h⟩
  | .symbol p, .attr k v s w => Or.inr ⟨⟨_, rfl⟩, fun h => by cases h⟩
  | .number p, .attr k v s w => Or.inr ⟨⟨_, rfl⟩, fun h => by cases h⟩
  | .list ts, .attr k v s w => Or.inr ⟨⟨_, rfl⟩, fun h => by cases h⟩
  | .symbolic p, .attr k v s w => Or.inr ⟨⟨_, rfl⟩, fun h => by
      cases h with | symbolic _ _ _ h => rcases h with h | h <;> cases h⟩
theorem checkZip_decides : ∀ (ts : List ArgType) (ns : List PNode), ns.length = ts.length →
    Decides (ArgType.checkZip ts ns) (HaveTypes ts ns)
  | [], ns, h => by
    cases ns with
    | nil => exact Or.inl ⟨by unfold ArgType.checkZip; rfl, .nil⟩
    | cons => simp at h
  | t :: ts, [], h => by simp at h
  | t :: ts, n :: ns, h => by
    have h1 := check_decides t n
    have h2 := checkZip_decides ts ns (by simpa using h)
    unfold ArgType.checkZip
    rcases h1 with ⟨h1, h1'⟩ | ⟨⟨e, h1⟩, h1'⟩
    · rw [h1]
      show Decides (ArgType.checkZip ts ns) _
      rcases h2 with ⟨h2, h2'⟩ | ⟨h2, h2'⟩
      · exact Or.inl ⟨h2, .cons _ _ _ _ h1' h2'⟩
      · refine Or.inr ⟨h2, fun h => h2' ?_⟩
        cases h with
        | cons _ _ _ _ _ h => exact h
    · rw [h1]
      refine Or.inr ⟨⟨e, rfl⟩, fun h => h1' ?_⟩
      cases h with
      | cons _ _ _ _ h _ => exact h
end

theorem check_iff (t : ArgType) (n : PNode) : ArgType.check t n = .ok () ↔ HasType t n := by
  rcases check_decides t n with ⟨h1, h2⟩ | ⟨⟨e, h1⟩, h2⟩
  · simp [h1, h2]
  · simp [h1, h2]

theorem check_err {t : ArgType} {n : PNode} (h : ¬ HasType t n) : ∃ e, ArgType.check t n = .err e := by
  rcases check_decides t n with ⟨h1, h2⟩ | ⟨⟨e, h1⟩, h2⟩
  · exact absurd h2 h
  · exact ⟨e, h1⟩

/-! ## The loop -/

/-- Position and value of an argument, and the number of positional arguments so far. -/
def placeOf (i : Nat) : PNode → (ArgPos × PNode × PNode) × Nat
  | .attr k n s w => ((.str k, n, .attr k n s w), i)
  | v => ((.int (i + 1), v, v), i + 1)

theorem places_cons (i : Nat) (v : PNode) (vs : List PNode) :
    places i (v :: vs) = (placeOf i v).1 :: places (placeOf i v).2 vs := by
  cases v <;> rfl

theorem rulesOf_find (es : List Entry) (p : ArgPos) : (rulesOf es).find? (fun r => r.pattern p) =
    (es.find? fun e => e.pos == p).map fun e => { pattern := fun p => p == e.pos, mandatory := e.mandatory, type := e.type } := by
  induction es with
  | nil => rfl
  | cons e es ih =>
    simp only [rulesOf, List.map_cons, List.find?_cons] at ih ⊢
    by_cases h : e.pos = p
    · simp [h]
    · simp only [beq_eq_false_iff_ne.2 h, beq_eq_false_iff_ne.2 (Ne.symm h)]
      exact ih

theorem find_entry {es : List Entry} (h : (es.map (·.pos)).Nodup) {e : Entry} (he : e ∈ es) :
    es.find? (fun e' => e'.pos == e.pos) = some e := by
  induction es with
  | nil => simp at he
  | cons e' es ih =>
    rw [List.map_cons, List.nodup_cons] at h
    rcases List.mem_cons.1 he with rfl | he'
    · simp
    · have : e'.pos ≠ e.pos := fun h' => h.1 (h' ▸ List.mem_map.2 ⟨e, he', rfl⟩)
      rw [List.find?_cons, beq_eq_false_iff_ne.2 this]
      exact ih h.2 he'

/-- The parser after an argument at a declared place. -/
def ArgParser.put (p : ArgParser) (pos : ArgPos) (v : PNode) : ArgParser :=
  match pos with
  | .int i => { p with positional := amInsert i v p.positional }
  | .str k => { p with named := amInsert k v p.named }

theorem argStep_some {es : List Entry} {tr : Option ArgType} {st : ArgLoop} {v : PNode} {e : Entry}
    (h : es.find? (fun e => e.pos == (placeOf st.position v).1.1) = some e) :
    argStep { patterns := rulesOf es, trailing := tr } st v =
      (ArgType.check e.type (placeOf st.position v).1.2.1 >>= fun _ => .ok
        { parser := st.parser.put (placeOf st.position v).1.1 (placeOf st.position v).1.2.1,
          position := (placeOf st.position v).2,
          count := if e.mandatory then st.count + 1 else st.count }) := by
  unfold argStep
  cases v <;> simp only [placeOf] at h ⊢ <;> rw [rulesOf_find, h] <;> rfl

theorem argStep_none {es : List Entry} {tr : Option ArgType} {st : ArgLoop} {v : PNode}
    (h : es.find? (fun e => e.pos == (placeOf st.position v).1.1) = none) :
    argStep { patterns := rulesOf es, trailing := tr } st v =
      match tr with
      | some t => ArgType.check t v >>= fun _ => .ok
        { parser := { st.parser with trailing := st.parser.trailing ++ [v] },
          position := (placeOf st.position v).2, count := st.count }
      | none => .err (expErr "Unexpected argument." v.site) := by
  unfold argStep
  cases v <;> simp only [placeOf] at h ⊢ <;> rw [rulesOf_find, h] <;> cases tr <;> rfl

/-- The loop state after an acceptable argument. -/
def afterArg (es : List Entry) (st : ArgLoop) (v : PNode) : ArgLoop :=
  match es.find? (fun e => e.pos == (placeOf st.position v).1.1) with
  | some e =>
    { parser := st.parser.put (placeOf st.position v).1.1 (placeOf st.position v).1.2.1,
      position := (placeOf st.position v).2,
      count := if e.mandatory then st.count + 1 else st.count }
  | none =>
    { parser := { st.parser with trailing := st.parser.trailing ++ [v] },
      position := (placeOf st.position v).2, count := st.count }

/-- The argument is acceptable. -/
def Fits (es : List Entry) (tr : Option ArgType) (x : ArgPos × PNode × PNode) : Prop :=
  (∀ e ∈ es, e.pos = x.1 → HasType e.type x.2.1) ∧
  ((∀ e ∈ es, e.pos ≠ x.1) → ∃ t, tr = some t ∧ HasType t x.2.2)

theorem placeOf_node (i : Nat) (v : PNode) : (placeOf i v).1.2.2 = v := by cases v <;> rfl

theorem find_pos {es : List Entry} {p : ArgPos} {e : Entry} (h : es.find? (fun e => e.pos == p) = some e) :
    e ∈ es ∧ e.pos = p := by
  have := List.find?_some h
  exact ⟨List.mem_of_find?_eq_some h, by simpa using this⟩

theorem argStep_cases {es : List Entry} (hd : (es.map (·.pos)).Nodup) (tr : Option ArgType) (st : ArgLoop) (v : PNode) :
    (argStep { patterns := rulesOf es, trailing := tr } st v = .ok (afterArg es st v) ∧ Fits es tr (placeOf st.position v).1) ∨
    ((∃ e, argStep { patterns := rulesOf es, trailing := tr } st v = .err e) ∧ ¬ Fits es tr (placeOf st.position v).1) := by
  unfold afterArg
  cases h : es.find? (fun e => e.pos == (placeOf st.position v).1.1) with
  | some e =>
    rw [argStep_some h]
    obtain ⟨h1, h2⟩ := find_pos h
    rcases check_decides e.type (placeOf st.position v).1.2.1 with ⟨h3, h4⟩ | ⟨⟨er, h3⟩, h4⟩
    · rw [h3]
      refine Or.inl ⟨rfl, fun e' he' hp => ?_, fun hn => absurd h2 (hn e h1)⟩
      have := find_entry hd he'
      rw [hp, h] at this
      cases this
      exact h4
    · rw [h3]
      exact Or.inr ⟨⟨er, rfl⟩, fun hf => h4 (hf.1 e h1 h2)⟩
  | none =>
    rw [argStep_none h]
    have hn : ∀ e ∈ es, e.pos ≠ (placeOf st.position v).1.1 := by
      intro e he
      have := List.find?_eq_none.1 h e he
      simpa using this
    cases tr with
    | none =>
      refine Or.inr ⟨⟨_, rfl⟩, fun hf => ?_⟩
      obtain ⟨t, ht, _⟩ := hf.2 hn
      cases ht
    | some t =>
      dsimp only
      rcases check_decides t v with ⟨h3, h4⟩ | ⟨⟨er, h3⟩, h4⟩
      · rw [h3]
        exact Or.inl ⟨rfl, fun e he hp => absurd hp (hn e he), fun _ => ⟨t, rfl, by rw [placeOf_node]; exact h4⟩⟩
      · rw [h3]
        refine Or.inr ⟨⟨er, rfl⟩, fun hf => h4 ?_⟩
        obtain ⟨t', ht, h5⟩ := hf.2 hn
        cases ht
        rwa [placeOf_node] at h5

theorem afterArg_position (es : List Entry) (st : ArgLoop) (v : PNode) :
    (afterArg es st v).position = (placeOf st.position v).2 := by
  unfold afterArg
  split <;> rfl

theorem argLoop_cases {es : List Entry} (hd : (es.map (·.pos)).Nodup) (tr : Option ArgType) : ∀ (vs : List PNode) (st : ArgLoop),
    (argLoop { patterns := rulesOf es, trailing := tr } st vs = .ok (vs.foldl (afterArg es) st) ∧
      ∀ x ∈ places st.position vs, Fits es tr x) ∨
    ((∃ e, argLoop { patterns := rulesOf es, trailing := tr } st vs = .err e) ∧
      ¬ ∀ x ∈ places st.position vs, Fits es tr x)
  | [], st => Or.inl ⟨rfl, fun x hx => by simp [places] at hx⟩
  | v :: vs, st => by
    unfold argLoop
    rw [places_cons]
    rcases argStep_cases hd tr st v with ⟨h1, h2⟩ | ⟨⟨e, h1⟩, h2⟩
    · rw [h1]
      rcases argLoop_cases hd tr vs (afterArg es st v) with ⟨h3, h4⟩ | ⟨h3, h4⟩
      · rw [afterArg_position] at h4
        exact Or.inl ⟨h3, List.forall_mem_cons.2 ⟨h2, h4⟩⟩
      · rw [afterArg_position] at h4
        exact Or.inr ⟨h3, fun h => h4 (List.forall_mem_cons.1 h).2⟩
    · rw [h1]
      exact Or.inr ⟨⟨e, rfl⟩, fun h => h2 (List.forall_mem_cons.1 h).1⟩

/-! ## What the parser holds -/

/-- The place is declared. -/
def declaredAt (es : List Entry) (p : ArgPos) : Bool := es.any fun e => e.pos == p

theorem afterArg_yes {es : List Entry} {st : ArgLoop} {v : PNode} (hd : declaredAt es (placeOf st.position v).1.1 = true) :
    (afterArg es st v).parser = st.parser.put (placeOf st.position v).1.1 (placeOf st.position v).1.2.1 := by
  unfold afterArg
  cases h : es.find? (fun e => e.pos == (placeOf st.position v).1.1) with
  | some e => rfl
  | none =>
    obtain ⟨e, h1, h2⟩ := List.any_eq_true.1 hd
    exact absurd h2 (List.find?_eq_none.1 h e h1)

theorem afterArg_no {es : List Entry} {st : ArgLoop} {v : PNode} (hd : declaredAt es (placeOf st.position v).1.1 = false) :
    (afterArg es st v).parser = { st.parser with trailing := st.parser.trailing ++ [v] } := by
  unfold afterArg
  cases h : es.find? (fun e => e.pos == (placeOf st.position v).1.1) with
  | some e =>
    obtain ⟨h1, h2⟩ := find_pos h
    have : declaredAt es (placeOf st.position v).1.1 = true := List.any_eq_true.2 ⟨e, h1, by simpa using h2⟩
    rw [hd] at this
    cases this
  | none => rfl

theorem afterArg_attr (es : List Entry) (st : ArgLoop) (k : Str) (n : PNode) (s : Site) (w : Str) :
    (afterArg es st (.attr k n s w)).parser.named =
      (if declaredAt es (.str k) = true then amInsert k n st.parser.named else st.parser.named) ∧
    (afterArg es st (.attr k n s w)).parser.positional = st.parser.positional := by
  cases h : declaredAt es (.str k) with
  | true => rw [afterArg_yes h, if_pos rfl]; exact ⟨rfl, rfl⟩
  | false => rw [afterArg_no h, if_neg (by simp)]; exact ⟨rfl, rfl⟩

theorem afterArg_plain (es : List Entry) (st : ArgLoop) (v : PNode) (hv : v.attribute? = none) :
    (afterArg es st v).parser.named = st.parser.named ∧
    (afterArg es st v).parser.positional =
      (if declaredAt es (.int (st.position + 1)) = true then amInsert (st.position + 1) v st.parser.positional
       else st.parser.positional) := by
  have hp : placeOf st.position v = ((.int (st.position + 1), v, v), st.position + 1) := by
    cases v <;> first | rfl | simp [PNode.attribute?] at hv
  cases h : declaredAt es (.int (st.position + 1)) with
  | true => rw [afterArg_yes (by rw [hp]; exact h), if_pos rfl, hp]; exact ⟨rfl, rfl⟩
  | false => rw [afterArg_no (by rw [hp]; exact h), if_neg (by simp)]; exact ⟨rfl, rfl⟩

theorem plain_cases (v : PNode) : (∃ k n s w, v = .attr k n s w) ∨
    (v.attribute? = none ∧ (∀ vs, positional (v :: vs) = v :: positional vs) ∧
      (∀ k vs, lastNamed k (v :: vs) = lastNamed k vs) ∧ ∀ i, (placeOf i v).2 = i + 1) := by
  cases v with
  | attr k n s w => exact Or.inl ⟨k, n, s, w, rfl⟩
  | _ => exact Or.inr ⟨rfl, fun _ => rfl, fun _ _ => rfl, fun _ => rfl⟩

theorem parser_named (es : List Entry) (k : Str) : ∀ (vs : List PNode) (st : ArgLoop),
    amGet k (vs.foldl (afterArg es) st).parser.named =
      if declaredAt es (.str k) then (lastNamed k vs).or (amGet k st.parser.named) else amGet k st.parser.named
  | [], st => by simp [lastNamed]
  | v :: vs, st => by
    rw [List.foldl_cons, parser_named es k vs]
    rcases plain_cases v with ⟨k', n, s, w, rfl⟩ | ⟨h1, h2, h3, h4⟩
    · rw [(afterArg_attr es st k' n s w).1]
      simp only [lastNamed]
      by_cases hk : k' = k
      · subst hk
        by_cases hd : declaredAt es (.str k') = true
        · simp only [if_pos hd, amGet_insert, if_true, Option.or_assoc, Option.some_or]
        · simp only [if_neg hd]
      · have : amGet k (if declaredAt es (.str k') = true then amInsert k' n st.parser.named else st.parser.named) =
            amGet k st.parser.named := by
          split
          · rw [amGet_insert, if_neg hk]
          · rfl
        rw [this, if_neg hk, Option.or_none]
    · rw [(afterArg_plain es st v h1).1, h3]

theorem parser_trailing (es : List Entry) : ∀ (vs : List PNode) (st : ArgLoop),
    (vs.foldl (afterArg es) st).parser.trailing = st.parser.trailing ++
      ((places st.position vs).filter fun x => !declaredAt es x.1).map (·.2.2)
  | [], st => by simp [places]
  | v :: vs, st => by
    rw [List.foldl_cons, parser_trailing es vs, afterArg_position, places_cons, List.filter_cons]
    cases hd : declaredAt es (placeOf st.position v).1.1 with
    | true =>
      rw [afterArg_yes hd, if_neg (by simp)]
      cases (placeOf st.position v).1.1 <;> rfl
    | false =>
      rw [afterArg_no hd, if_pos (by simp), List.map_cons, placeOf_node]
      simp

theorem parser_positional (es : List Entry) (i : Nat) : ∀ (vs : List PNode) (st : ArgLoop),
    amGet i (vs.foldl (afterArg es) st).parser.positional =
      if declaredAt es (.int i) = true ∧ st.position < i then
        ((positional vs)[i - st.position - 1]?).or (amGet i st.parser.positional)
      else amGet i st.parser.positional
  | [], st => by simp [positional]
  | v :: vs, st => by
    rw [List.foldl_cons, parser_positional es i vs, afterArg_position]
    rcases plain_cases v with ⟨k', n, s, w, rfl⟩ | ⟨h1, h2, h3, h4⟩
    · rw [(afterArg_attr es st k' n s w).2]
      rfl
    · rw [(afterArg_plain es st v h1).2, h2, h4]
      by_cases hi : st.position + 1 = i
      · subst hi
        have h5 : ¬ (st.position + 1 < st.position + 1) := by omega
        rw [if_neg (fun h => h5 h.2)]
        by_cases hd : declaredAt es (.int (st.position + 1)) = true
        · rw [if_pos hd, if_pos ⟨hd, by omega⟩, amGet_insert, if_pos rfl]
          simp
        · rw [if_neg hd, if_neg (fun h => hd h.1)]
      · have : amGet i (if declaredAt es (.int (st.position + 1)) = true then
            amInsert (st.position + 1) v st.parser.positional else st.parser.positional) = amGet i st.parser.positional := by
          split
          · rw [amGet_insert, if_neg hi]
          · rfl
        rw [this]
        by_cases hlt : st.position + 1 < i
        · have h5 : st.position < i := by omega
          have h6 : i - st.position - 1 = (i - (st.position + 1) - 1) + 1 := by omega
          simp only [hlt, h5, and_true, h6, List.getElem?_cons_succ]
        · have h5 : ¬ st.position < i := by omega
          simp only [hlt, h5, and_false, if_false]

/-! ## Mandatory arguments -/

/-- What an argument at a declared place counts. -/
def counts : Option Entry → Nat
  | some e => if e.mandatory then 1 else 0
  | none => 0

theorem afterArg_count (es : List Entry) (st : ArgLoop) (v : PNode) : (afterArg es st v).count = st.count +
    counts (es.find? fun e => e.pos == (placeOf st.position v).1.1) := by
  unfold afterArg counts
  cases h : es.find? (fun e => e.pos == (placeOf st.position v).1.1) with
  | some e => dsimp only; split <;> rfl
  | none => rfl

/-- The position is at most `n`. -/
def upTo (n : Nat) : ArgPos → Bool
  | .int i => decide (i ≤ n)
  | .str _ => false

/-- The mandatory arguments up to a position. -/
def mandatoryUpTo (es : List Entry) (n : Nat) : Nat := (es.filter fun e => e.mandatory && upTo n e.pos).length


theorem mandatoryUpTo_succ {es : List Entry} (hd : (es.map (·.pos)).Nodup) (n : Nat) :
    mandatoryUpTo es (n + 1) = mandatoryUpTo es n + counts (es.find? fun e => e.pos == .int (n + 1)) := by
  unfold mandatoryUpTo
  induction es with
  | nil => rfl
  | cons e es ih =>
    rw [List.map_cons, List.nodup_cons] at hd
    have ih := ih hd.2
    by_cases hp : e.pos = .int (n + 1)
    · have hnone : es.find? (fun e => e.pos == .int (n + 1)) = none := by
        rw [List.find?_eq_none]
        intro e' he' h
        have : e'.pos = .int (n + 1) := by simpa using h
        exact hd.1 (by rw [hp, ← this]; exact List.mem_map.2 ⟨e', he', rfl⟩)
      rw [hnone] at ih
      rw [List.filter_cons, List.filter_cons, List.find?_cons, hp]
      have h1 : upTo (n + 1) (.int (n + 1)) = true := by simp [upTo]
      have h2 : upTo n (.int (n + 1)) = false := by simp [upTo]
      rw [h1, h2]
      cases hm : e.mandatory <;> simp [counts, hm] at ih ⊢ <;> omega
    · rw [List.find?_cons, beq_eq_false_iff_ne.2 hp]
      dsimp only
      rw [List.filter_cons, List.filter_cons]
      have hsame : upTo (n + 1) e.pos = upTo n e.pos := by
        cases hpos : e.pos with
        | str k => rfl
        | int i =>
          have : i ≠ n + 1 := by rintro rfl; exact hp hpos
          simp only [upTo, decide_eq_decide]
          omega
      rw [hsame]
      split
      · simp only [List.length_cons, ih]
        omega
      · exact ih

theorem count_loop {es : List Entry} (hw : WellDeclared es) : ∀ (vs : List PNode) (st : ArgLoop),
    st.count = mandatoryUpTo es st.position →
    (vs.foldl (afterArg es) st).count = mandatoryUpTo es (st.position + (positional vs).length)
  | [], st, h => by simpa [positional] using h
  | v :: vs, st, h => by
    rw [List.foldl_cons]
    have key : (afterArg es st v).count = mandatoryUpTo es (afterArg es st v).position := by
      rw [afterArg_count, afterArg_position, h]
      cases v with
      | attr k n s w =>
        simp only [placeOf]
        cases hf : es.find? (fun e => e.pos == .str k) with
        | none => rfl
        | some e =>
          obtain ⟨h1, h2⟩ := find_pos hf
          cases hm : e.mandatory with
          | false => simp [counts, hm]
          | true =>
            obtain ⟨i, hi⟩ := hw.mandatory e h1 hm
            rw [hi] at h2
            cases h2
      | _ => simp only [placeOf]; rw [mandatoryUpTo_succ hw.once]
    rw [count_loop hw vs _ key, afterArg_position]
    cases v <;> simp only [placeOf, positional, List.length_cons] <;> congr 1 <;> omega

theorem places_int (j : Nat) : ∀ (vs : List PNode) (i : Nat),
    (∃ x ∈ places i vs, x.1 = .int j) ↔ i < j ∧ j ≤ i + (positional vs).length
  | [], i => by simp [places, positional]
  | v :: vs, i => by
    rw [places_cons]
    simp only [List.mem_cons, exists_eq_or_imp, places_int j vs]
    cases v <;> simp only [placeOf, positional, List.length_cons, ArgPos.int.injEq, reduceCtorEq, false_or]
    all_goals omega

theorem mandatory_all (es : List Entry) (n : Nat) :
    mandatoryUpTo es n < (es.filter (·.mandatory)).length ↔
      ¬ ∀ e ∈ es, e.mandatory = true → ∃ i, e.pos = .int i ∧ i ≤ n := by
  unfold mandatoryUpTo
  have h1 : (es.filter fun e => e.mandatory && upTo n e.pos) = (es.filter (·.mandatory)).filter fun e => upTo n e.pos := by
    rw [List.filter_filter]
    congr 1
    funext e
    exact Bool.and_comm _ _
  rw [h1]
  have hle := List.length_filter_le (fun e : Entry => upTo n e.pos) (es.filter (·.mandatory))
  have hiff := @List.length_filter_eq_length_iff _ (fun e : Entry => upTo n e.pos) (es.filter (·.mandatory))
  constructor
  · intro hlt hall
    have := hiff.2 (by
      intro e he
      obtain ⟨he, hm⟩ := List.mem_filter.1 he
      obtain ⟨i, hi, hin⟩ := hall e he hm
      simp [upTo, hi, hin])
    omega
  · intro hn
    apply Classical.byContradiction
    intro hge
    have := hiff.1 (by omega)
    refine hn fun e he hm => ?_
    have := this e (List.mem_filter.2 ⟨he, hm⟩)
    cases hp : e.pos with
    | int i => rw [hp] at this; exact ⟨i, rfl, by simpa [upTo] using this⟩
    | str k => rw [hp] at this; simp [upTo] at this

/-! ## The result -/

/-- The parser of a call whose arguments are acceptable. -/
structure Parsed (es : List Entry) (vs : List PNode) (p : ArgParser) : Prop where
  pos : ∀ i, amGet i p.positional = if declaredAt es (.int i) = true ∧ 0 < i then (positional vs)[i - 1]? else none
  named : ∀ k, amGet k p.named = if declaredAt es (.str k) then lastNamed k vs else none
  trailing : p.trailing = undeclared es vs

theorem argParser_new {es : List Entry} (hw : WellDeclared es) (tr : Option ArgType) (call : PNode) (vs : List PNode) :
    (∃ p, ArgParser.new { patterns := rulesOf es, trailing := tr } call vs = .ok p ∧ Parsed es vs p ∧ Accepts es tr vs) ∨
    (∃ e, ArgParser.new { patterns := rulesOf es, trailing := tr } call vs = .err e ∧ ¬ Accepts es tr vs) := by
  unfold ArgParser.new
  have hm : ({ patterns := rulesOf es, trailing := tr } : ArgRules).countMandatory = (es.filter (·.mandatory)).length := by
    simp only [ArgRules.countMandatory, rulesOf, List.filter_map, List.length_map]
    rfl
  rcases argLoop_cases hw.once tr vs { parser := { positional := [], named := [], trailing := [] }, position := 0, count := 0 }
    with ⟨h1, h2⟩ | ⟨⟨e, h1⟩, h2⟩
  · rw [h1]
    rw [Res.ok_bind, hm, count_loop hw vs _ (by
      simp only [mandatoryUpTo]
      symm
      rw [List.length_eq_zero_iff, List.filter_eq_nil_iff]
      intro e he
      cases hp : e.pos with
      | str k => simp [upTo]
      | int i =>
        have : i ≠ 0 := by rintro rfl; exact hw.positive e he hp
        simp [upTo, this])]
    dsimp only
    rw [Nat.zero_add]
    have hpres : (∀ e ∈ es, e.mandatory = true → ∃ i, e.pos = .int i ∧ i ≤ (positional vs).length) ↔
        ∀ e ∈ es, e.mandatory = true → ∃ x ∈ places 0 vs, x.1 = e.pos := by
      constructor
      · intro h e he hme
        obtain ⟨i, hi, hin⟩ := h e he hme
        rw [hi, places_int]
        have : i ≠ 0 := by rintro rfl; exact hw.positive e he hi
        omega
      · intro h e he hme
        obtain ⟨i, hi⟩ := hw.mandatory e he hme
        have := h e he hme
        rw [hi, places_int] at this
        exact ⟨i, hi, by omega⟩
    by_cases hlt : mandatoryUpTo es (positional vs).length < (es.filter (·.mandatory)).length
    · right
      rw [if_pos hlt]
      refine ⟨_, rfl, fun ha => ?_⟩
      exact (mandatory_all es _).1 hlt (hpres.2 ha.present)
    · left
      rw [if_neg hlt]
      refine ⟨_, rfl, ⟨?_, ?_, ?_⟩, ⟨fun x hx => (h2 x hx).1, fun x hx => (h2 x hx).2, ?_⟩⟩
      · intro i
        rw [parser_positional]
        simp [amGet]
      · intro k
        rw [parser_named]
        simp [amGet]
      · rw [parser_trailing]
        simp [undeclared, declaredAt]
      · apply hpres.1
        apply Classical.byContradiction
        intro hn
        exact hlt ((mandatory_all es _).2 hn)
  · rw [h1]
    exact Or.inr ⟨e, rfl, fun ha => h2 fun x hx => ⟨ha.declared x hx, ha.others x hx⟩⟩

/-! ## What acceptance says about single arguments -/

theorem places_pos_mem {i : Nat} {v : PNode} : ∀ {vs : List PNode} {j : Nat}, (positional vs)[i]? = some v →
    (.int (j + i + 1), v, v) ∈ places j vs
  | [], _, h => by simp [positional] at h
  | w :: vs, j, h => by
    cases w with
    | attr k n s lw =>
      simp only [positional] at h
      exact List.mem_cons_of_mem _ (places_pos_mem h)
    | _ =>
      simp only [positional] at h
      cases i with
      | zero =>
        simp at h
        subst h
        exact List.mem_cons_self ..
      | succ i =>
        simp at h
        have := places_pos_mem (j := j + 1) h
        rw [show j + (i + 1) + 1 = j + 1 + i + 1 by omega]
        exact List.mem_cons_of_mem _ this

theorem places_int_self {i : Nat} {a b : PNode} : ∀ {vs : List PNode} {j : Nat}, (.int i, a, b) ∈ places j vs → a = b
  | [], _, h => by simp [places] at h
  | w :: vs, j, h => by
    cases w <;> simp only [places, List.mem_cons, Prod.mk.injEq, reduceCtorEq, false_and, false_or] at h
    case attr => exact places_int_self h
    all_goals
      rcases h with ⟨_, rfl, rfl⟩ | h
      · rfl
      · exact places_int_self h

theorem places_int_get {i : Nat} {a b : PNode} : ∀ {vs : List PNode} {j : Nat}, (.int i, a, b) ∈ places j vs →
    j < i ∧ (positional vs)[i - (j + 1)]? = some a
  | [], _, h => by simp [places] at h
  | w :: vs, j, h => by
    cases w <;> simp only [places, List.mem_cons, Prod.mk.injEq, reduceCtorEq, false_and, false_or, ArgPos.int.injEq] at h
    case attr => simpa [positional] using places_int_get h
    all_goals
      rcases h with ⟨rfl, rfl, rfl⟩ | h
      · exact ⟨by omega, by simp [positional]⟩
      · have := places_int_get h
        refine ⟨by omega, ?_⟩
        rw [show i - (j + 1) = (i - (j + 1 + 1)) + 1 by omega]
        simpa [positional] using this.2

theorem places_named_mem {k : Str} {v : PNode} : ∀ {vs : List PNode} {j : Nat}, lastNamed k vs = some v →
    ∃ w, (.str k, v, w) ∈ places j vs
  | [], _, h => by simp [lastNamed] at h
  | w :: vs, j, h => by
    cases w with
    | attr k' n s lw =>
      simp only [lastNamed] at h
      cases hl : lastNamed k vs with
      | some v' =>
        rw [hl] at h
        simp at h
        subst h
        obtain ⟨w, hw⟩ := places_named_mem (j := j) hl
        exact ⟨w, List.mem_cons_of_mem _ hw⟩
      | none =>
        rw [hl] at h
        simp at h
        obtain ⟨rfl, rfl⟩ := h
        exact ⟨_, List.mem_cons_self ..⟩
    | _ =>
      simp only [lastNamed] at h
      obtain ⟨w, hw⟩ := places_named_mem (j := j + 1) h
      exact ⟨w, List.mem_cons_of_mem _ hw⟩

theorem accepts_pos {es : List Entry} {tr : Option ArgType} {vs : List PNode} (ha : Accepts es tr vs) {e : Entry} (he : e ∈ es)
    {i : Nat} (hp : e.pos = .int (i + 1)) {v : PNode} (hv : (positional vs)[i]? = some v) : HasType e.type v :=
  ha.declared _ (places_pos_mem (j := 0) hv) e he (by rw [hp]; simp)

theorem accepts_mandatory {es : List Entry} {tr : Option ArgType} {vs : List PNode} (ha : Accepts es tr vs) {e : Entry} (he : e ∈ es)
    {i : Nat} (hp : e.pos = .int (i + 1)) (hm : e.mandatory = true) :
    ∃ v, (positional vs)[i]? = some v ∧ HasType e.type v := by
  have h1 := ha.present e he hm
  rw [hp, places_int] at h1
  have hlt : i < (positional vs).length := by omega
  exact ⟨_, List.getElem?_eq_getElem hlt, accepts_pos ha he hp (List.getElem?_eq_getElem hlt)⟩

theorem accepts_named {es : List Entry} {tr : Option ArgType} {vs : List PNode} (ha : Accepts es tr vs) {e : Entry} (he : e ∈ es)
    {k : Str} (hp : e.pos = .str k) {v : PNode} (hv : lastNamed k vs = some v) : HasType e.type v := by
  obtain ⟨w, hw⟩ := places_named_mem (j := 0) hv
  exact ha.declared _ hw e he hp

theorem accepts_trailing {es : List Entry} {tr : Option ArgType} {vs : List PNode} (ha : Accepts es tr vs) {v : PNode}
    (hv : v ∈ undeclared es vs) : ∃ t, tr = some t ∧ HasType t v := by
  unfold undeclared at hv
  obtain ⟨x, hx, rfl⟩ := List.mem_map.1 hv
  obtain ⟨hx, hd⟩ := List.mem_filter.1 hx
  refine ha.others x hx fun e he hp => ?_
  have : (es.any fun e => e.pos == x.1) = true := List.any_eq_true.2 ⟨e, he, by simpa using hp⟩
  rw [this] at hd
  cases hd

theorem parsed_pos {es : List Entry} {vs : List PNode} {p : ArgParser} (hp : Parsed es vs p) {e : Entry} (he : e ∈ es)
    {i : Nat} (hi : e.pos = .int (i + 1)) : amGet (i + 1) p.positional = (positional vs)[i]? := by
  rw [hp.pos, if_pos ⟨List.any_eq_true.2 ⟨e, he, by simp [hi]⟩, Nat.succ_pos i⟩]
  rfl

theorem parsed_named {es : List Entry} {vs : List PNode} {p : ArgParser} (hp : Parsed es vs p) {e : Entry} (he : e ∈ es)
    {k : Str} (hi : e.pos = .str k) : amGet k p.named = lastNamed k vs := by
  have : declaredAt es (.str k) = true := List.any_eq_true.2 ⟨e, he, by simp [hi]⟩
  rw [hp.named, if_pos this]

/-! ## Inversion of types -/

theorem hasType_literal {ps : List ArgPred} {n : PNode} (h : HasType (.literal ps) n) : (∃ a, Literal n a) ∧ Satisfies ps n := by
  cases h with
  | literal _ _ a h1 h2 => exact ⟨⟨a, h1⟩, h2⟩

theorem hasType_literal_iff {n : PNode} : HasType (.literal []) n ↔ ∃ a, Literal n a :=
  ⟨fun h => (hasType_literal h).1, fun ⟨a, h⟩ => .literal _ _ a h (Or.inl rfl)⟩

theorem hasType_any (n : PNode) : HasType (.any []) n := .any _ _ (Or.inl rfl)

theorem hasType_list_iff {n : PNode} : HasType (.list []) n ↔ ∃ ns s e w, n = .list ns s e w := by
  constructor
  · intro h
    cases h with
    | anyList ns s e w => exact ⟨ns, s, e, w, rfl⟩
    | list _ ns s e w _ => exact ⟨ns, s, e, w, rfl⟩
  · rintro ⟨ns, s, e, w, rfl⟩
    exact .anyList ns s e w

theorem hasType_symbol_iff {ps : List ArgPred} {n : PNode} : HasType (.symbol ps) n ↔ ∃ a, n = .symbol a ∧ Satisfies ps n := by
  constructor
  · intro h
    cases h with
    | symbol _ a h => exact ⟨a, rfl, h⟩
  · rintro ⟨a, rfl, h⟩
    exact .symbol _ a h

theorem hasType_number_iff {ps : List ArgPred} {n : PNode} : HasType (.number ps) n ↔ ∃ a, n = .number a ∧ Satisfies ps n := by
  constructor
  · intro h
    cases h with
    | number _ a h => exact ⟨a, rfl, h⟩
  · rintro ⟨a, rfl, h⟩
    exact .number _ a h

theorem hasType_string_iff {n : PNode} : HasType (.string []) n ↔ ∃ a, n = .string a ∨ n = .raw a := by
  constructor
  · intro h
    cases h with
    | string _ a h => exact ⟨a, Or.inl rfl⟩
    | raw _ a h => exact ⟨a, Or.inr rfl⟩
  · rintro ⟨a, rfl | rfl⟩
    · exact .string _ a (Or.inl rfl)
    · exact .raw _ a (Or.inl rfl)

theorem satisfies_exactly {vs : List Str} (hv : vs ≠ []) {n : PNode} (h : Satisfies (vs.map .exactly) n) :
    ∃ a, Literal n a ∧ a.value ∈ vs := by
  rcases h with h | ⟨p, hp, h⟩
  · simp at h; exact absurd h hv
  · obtain ⟨v, hv, rfl⟩ := List.mem_map.1 hp
    obtain ⟨a, h1, rfl⟩ := h
    exact ⟨a, h1, hv⟩

theorem hasType_literalOf {vs : List Str} (hv : vs ≠ []) {n : PNode} :
    HasType (literalOf vs) n ↔ ∃ a, Literal n a ∧ a.value ∈ vs := by
  constructor
  · intro h
    exact satisfies_exactly hv (hasType_literal h).2
  · rintro ⟨a, h1, h2⟩
    exact .literal _ _ a h1 (Or.inr ⟨.exactly a.value, List.mem_map.2 ⟨_, h2, rfl⟩, a, h1, rfl⟩)

end Seam
