import Verif.Lemmas.Scope
import Verif.Spec.Builtins

/-! The built-in macros that expand their arguments first. -/

namespace Seam
open Spec

theorem evals_eager {ext : Ext} {name : Str} {args : List PNode} {c : PNode} (hc : IsCall name args c) {b : Builtin}
    (hb : builtin? name = some b) {G : List PNode → Rec → M (List PNode)}
    (h : ∀ rec, runBuiltin ext rec b c args = expandNodes rec args >>= fun vs => G vs rec) (hG : ∀ vs, Mon (G vs))
    {s t : St} {r : Res (List PNode)} :
    Evals ext [c] s r t ↔ ∃ q u, Evals ext args s q u ∧ Then q u (fun vs => Runs ext (G vs)) r t := by
  rw [evals_builtin_iff hc hb, runs_congr (G := fun rec => expandNodes rec args >>= fun vs => G vs rec) fun rec => by rw [h],
    runs_bind (Mon.nodes args) hG]
  rfl

theorem evals_eager_ok {ext : Ext} {name : Str} {args : List PNode} {c : PNode} (hc : IsCall name args c) {b : Builtin}
    (hb : builtin? name = some b) {G : List PNode → Rec → M (List PNode)}
    (h : ∀ rec, runBuiltin ext rec b c args = expandNodes rec args >>= fun vs => G vs rec) (hG : ∀ vs, Mon (G vs))
    {s u : St} {vs : List PNode} (ha : Evals ext args s (.ok vs) u) {t : St} {r : Res (List PNode)} :
    Evals ext [c] s r t ↔ Runs ext (G vs) u r t := by
  rw [evals_eager hc hb h hG]
  constructor
  · rintro ⟨q, u', h1, h2⟩
    obtain ⟨rfl, rfl⟩ := ha.unique h1
    exact h2
  · intro h2
    exact ⟨_, _, ha, h2⟩

/-- What the checking of arguments gives. -/
theorem arguments_cases {es : List Entry} (hw : WellDeclared es) (tr : Option ArgType) (call : PNode) (vs : List PNode) :
    (∃ p, arguments (rulesOf es) tr call vs = pure p ∧ Parsed es vs p ∧ Accepts es tr vs) ∨
    (∃ e, arguments (rulesOf es) tr call vs = M.lift (.err e) ∧ ¬ Accepts es tr vs) := by
  unfold arguments
  rcases argParser_new hw tr call vs with ⟨p, h1, h2, h3⟩ | ⟨e, h1, h2⟩
  · exact Or.inl ⟨p, by rw [h1]; rfl, h2, h3⟩
  · exact Or.inr ⟨e, by rw [h1], h2⟩

theorem wellDeclared_of {es : List Entry} (h : ((es.map (·.pos)).Nodup ∧ (∀ e ∈ es, e.pos ≠ .int 0)) ∧
    ∀ e ∈ es, e.mandatory = true → (match e.pos with | .int _ => true | .str _ => false) = true) : WellDeclared es where
  once := h.1.1
  positive := h.1.2
  mandatory e he hm := by
    have := h.2 e he hm
    cases hp : e.pos with
    | int i => exact ⟨i, rfl⟩
    | str k => rw [hp] at this; cases this

theorem eager_wellDeclared : ∀ x ∈ eagerMacros, WellDeclared x.2.1 := by
  intro x hx
  apply wellDeclared_of
  revert x
  decide +kernel

/-- All of these macros expand their arguments, check them, and go on with them. -/
theorem eager_shape : ∀ x ∈ eagerMacros, ∃ b, builtin? x.1 = some b ∧ ∀ (ext : Ext) (c : PNode) (args : List PNode),
    ∃ H : List PNode → ArgParser → Rec → M (List PNode), ∀ rec, runBuiltin ext rec b c args =
      expandNodes rec args >>= fun vs => arguments (rulesOf x.2.1) x.2.2 c vs >>= fun p => H vs p rec := by
  intro x hx
  unfold eagerMacros at hx
  simp only [List.mem_cons, List.not_mem_nil, or_false] at hx
  rcases hx with rfl | rfl | rfl | rfl | rfl | rfl | rfl | rfl | rfl | rfl | rfl | rfl | rfl | rfl | rfl | rfl | rfl <;>
  exact ⟨_, rfl, fun ext c args => ⟨_, fun rec => rfl⟩⟩

theorem attr_mem_places {k : Str} {v : PNode} {s : Site} {w : Str} : ∀ {vs : List PNode} {j : Nat}, .attr k v s w ∈ vs →
    (.str k, v, .attr k v s w) ∈ places j vs
  | [], _, h => by simp at h
  | x :: vs, j, h => by
    rcases List.mem_cons.1 h with rfl | h
    · simp [places]
    · have := fun j => attr_mem_places (j := j) h
      cases x <;> simp [places, this]

theorem places_str_mem {k : Str} {a b : PNode} : ∀ {vs : List PNode} {j : Nat}, (.str k, a, b) ∈ places j vs →
    ∃ s w, b = .attr k a s w ∧ b ∈ vs
  | [], _, h => by simp [places] at h
  | x :: vs, j, h => by
    cases x <;> simp only [places, List.mem_cons, Prod.mk.injEq, reduceCtorEq, false_and, false_or, ArgPos.str.injEq] at h
    case attr k' n s w =>
      rcases h with ⟨rfl, rfl, rfl⟩ | h
      · exact ⟨s, w, rfl, by simp⟩
      · obtain ⟨s', w', h1, h2⟩ := places_str_mem h
        exact ⟨s', w', h1, by simp [h2]⟩
    all_goals
      obtain ⟨s', w', h1, h2⟩ := places_str_mem h
      exact ⟨s', w', h1, by simp [h2]⟩

/-- Acceptance in terms of positional and named arguments. -/
theorem accepts_iff {es : List Entry} (hw : WellDeclared es) {tr : Option ArgType} {vs : List PNode} : Accepts es tr vs ↔
    (∀ (i : Nat) v, (positional vs)[i]? = some v → (∀ e ∈ es, e.pos = .int (i + 1) → HasType e.type v) ∧
      ((∀ e ∈ es, e.pos ≠ .int (i + 1)) → ∃ t, tr = some t ∧ HasType t v)) ∧
    (∀ k v s w, .attr k v s w ∈ vs → (∀ e ∈ es, e.pos = .str k → HasType e.type v) ∧
      ((∀ e ∈ es, e.pos ≠ .str k) → ∃ t, tr = some t ∧ HasType t (.attr k v s w))) ∧
    (∀ e ∈ es, e.mandatory = true → ∀ i, e.pos = .int (i + 1) → i < (positional vs).length) := by
  constructor
  · intro h
    refine ⟨fun i v hv => ?_, fun k v s w hv => ?_, fun e he hm i hi => ?_⟩
    · have hm := places_pos_mem (j := 0) hv
      rw [Nat.zero_add] at hm
      exact ⟨fun e he hp => h.declared _ hm e he hp, fun hn => h.others _ hm hn⟩
    · have hm := attr_mem_places (j := 0) hv
      exact ⟨fun e he hp => h.declared _ hm e he hp, fun hn => h.others _ hm hn⟩
    · have := h.present e he hm
      rw [hi, places_int] at this
      omega
  · rintro ⟨h1, h2, h3⟩
    refine ⟨?_, ?_, ?_⟩
    · rintro ⟨p, a, b⟩ hx e he hp
      cases p with
      | int i =>
        obtain ⟨hi, hg⟩ := places_int_get hx
        obtain ⟨i, rfl⟩ : ∃ j, i = j + 1 := ⟨i - 1, by omega⟩
        exact (h1 i a (by simpa using hg)).1 e he hp
      | str k =>
        obtain ⟨s, w, rfl, hm⟩ := places_str_mem hx
        exact (h2 k a s w hm).1 e he hp
    · rintro ⟨p, a, b⟩ hx hn
      cases p with
      | int i =>
        obtain ⟨hi, hg⟩ := places_int_get hx
        obtain ⟨i, rfl⟩ : ∃ j, i = j + 1 := ⟨i - 1, by omega⟩
        obtain rfl := places_int_self hx
        exact (h1 i a (by simpa using hg)).2 hn
      | str k =>
        obtain ⟨s, w, rfl, hm⟩ := places_str_mem hx
        exact (h2 k a s w hm).2 hn
    · intro e he hm
      obtain ⟨i, hi⟩ := hw.mandatory e he hm
      have : i ≠ 0 := by rintro rfl; exact hw.positive e he hi
      obtain ⟨i, rfl⟩ : ∃ j, i = j + 1 := ⟨i - 1, by omega⟩
      have := h3 e he hm i hi
      rw [hi, places_int]
      omega

theorem undeclared_positional {es : List Entry} {n : Nat} (h1 : ∀ i, declaredAt es (.int i) = decide (1 ≤ i ∧ i ≤ n)) :
    ∀ (vs : List PNode) (j : Nat), (∀ k v s w, .attr k v s w ∈ vs → declaredAt es (.str k) = true) →
    ((places j vs).filter fun x => !declaredAt es x.1).map (·.2.2) = (positional vs).drop (n - j)
  | [], j, _ => by simp [places, positional]
  | v :: vs, j, h2 => by
    have ih := fun j => undeclared_positional h1 vs j fun k v s w hm => h2 k v s w (by simp [hm])
    cases v with
    | attr k x s w =>
      simp only [places, List.filter_cons, h2 k x s w (by simp), Bool.not_true, positional]
      simpa using ih j
    | _ =>
      simp only [places, List.filter_cons, h1, positional]
      by_cases hj : j + 1 ≤ n
      · rw [if_neg (by simp [hj]), ih (j + 1), show n - j = (n - (j + 1)) + 1 by omega]
        simp
      · rw [if_pos (by simp [hj]), List.map_cons, ih (j + 1), show n - j = 0 by omega, show n - (j + 1) = 0 by omega]
        simp

theorem undeclared_named {es : List Entry} {n : Nat} (h1 : ∀ i, declaredAt es (.int i) = decide (1 ≤ i ∧ i ≤ n))
    {vs : List PNode} (h2 : ∀ k v s w, .attr k v s w ∈ vs → declaredAt es (.str k) = true) :
    undeclared es vs = (positional vs).drop n := undeclared_positional h1 vs 0 h2

/-- Rejected arguments. -/
theorem eager_rejects {x : Str × List Entry × Option ArgType} (hx : x ∈ eagerMacros) {ext : Ext} {args vs : List PNode} {c : PNode}
    (hc : IsCall x.1 args c) {s u : St} (ha : Evals ext args s (.ok vs) u) (hn : ¬ Accepts x.2.1 x.2.2 vs) :
    ∃ e, Evals ext [c] s (.err e) u := by
  obtain ⟨b, hb, hH⟩ := eager_shape x hx
  obtain ⟨H, hH⟩ := hH ext c args
  rcases arguments_cases (eager_wellDeclared x hx) x.2.2 c vs with ⟨p, _, _, h⟩ | ⟨e, h, _⟩
  · exact absurd h hn
  · refine ⟨e, evals_builtin hc hb (by simp) (ha.ev.mono fun f hf => ?_)⟩
    rw [hH, M.bind_ok hf]
    exact M.bind_err (by rw [h]; rfl)

/-- Arguments that cannot be expanded. -/
theorem eager_fails {x : Str × List Entry × Option ArgType} (hx : x ∈ eagerMacros) {ext : Ext} {args : List PNode} {c : PNode}
    (hc : IsCall x.1 args c) {s u : St} {r : Res (List PNode)} (ha : Evals ext args s r u) (hr : ∀ vs, r ≠ .ok vs) :
    Evals ext [c] s r u := by
  obtain ⟨b, hb, hH⟩ := eager_shape x hx
  obtain ⟨H, hH⟩ := hH ext c args
  refine evals_builtin hc hb ha.1 (ha.ev.mono fun f hf => ?_)
  rw [hH]
  cases r with
  | ok a => exact absurd rfl (hr a)
  | err e => exact M.bind_err hf
  | panic => exact M.bind_panic hf
  | diverge => exact absurd rfl ha.1

/-- Accepted arguments. -/
theorem eager_accepts {ext : Ext} {name : Str} {args : List PNode} {c : PNode} (hc : IsCall name args c) {b : Builtin}
    (hb : builtin? name = some b) {es : List Entry} (hw : WellDeclared es) {tr : Option ArgType}
    {H : List PNode → ArgParser → Rec → M (List PNode)}
    (h : ∀ rec, runBuiltin ext rec b c args = expandNodes rec args >>= fun vs => arguments (rulesOf es) tr c vs >>= fun p => H vs p rec)
    (hH : ∀ vs p, Mon (H vs p))
    {s u : St} {vs : List PNode} (ha : Evals ext args s (.ok vs) u) (hacc : Accepts es tr vs) :
    ∃ p, Parsed es vs p ∧ ∀ r t, Evals ext [c] s r t ↔ Runs ext (H vs p) u r t := by
  rcases arguments_cases hw tr c vs with ⟨p, h1, h2, _⟩ | ⟨e, _, h2⟩
  · refine ⟨p, h2, fun r t => ?_⟩
    rw [evals_eager_ok hc hb h (fun vs => Mon.bind (Mon.const _) fun p => hH vs p) ha]
    rw [h1]
    exact Iff.rfl
  · exact absurd hacc h2

/-! ## Declarations of the usual form -/

/-- Mandatory positional arguments and optional named ones. -/
def schemaEntries (ts : List ArgType) (ks : List (Str × ArgType)) : List Entry :=
  (ts.zipIdx 1).map (fun x => req x.2 x.1) ++ ks.map fun x => named x.1 x.2

theorem mem_schema {ts : List ArgType} {ks : List (Str × ArgType)} {e : Entry} : e ∈ schemaEntries ts ks ↔
    (∃ (i : Nat) (t : ArgType), ts[i]? = some t ∧ e = req (i + 1) t) ∨ ∃ k t, (k, t) ∈ ks ∧ e = named k t := by
  unfold schemaEntries
  rw [List.mem_append, List.mem_map, List.mem_map]
  constructor
  · rintro (⟨⟨t, i⟩, h, rfl⟩ | ⟨⟨k, t⟩, h, rfl⟩)
    · rw [List.mem_zipIdx_iff_le_and_getElem?_sub] at h
      obtain ⟨h1, h2⟩ := h
      exact Or.inl ⟨i - 1, t, h2, by simp only at h1; rw [Nat.sub_add_cancel h1]⟩
    · exact Or.inr ⟨k, t, h, rfl⟩
  · rintro (⟨i, t, h, rfl⟩ | ⟨k, t, h, rfl⟩)
    · refine Or.inl ⟨(t, i + 1), ?_, rfl⟩
      rw [List.mem_zipIdx_iff_le_and_getElem?_sub]
      exact ⟨by simp, by simpa using h⟩
    · exact Or.inr ⟨(k, t), h, rfl⟩

theorem haveTypes_iff : ∀ {ts : List ArgType} {ns : List PNode}, HaveTypes ts ns ↔ ns.length = ts.length ∧
    ∀ (i : Nat) t n, ts[i]? = some t → ns[i]? = some n → HasType t n
  | [], ns => by
    constructor
    · intro h; cases h; exact ⟨rfl, by simp⟩
    · rintro ⟨h, _⟩; rw [List.length_eq_zero_iff.1 h]; exact .nil
  | t :: ts, [] => by
    constructor
    · intro h; cases h
    · rintro ⟨h, _⟩; simp at h
  | t :: ts, n :: ns => by
    have ih := @haveTypes_iff ts ns
    constructor
    · intro h
      cases h with
      | cons _ _ _ _ h1 h2 =>
        obtain ⟨h3, h4⟩ := ih.1 h2
        refine ⟨by simp [h3], fun i t n h5 h6 => ?_⟩
        cases i with
        | zero => simp at h5 h6; subst h5 h6; exact h1
        | succ i => exact h4 i t n (by simpa using h5) (by simpa using h6)
    · rintro ⟨h1, h2⟩
      exact .cons _ _ _ _ (h2 0 t n rfl rfl) (ih.2 ⟨by simpa using h1, fun i t n h3 h4 => h2 (i + 1) t n h3 h4⟩)

theorem accepts_schema {ts : List ArgType} {ks : List (Str × ArgType)} (hw : WellDeclared (schemaEntries ts ks))
    {tr : Option ArgType} {vs : List PNode} : Accepts (schemaEntries ts ks) tr vs ↔
    ∃ front back, positional vs = front ++ back ∧ HaveTypes ts front ∧ (∀ v ∈ back, ∃ t, tr = some t ∧ HasType t v) ∧
      ∀ k v s w, .attr k v s w ∈ vs → (∀ t, (k, t) ∈ ks → HasType t v) ∧
        ((∀ t, (k, t) ∉ ks) → ∃ t, tr = some t ∧ HasType t (.attr k v s w)) := by
  rw [accepts_iff hw]
  constructor
  · rintro ⟨h1, h2, h3⟩
    have hlen : ts.length ≤ (positional vs).length := by
      apply Classical.byContradiction
      intro hlt
      have hi : ts[(positional vs).length]? = some ts[(positional vs).length] := List.getElem?_eq_getElem (by omega)
      have := h3 _ (mem_schema.2 (Or.inl ⟨_, _, hi, rfl⟩)) rfl _ rfl
      omega
    refine ⟨(positional vs).take ts.length, (positional vs).drop ts.length, by simp, haveTypes_iff.2 ⟨by simp; omega, ?_⟩, ?_, ?_⟩
    · intro i t n ht hn
      have hi : i < ts.length := (List.getElem?_eq_some_iff.1 ht).1
      rw [List.getElem?_take_of_lt hi] at hn
      exact (h1 i n hn).1 _ (mem_schema.2 (Or.inl ⟨i, t, ht, rfl⟩)) rfl
    · intro v hv
      obtain ⟨i, hi⟩ := List.getElem?_of_mem hv
      rw [List.getElem?_drop] at hi
      refine (h1 _ v hi).2 fun e he hp => ?_
      rcases mem_schema.1 he with ⟨j, t, hj, rfl⟩ | ⟨k, t, hk, rfl⟩
      · simp only [req, ArgPos.int.injEq] at hp
        have : j < ts.length := (List.getElem?_eq_some_iff.1 hj).1
        omega
      · simp [named] at hp
    · intro k v s w hm
      refine ⟨fun t ht => (h2 k v s w hm).1 _ (mem_schema.2 (Or.inr ⟨k, t, ht, rfl⟩)) rfl, fun hn => ?_⟩
      refine (h2 k v s w hm).2 fun e he hp => ?_
      rcases mem_schema.1 he with ⟨j, t, hj, rfl⟩ | ⟨k', t, hk, rfl⟩
      · simp [req] at hp
      · simp only [named, ArgPos.str.injEq] at hp
        subst hp
        exact hn t hk
  · rintro ⟨front, back, h1, h2, h3, h4⟩
    obtain ⟨h5, h6⟩ := haveTypes_iff.1 h2
    rw [h1]
    refine ⟨fun i v hv => ⟨fun e he hp => ?_, fun hn => ?_⟩, fun k v s w hm => ⟨fun e he hp => ?_, fun hn => ?_⟩, ?_⟩
    · rcases mem_schema.1 he with ⟨j, t, hj, rfl⟩ | ⟨k, t, hk, rfl⟩
      · simp only [req, ArgPos.int.injEq] at hp
        have : j = i := by omega
        subst this
        have : j < ts.length := (List.getElem?_eq_some_iff.1 hj).1
        rw [List.getElem?_append_left (by omega)] at hv
        exact h6 j t v hj hv
      · simp [named] at hp
    · apply h3
      have : ¬ i < ts.length := fun hlt =>
        hn _ (mem_schema.2 (Or.inl ⟨i, _, List.getElem?_eq_getElem hlt, rfl⟩)) rfl
      rw [List.getElem?_append_right (by omega)] at hv
      exact List.mem_of_getElem? hv
    · rcases mem_schema.1 he with ⟨j, t, hj, rfl⟩ | ⟨k', t, hk, rfl⟩
      · simp [req] at hp
      · simp only [named, ArgPos.str.injEq] at hp
        subst hp
        exact (h4 _ v s w hm).1 t hk
    · exact (h4 k v s w hm).2 fun t ht => hn _ (mem_schema.2 (Or.inr ⟨k, t, ht, rfl⟩)) rfl
    · intro e he hm i hi
      rcases mem_schema.1 he with ⟨j, t, hj, rfl⟩ | ⟨k', t, hk, rfl⟩
      · simp only [req, ArgPos.int.injEq] at hi
        have : j < ts.length := (List.getElem?_eq_some_iff.1 hj).1
        simp; omega
      · simp [named] at hm

theorem schema_declared_int {ts : List ArgType} {ks : List (Str × ArgType)} (i : Nat) :
    declaredAt (schemaEntries ts ks) (.int i) = decide (1 ≤ i ∧ i ≤ ts.length) := by
  rw [Bool.eq_iff_iff, declaredAt, List.any_eq_true, decide_eq_true_eq]
  constructor
  · rintro ⟨e, he, hp⟩
    rcases mem_schema.1 he with ⟨j, t, hj, rfl⟩ | ⟨k', t, hk, rfl⟩
    · simp [req] at hp
      have : j < ts.length := (List.getElem?_eq_some_iff.1 hj).1
      omega
    · simp [named] at hp
  · rintro ⟨h1, h2⟩
    exact ⟨_, mem_schema.2 (Or.inl ⟨i - 1, _, List.getElem?_eq_getElem (by omega), rfl⟩), by simp [req]; omega⟩

theorem schema_declared_str {ts : List ArgType} {ks : List (Str × ArgType)} (k : Str) :
    declaredAt (schemaEntries ts ks) (.str k) = true ↔ ∃ t, (k, t) ∈ ks := by
  rw [declaredAt, List.any_eq_true]
  constructor
  · rintro ⟨e, he, hp⟩
    rcases mem_schema.1 he with ⟨j, t, hj, rfl⟩ | ⟨k', t, hk, rfl⟩
    · simp [req] at hp
    · simp [named] at hp
      subst hp
      exact ⟨t, hk⟩
  · rintro ⟨t, ht⟩
    exact ⟨_, mem_schema.2 (Or.inr ⟨k, t, ht, rfl⟩), by simp [named]⟩

/-- The extracted arguments of a call. -/
structure Extracted (ts : List ArgType) (ks : List (Str × ArgType)) (vs : List PNode) (p : ArgParser) : Prop where
  pos : ∀ (i : Nat) v call, i < ts.length → (positional vs)[i]? = some v → p.pos call (i + 1) = .ok v
  opt : ∀ k, (∃ t, (k, t) ∈ ks) → amGet k p.named = lastNamed k vs
  rest : (∀ k v s w, .attr k v s w ∈ vs → ∃ t, (k, t) ∈ ks) → p.trailing = (positional vs).drop ts.length
  all : ks = [] → p.trailing = dropPositional ts.length vs

theorem parsed_extracted {ts : List ArgType} {ks : List (Str × ArgType)} {vs : List PNode} {p : ArgParser}
    (hp : Parsed (schemaEntries ts ks) vs p) : Extracted ts ks vs p where
  pos i v call hi hv := by
    unfold ArgParser.pos
    rw [hp.pos, if_pos ⟨by rw [schema_declared_int]; simp; omega, by simp⟩, Nat.add_sub_cancel, hv]
  opt k hk := by rw [hp.named, if_pos (schema_declared_str k |>.2 hk)]
  rest h := by
    rw [hp.trailing]
    exact undeclared_named schema_declared_int fun k v s w hm => (schema_declared_str k).2 (h k v s w hm)
  all h := by
    rw [hp.trailing]
    refine undeclared_drop (n := ts.length) schema_declared_int (fun k => ?_) vs 0
    rw [Bool.eq_false_iff, Ne, schema_declared_str, h]
    simp

theorem eager_extract {ext : Ext} {name : Str} {args : List PNode} {c : PNode} (hc : IsCall name args c) {b : Builtin}
    (hb : builtin? name = some b) {ts : List ArgType} {ks : List (Str × ArgType)} {tr : Option ArgType}
    (hx : (name, schemaEntries ts ks, tr) ∈ eagerMacros)
    {H : List PNode → ArgParser → Rec → M (List PNode)}
    (h : ∀ rec, runBuiltin ext rec b c args =
      expandNodes rec args >>= fun vs => arguments (rulesOf (schemaEntries ts ks)) tr c vs >>= fun p => H vs p rec)
    (hH : ∀ vs p, Mon (H vs p))
    {s u : St} {vs front back : List PNode} (ha : Evals ext args s (.ok vs) u) (hpos : positional vs = front ++ back)
    (hf : HaveTypes ts front) (hback : ∀ v ∈ back, ∃ t, tr = some t ∧ HasType t v)
    (hnamed : ∀ k v s w, .attr k v s w ∈ vs → (∀ t, (k, t) ∈ ks → HasType t v) ∧
        ((∀ t, (k, t) ∉ ks) → ∃ t, tr = some t ∧ HasType t (.attr k v s w))) :
    ∃ p, Extracted ts ks vs p ∧ ∀ r t, Evals ext [c] s r t ↔ Runs ext (H vs p) u r t := by
  have hw := eager_wellDeclared _ hx
  obtain ⟨p, h1, h2⟩ := eager_accepts hc hb hw h hH ha ((accepts_schema hw).2 ⟨front, back, hpos, hf, hback, hnamed⟩)
  exact ⟨p, parsed_extracted h1, h2⟩

theorem given_opt {ts : List ArgType} {ks : List (Str × ArgType)} {vs : List PNode} {p : ArgParser} (hp : Extracted ts ks vs p)
    {k : Str} (hk : ∃ t, (k, t) ∈ ks) {o : Option Node} (h : Given k vs o) : p.opt k = .ok o := by
  unfold ArgParser.opt
  rw [hp.opt k hk]
  cases h with
  | absent h => rw [h]; rfl
  | literal v a h1 h2 =>
    rw [h1]
    show (toNode v >>= fun a => Res.ok (some a)) = _
    unfold toNode
    rw [literal_atomic h2]
    rfl

theorem extracted_node {ts : List ArgType} {ks : List (Str × ArgType)} {vs : List PNode} {p : ArgParser} (hp : Extracted ts ks vs p)
    {i : Nat} {v : PNode} {a : Node} (hi : i < ts.length) (hv : (positional vs)[i]? = some v) (ha : Literal v a) (call : PNode) :
    p.posNode call (i + 1) = .ok a := by
  unfold ArgParser.posNode
  rw [hp.pos i v call hi hv]
  show toNode v = _
  unfold toNode
  rw [literal_atomic ha]

/-! ## Extraction of arguments of a type -/

theorem toNode_literal {v : PNode} {a : Node} (h : Literal v a) : toNode v = .ok a := by
  cases h <;> rfl

theorem atomType_literal {t : ArgType} {v : PNode} (h : isAtomType t = true) (ht : HasType t v) : ∃ a, Literal v a := by
  cases ht with
  | literal _ _ a h => exact ⟨a, h⟩
  | string _ a => exact ⟨a, .string a⟩
  | raw _ a => exact ⟨a, .raw a⟩
  | symbol _ a => exact ⟨a, .symbol a⟩
  | number _ a => exact ⟨a, .number a⟩
  | symbolic _ _ a h =>
    rcases h with rfl | rfl
    · exact ⟨a, .symbol a⟩
    · exact ⟨a, .number a⟩
  | anyList => cases h
  | list => cases h
  | any => cases h

theorem listType_list {t : ArgType} {v : PNode} (h : isListType t = true) (ht : HasType t v) :
    ∃ ns s e w, v = .list ns s e w := by
  cases ht with
  | anyList ns s e w => exact ⟨ns, s, e, w, rfl⟩
  | list _ ns s e w => exact ⟨ns, s, e, w, rfl⟩
  | _ => cases h

theorem toNodeList_ok {t : ArgType} (ht : isAtomType t = true) : ∀ {vs : List PNode}, (∀ v ∈ vs, HasType t v) →
    ∃ as, toNodeList vs = .ok as ∧ Pairs (fun v a => HasType t v ∧ Literal v a) vs as
  | [], _ => ⟨[], rfl, .nil⟩
  | v :: vs, h => by
    obtain ⟨as, h1, h2⟩ := toNodeList_ok ht (vs := vs) fun v hv => h v (by simp [hv])
    obtain ⟨a, ha⟩ := atomType_literal ht (h v (by simp))
    refine ⟨a :: as, ?_, .cons ⟨h v (by simp), ha⟩ h2⟩
    unfold toNodeList
    rw [toNode_literal ha, h1]
    rfl

end Seam
