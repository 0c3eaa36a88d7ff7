import Verif.Lemmas.Lists
import Verif.Lemmas.Void

/-! `%sort`. -/

namespace Seam
open Spec

/-! ## The order of keys -/

def digitsOf (ds : Str) : Nat := ds.foldl (fun n d => 10 * n + (d.toNat - '0'.toNat)) 0

theorem isDigit_iff (c : Char) : isDigit c = true ↔ '0' ≤ c ∧ c ≤ '9' := by
  simp [isDigit]

theorem digitsVal_iff : ∀ (ds : Str) (acc n : Nat), digitsVal acc ds = some n ↔
    (∀ d ∈ ds, '0' ≤ d ∧ d ≤ '9') ∧ n = ds.foldl (fun n d => 10 * n + (d.toNat - '0'.toNat)) acc
  | [], acc, n => by simp [digitsVal, eq_comm]
  | c :: cs, acc, n => by
    unfold digitsVal
    by_cases h : isDigit c = true
    · rw [if_pos h, digitsVal_iff cs]
      rw [isDigit_iff] at h
      have h48 : ('0' : Char).toNat = 48 := rfl
      simp only [List.mem_cons, forall_eq_or_imp, h, true_and, List.foldl_cons, h48, Nat.mul_comm acc 10]
    · rw [if_neg h]
      rw [isDigit_iff] at h
      simp [h]

theorem digit_not_sign {d : Char} (h : '0' ≤ d ∧ d ≤ '9') : d ≠ '+' ∧ d ≠ '-' := by
  refine ⟨?_, ?_⟩
  · rintro rfl; exact absurd h (by decide)
  · rintro rfl; exact absurd h (by decide)

theorem parseI64_iff {x : Str} {z : Int} : parseI64 x = some z ↔ Integer x z := by
  have key : ∀ (neg : Bool) (ds : Str), (if ds.isEmpty then none else match digitsVal 0 ds with
      | some n => if neg then (if n ≤ 2 ^ 63 then some (-(n : Int)) else none)
        else (if n < 2 ^ 63 then some (n : Int) else none)
      | none => none) = some z ↔ ds ≠ [] ∧ (∀ d ∈ ds, '0' ≤ d ∧ d ≤ '9') ∧ -(2 ^ 63) ≤ z ∧ z < 2 ^ 63 ∧
        z = if neg then -(digitsOf ds : Int) else digitsOf ds := by
    intro neg ds
    cases ds with
    | nil => simp
    | cons d ds =>
      rw [if_neg (by simp)]
      by_cases hd : ∀ e ∈ d :: ds, '0' ≤ e ∧ e ≤ '9'
      · rw [(digitsVal_iff (d :: ds) 0 (digitsOf (d :: ds))).2 ⟨hd, rfl⟩]
        simp only [ne_eq, reduceCtorEq, not_false_eq_true, true_and]
        cases neg
        · simp only [Bool.false_eq_true, if_false]
          by_cases hn : digitsOf (d :: ds) < 2 ^ 63
          · rw [if_pos hn]
            simp only [Option.some.injEq]
            constructor
            · rintro rfl; refine ⟨hd, ?_⟩; omega
            · rintro ⟨_, _, _, rfl⟩; rfl
          · rw [if_neg hn]
            simp only [reduceCtorEq, false_iff]
            omega
        · simp only [if_true]
          by_cases hn : digitsOf (d :: ds) ≤ 2 ^ 63
          · rw [if_pos hn]
            simp only [Option.some.injEq]
            constructor
            · rintro rfl; refine ⟨hd, ?_⟩; omega
            · rintro ⟨_, _, _, rfl⟩; rfl
          · rw [if_neg hn]
            simp only [reduceCtorEq, false_iff]
            omega
      · have : digitsVal 0 (d :: ds) = none := by
          cases h : digitsVal 0 (d :: ds) with
          | none => rfl
          | some n => exact absurd ((digitsVal_iff _ _ _).1 h).1 hd
        rw [this]
        simp only [reduceCtorEq, false_iff]
        exact fun h => hd h.2.1
  unfold Integer
  unfold parseI64
  split
  · rename_i neg ds heq
    refine (key neg ds).trans ?_
    split at heq
    · cases heq
      constructor
      · rintro ⟨h1, h2, h3, h4, h5⟩
        exact ⟨_, h1, h2, h3, h4, Or.inl ⟨Or.inr rfl, h5⟩⟩
      · rintro ⟨ds, h1, h2, h3, h4, (⟨rfl | h6, h7⟩ | ⟨h6, _⟩)⟩
        · exact absurd rfl (digit_not_sign (h2 '+' (by simp))).1
        · cases h6; exact ⟨h1, h2, h3, h4, h7⟩
        · cases h6
    · cases heq
      constructor
      · rintro ⟨h1, h2, h3, h4, h5⟩
        exact ⟨_, h1, h2, h3, h4, Or.inr ⟨rfl, h5⟩⟩
      · rintro ⟨ds, h1, h2, h3, h4, (⟨rfl | h6, h7⟩ | ⟨h6, h7⟩)⟩
        · exact absurd rfl (digit_not_sign (h2 '-' (by simp))).2
        · cases h6
        · cases h6; exact ⟨h1, h2, h3, h4, h7⟩
    · rename_i h6 h7
      cases heq
      constructor
      · rintro ⟨h1, h2, h3, h4, h5⟩
        exact ⟨_, h1, h2, h3, h4, Or.inl ⟨Or.inl rfl, h5⟩⟩
      · rintro ⟨ds, h1, h2, h3, h4, (⟨rfl | h8, h9⟩ | ⟨h8, _⟩)⟩
        · exact ⟨h1, h2, h3, h4, h9⟩
        · exact absurd h8 (h6 _)
        · exact absurd h8 (h7 _)

theorem lexLe_iff : ∀ (a b : Str), LexLe a b ↔ strCmp a b ≠ .gt
  | [], [] => ⟨fun _ => by simp [strCmp], fun _ => .nil _⟩
  | [], _ :: _ => ⟨fun _ => by simp [strCmp], fun _ => .nil _⟩
  | _ :: _, [] => ⟨nofun, fun h => absurd rfl h⟩
  | a :: as, b :: bs => by
    unfold strCmp
    constructor
    · intro h
      cases h with
      | less _ _ _ _ h => simp [h]
      | same _ _ _ h => simpa using (lexLe_iff as bs).1 h
    · intro h
      by_cases h1 : a.toNat < b.toNat
      · exact .less _ _ _ _ h1
      · by_cases h2 : b.toNat < a.toNat
        · simp [h1, h2] at h
        · have : a = b := Char.ext (UInt32.toNat_inj.1 (by simp only [Char.toNat] at h1 h2; omega))
          subst this
          simp only [Nat.lt_irrefl, if_false] at h
          exact .same _ _ _ ((lexLe_iff as bs).2 h)

theorem keyLe_iff {ext : Ext} {a b : Str} : KeyLe ext a b ↔ keyCmp ext a b ≠ .gt := by
  have hI : ∀ x z, Integer x z ↔ parseI64 x = some z := fun x z => parseI64_iff.symm
  have hnone : (parseI64 a = none ∨ parseI64 b = none) ↔ ¬ ∃ x y, Integer a x ∧ Integer b y := by
    simp only [hI]
    cases parseI64 a <;> cases parseI64 b <;> simp
  cases ha : parseI64 a with
  | some x =>
    cases hb : parseI64 b with
    | some y =>
      have : keyCmp ext a b = if x < y then .lt else if y < x then .gt else .eq := by
        unfold keyCmp; rw [ha, hb]
      rw [this]
      have hc : ¬ ¬ ∃ x y, Integer a x ∧ Integer b y := not_not_intro ⟨x, y, (hI _ _).2 ha, (hI _ _).2 hb⟩
      constructor
      · intro h
        cases h with
        | ints x' y' h1 h2 h3 =>
          rw [hI, ha] at h1; cases h1
          rw [hI, hb] at h2; cases h2
          have : ¬ y < x := by omega
          by_cases h : x < y <;> simp [this, h]
        | floats _ h => exact absurd h hc
        | texts h => exact absurd h hc
      · intro h
        refine .ints x y ((hI _ _).2 ha) ((hI _ _).2 hb) ?_
        apply Classical.byContradiction
        intro hlt
        have h1 : ¬ x < y := by omega
        have h2 : y < x := by omega
        simp [h1, h2] at h
    | none =>
      have : keyCmp ext a b = match ext.floatCmp a b with | some o => o | none => strCmp a b := by
        unfold keyCmp; rw [ha, hb]; rfl
      rw [this]
      have hn := hnone.1 (Or.inr hb)
      constructor
      · intro h
        cases h with
        | ints x' y' h1 h2 h3 => exact absurd ⟨_, _, h1, h2⟩ hn
        | floats o _ h1 h2 => rw [h1]; exact h2
        | texts _ h1 h2 => rw [h1]; exact (lexLe_iff a b).1 h2
      · intro h
        cases ho : ext.floatCmp a b with
        | some o => rw [ho] at h; exact .floats o hn ho h
        | none => rw [ho] at h; exact .texts hn ho ((lexLe_iff a b).2 h)
  | none =>
    have : keyCmp ext a b = match ext.floatCmp a b with | some o => o | none => strCmp a b := by
      unfold keyCmp; rw [ha]; rfl
    rw [this]
    have hn := hnone.1 (Or.inl ha)
    constructor
    · intro h
      cases h with
      | ints x' y' h1 h2 h3 => exact absurd ⟨_, _, h1, h2⟩ hn
      | floats o _ h1 h2 => rw [h1]; exact h2
      | texts _ h1 h2 => rw [h1]; exact (lexLe_iff a b).1 h2
    · intro h
      cases ho : ext.floatCmp a b with
      | some o => rw [ho] at h; exact .floats o hn ho h
      | none => rw [ho] at h; exact .texts hn ho ((lexLe_iff a b).2 h)

theorem integer_unique {x : Str} {y z : Int} (h : Integer x y) (h' : Integer x z) : y = z := by
  rw [← parseI64_iff] at h h'
  exact Option.some.inj (h.symm.trans h')

theorem lexLe_total (a b : Str) : LexLe a b ∨ LexLe b a := by
  rw [lexLe_iff, lexLe_iff, strCmp_swap a b]
  cases strCmp a b <;> simp [Ordering.swap]

theorem lexLe_trans : ∀ {a b c : Str}, LexLe a b → LexLe b c → LexLe a c
  | _, _, c, .nil _, _ => .nil c
  | _, _, _, .less a b x y h, h' => by
    cases h' with
    | less _ d _ z h2 => exact .less _ _ _ _ (Nat.lt_trans h h2)
    | same _ _ z h2 => exact .less _ _ _ _ h
  | _, _, _, .same a x y h, h' => by
    cases h' with
    | less _ d _ z h2 => exact .less _ _ _ _ h2
    | same _ _ z h2 => exact .same _ _ _ (lexLe_trans h h2)

theorem comparable_integers {ext : Ext} {ks : List Str} (h : ∀ k ∈ ks, ∃ z, Integer k z) : Comparable ext ks where
  total a ha b hb := by
    obtain ⟨x, hx⟩ := h a ha
    obtain ⟨y, hy⟩ := h b hb
    rcases Int.le_total x y with hle | hle
    · exact Or.inl (.ints x y hx hy hle)
    · exact Or.inr (.ints y x hy hx hle)
  trans a ha b hb c hc h1 h2 := by
    obtain ⟨x, hx⟩ := h a ha
    obtain ⟨y, hy⟩ := h b hb
    obtain ⟨z, hz⟩ := h c hc
    have key : ∀ {a b : Str} {x y : Int}, Integer a x → Integer b y → KeyLe ext a b → x ≤ y := by
      intro a b x y hx hy h
      cases h with
      | ints x' y' h1 h2 h3 => rw [integer_unique hx h1, integer_unique hy h2]; exact h3
      | floats _ h => exact absurd ⟨_, _, hx, hy⟩ h
      | texts h => exact absurd ⟨_, _, hx, hy⟩ h
    exact .ints x z hx hz (Int.le_trans (key hx hy h1) (key hy hz h2))

theorem comparable_texts {ext : Ext} {ks : List Str} (h : ∀ a ∈ ks, ∀ b ∈ ks, (¬ ∃ x y, Integer a x ∧ Integer b y) ∧
    ext.floatCmp a b = none) : Comparable ext ks := by
  have key : ∀ a ∈ ks, ∀ b ∈ ks, KeyLe ext a b ↔ LexLe a b := by
    intro a ha b hb
    obtain ⟨h1, h2⟩ := h a ha b hb
    constructor
    · intro h'
      cases h' with
      | ints _ _ h3 h4 => exact absurd ⟨_, _, h3, h4⟩ h1
      | floats _ _ h3 => rw [h2] at h3; cases h3
      | texts _ _ h3 => exact h3
    · exact .texts h1 h2
  constructor
  · intro a ha b hb
    rw [key a ha b hb, key b hb a ha]
    exact lexLe_total a b
  · intro a ha b hb c hc h1 h2
    rw [key a ha b hb] at h1
    rw [key b hb c hc] at h2
    rw [key a ha c hc]
    exact lexLe_trans h1 h2

/-! ## Sorting -/

theorem mergeSort_on {α : Type} (le : α → α → Bool) (l : List α)
    (ht : ∀ a ∈ l, ∀ b ∈ l, ∀ c ∈ l, le a b = true → le b c = true → le a c = true)
    (hl : ∀ a ∈ l, ∀ b ∈ l, le a b = true ∨ le b a = true) :
    (l.mergeSort le).Pairwise (fun a b => le a b = true) ∧
    ∀ sub : List α, sub.Sublist l → sub.Pairwise (fun a b => le a b = true) → sub.Sublist (l.mergeSort le) := by
  let le' : {x // x ∈ l} → {x // x ∈ l} → Bool := fun a b => le a.1 b.1
  have h1 : (l.attach.mergeSort le').map (·.1) = l.mergeSort le := by
    rw [List.map_mergeSort (s := le) (fun _ _ _ _ => rfl), List.attach_map_subtype_val]
  have t' : ∀ (a b c : {x // x ∈ l}), le' a b = true → le' b c = true → le' a c = true :=
    fun a b c => ht a.1 a.2 b.1 b.2 c.1 c.2
  have l' : ∀ (a b : {x // x ∈ l}), (le' a b || le' b a) = true := fun a b => by
    rw [Bool.or_eq_true]; exact hl a.1 a.2 b.1 b.2
  refine ⟨?_, fun sub hs hp => ?_⟩
  · rw [← h1, List.pairwise_map]
    exact List.pairwise_mergeSort t' l' _
  · rw [← List.attach_map_subtype_val l] at hs
    obtain ⟨sub', hs', rfl⟩ := List.sublist_map_iff.1 hs
    rw [List.pairwise_map] at hp
    rw [← h1]
    exact (List.sublist_mergeSort t' l' hp hs').map _

/-- The order of items: by their keys, or reversed. -/
theorem sortItems_sorted {ext : Ext} (asc : Bool) {items : List (Str × PNode)} (h : Comparable ext (items.map (·.1))) :
    (sortItems ext asc items).Perm items ∧
    (sortItems ext asc items).Pairwise (fun a b => if asc then KeyLe ext a.1 b.1 else KeyLe ext b.1 a.1) ∧
    ∀ sub : List (Str × PNode), sub.Sublist items → sub.Pairwise (fun a b => if asc then KeyLe ext a.1 b.1 else KeyLe ext b.1 a.1) →
      sub.Sublist (sortItems ext asc items) := by
  refine ⟨List.mergeSort_perm _ _, ?_⟩
  let le : Str × PNode → Str × PNode → Bool := fun a b =>
    if asc then keyCmp ext a.1 b.1 != .gt else keyCmp ext b.1 a.1 != .gt
  have hle : ∀ a b : Str × PNode, le a b = true ↔ if asc then KeyLe ext a.1 b.1 else KeyLe ext b.1 a.1 := by
    intro a b
    cases asc <;> simp [le, keyLe_iff]
  have hm : ∀ a ∈ items, a.1 ∈ items.map (·.1) := fun a ha => List.mem_map_of_mem ha
  obtain ⟨h1, h2⟩ := mergeSort_on le items
    (by
      intro a ha b hb c hc h1 h2
      rw [hle] at h1 h2 ⊢
      cases asc
      · exact h.trans _ (hm c hc) _ (hm b hb) _ (hm a ha) h2 h1
      · exact h.trans _ (hm a ha) _ (hm b hb) _ (hm c hc) h1 h2)
    (by
      intro a ha b hb
      rw [hle, hle]
      cases asc
      · exact h.total _ (hm b hb) _ (hm a ha)
      · exact h.total _ (hm a ha) _ (hm b hb))
  refine ⟨h1.imp fun {a b} h => (hle a b).1 h, fun sub hs hp => h2 sub hs (hp.imp fun {a b} h => (hle a b).2 h)⟩

/-! ## The macro -/

theorem keyed_items {ext : Ext} {f : Str} {c : PNode} {ns : List PNode} {s t : St} {items : List (Str × PNode)}
    (h : Keyed ext f c ns s items t) : items.map (·.2) = ns := by
  induction h with
  | nil => rfl
  | cons n k a ns rest s u t h1 h2 h3 ih => simp [ih]

theorem runs_sortKeys {ext : Ext} {f : Str} {c : PNode} {ns : List PNode} {s t : St} {items : List (Str × PNode)}
    (h : Keyed ext f c ns s items t) (site : Site) : Runs ext (fun rec => sortKeys rec c f site ns) s (.ok items) t := by
  induction h with
  | nil s => exact ⟨by simp, 0, rfl⟩
  | cons n k a ns rest s u t h1 h2 h3 ih =>
    obtain ⟨g, h4, h5⟩ := ((Runs.ev (Mon.call _) (runs_invoke.2 h1)).and
      (Runs.ev (fun _ _ h => sortKeys_le h c f site ns) ih)).pick
    refine ⟨by simp, g, ?_⟩
    simp only [sortKeys, rethrow, M.bind_def, h4]
    rw [literal_atomic h2]
    simp only [M.bind_def, h5]
    rfl

def sortKey : List (Str × ArgType) :=
  [(str! "order", oneOf [str! "ascending", str! "descending"]), (str! "key", .symbol [])]
theorem sort_mem : (str! "sort", schemaEntries [.any []] sortKey, none) ∈ eagerMacros := by
  simp [eagerMacros, schemaEntries, sortKey]

theorem sort_option {k : Str} {v : PNode} (h : SortOption k v) :
    (∀ t, (k, t) ∈ sortKey → HasType t v) ∧ ∃ t, (k, t) ∈ sortKey := by
  rcases h with ⟨rfl, h⟩ | ⟨rfl, a, rfl⟩
  · refine ⟨fun t ht => ?_, _, by simp [sortKey]; rfl⟩
    simp [sortKey] at ht
    subst ht
    exact (hasType_oneOf (by simp)).2 h
  · refine ⟨fun t ht => ?_, _, by simp [sortKey]; rfl⟩
    simp [sortKey] at ht
    subst ht
    exact .symbol _ _ (Or.inl rfl)

/-- The key macro does not give one literal for an element: what becomes of the keys. -/
theorem runs_sortKeys_stop {ext : Ext} {f : Str} {c : PNode} {pre : List PNode} {s u t : St} {items : List (Str × PNode)}
    (h : Keyed ext f c pre s items u) (site : Site) (n : PNode) (post : List PNode) {r : Res (List PNode)}
    (hr : Invokes ext f c [n] u r t) :
    (∀ e, r = .err e → Runs ext (fun rec => sortKeys rec c f site (pre ++ n :: post)) s
      (.err (expErr "Error evaluating `:key` macro." site)) t) ∧
    (r = .panic → Runs ext (fun rec => sortKeys rec c f site (pre ++ n :: post)) s .panic t) ∧
    (∀ out, r = .ok out → (¬ ∃ k a, out = [k] ∧ Literal k a) →
      ∃ e, Runs ext (fun rec => sortKeys rec c f site (pre ++ n :: post)) s (.err e) t) := by
  induction h with
  | nil s =>
    obtain ⟨hd, g, hg⟩ := runs_invoke.2 hr
    simp only at hg
    refine ⟨?_, ?_, ?_⟩
    · rintro e rfl
      refine ⟨by simp, g, ?_⟩
      simp only [List.nil_append, sortKeys, M.bind_def, rethrow, hg]
      rfl
    · rintro rfl
      refine ⟨by simp, g, ?_⟩
      simp only [List.nil_append, sortKeys, M.bind_def, rethrow, hg]
    · rintro out rfl hl
      rcases out with _ | ⟨k, _ | ⟨k', out⟩⟩
      · refine ⟨expErr "`:key` macro did not yield any value to compare against." site, by simp, g, ?_⟩
        simp only [List.nil_append, sortKeys, M.bind_def, rethrow, hg]
        rfl
      · rcases ha : k.atomic? with _ | a
        · refine ⟨expErr "List items in `%sort` must resolve to literals under `:key`." k.site, by simp, g, ?_⟩
          simp only [List.nil_append, sortKeys, M.bind_def, rethrow, hg, ha]
          rfl
        · exact absurd ⟨k, a, rfl, literal_of_atomic ha⟩ hl
      · refine ⟨expErr "`:key` macro expanded to more than one value." site, by simp, g, ?_⟩
        simp only [List.nil_append, sortKeys, M.bind_def, rethrow, hg]
        rfl
  | cons m k a ns rest s v u h1 h2 h3 ih =>
    have key : ∀ q : Res (List (Str × PNode)), (∀ x, q ≠ .ok x) →
        Runs ext (fun rec => sortKeys rec c f site (ns ++ n :: post)) v q t →
        Runs ext (fun rec => sortKeys rec c f site (m :: ns ++ n :: post)) s q t := by
      intro q hq hR
      obtain ⟨g, h4, h5⟩ := ((Runs.ev (Mon.call _) (runs_invoke.2 h1)).and
        (Runs.ev (fun _ _ h => sortKeys_le h c f site (ns ++ n :: post)) hR)).pick
      refine ⟨hR.1, g, ?_⟩
      simp only [List.cons_append, sortKeys, M.bind_def, rethrow, h4, literal_atomic h2, h5]
      cases q with
      | ok x => exact absurd rfl (hq x)
      | _ => rfl
    obtain ⟨i1, i2, i3⟩ := ih hr
    refine ⟨fun e he => key _ (by simp) (i1 e he), fun he => key _ (by simp) (i2 he), fun out he hl => ?_⟩
    obtain ⟨e, he⟩ := i3 out he hl
    exact ⟨e, key _ (by simp) he⟩

/-- What `%sort` does with accepted arguments. -/
theorem sort_runs {ext : Ext} {args vs : List PNode} {c n : PNode} {o key : Option Node}
    (hc : IsCall (str! "sort") args c) {s u : St} (ha : Evals ext args s (.ok vs) u)
    (hp : positional vs = [n]) (hn : NamedArgs SortOption vs)
    (ho : Given (str! "order") vs o) (hk : Given (str! "key") vs key) {r : Res (List PNode)} {t : St} :
    Evals ext [c] s r t ↔ Runs ext (fun rec =>
      match n with
      | .list nodes site e _ => do
        let items ← sortKeys rec c ((key.map (·.value)).getD (str! "do")) ((key.map (·.site)).getD c.site) nodes
        pure [.list (layoutOf nodes ((sortItems ext (isAscending o) items).map (·.2))) site e c.lw]
      | n => M.fail "`%sort` expects a list." n.site) u r t := by
  obtain ⟨p, hp', h⟩ := eager_extract hc (b := .sort) rfl sort_mem (H := fun vs p rec => do
      let arg ← M.lift (p.pos c 1)
      let order ← M.lift (p.opt (str! "order"))
      let key ← M.lift (p.opt (str! "key"))
      let keySite := match key with | some k => k.site | none => c.site
      let keyFn := match key with | some k => k.value | none => str! "do"
      match arg with
      | .list nodes site e _ => do
        let items ← sortKeys rec c keyFn keySite nodes
        let sorted := (sortItems ext (isAscending order) items).map (·.2)
        pure [.list (layoutOf nodes sorted) site e c.lw]
      | n => M.fail "`%sort` expects a list." n.site) (fun _ => rfl)
    (fun _ p => Mon.bind (Mon.const _) fun a => Mon.bind (Mon.const _) fun _ => Mon.bind (Mon.const _) fun _ => by
      cases a with
      | list => exact Mon.bind (fun _ _ h => sortKeys_le h _ _ _ _) fun _ => Mon.const _
      | _ => exact Mon.const _)
    ha (front := [n]) (back := []) hp (.cons _ _ _ _ (hasType_any _) .nil) (by simp)
    (fun k v s w hm => ⟨(sort_option (hn k v s w hm)).1, fun h => by
      obtain ⟨t, ht⟩ := (sort_option (hn k v s w hm)).2
      exact absurd ht (h t)⟩)
  rw [h]
  have h1 : p.pos c 1 = .ok n := hp'.pos 0 _ c (by simp) (by rw [hp]; rfl)
  have h2 : p.opt (str! "order") = .ok o := given_opt hp' ⟨_, by simp [sortKey]; rfl⟩ ho
  have h3 : p.opt (str! "key") = .ok key := given_opt hp' ⟨_, by simp [sortKey]; rfl⟩ hk
  rw [h1, h2, h3]
  apply runs_congr
  intro rec
  cases key <;> cases n <;> rfl

theorem evals_sort {ext : Ext} {args vs ns : List PNode} {c : PNode} {si : Site} {e : Token} {w : Str} {o key : Option Node}
    (hc : IsCall (str! "sort") args c) {s u t : St} (ha : Evals ext args s (.ok vs) u)
    (hp : positional vs = [.list ns si e w]) (hn : NamedArgs SortOption vs)
    (ho : Given (str! "order") vs o) (hk : Given (str! "key") vs key) {items : List (Str × PNode)}
    (hi : Keyed ext ((key.map (·.value)).getD (str! "do")) c ns u items t) :
    Evals ext [c] s (.ok [.list (layoutOf ns ((sortItems ext (isAscending o) items).map (·.2))) si e c.lw]) t := by
  rw [sort_runs hc ha hp hn ho hk]
  obtain ⟨_, f, hf⟩ := runs_sortKeys hi ((key.map (·.site)).getD c.site)
  refine ⟨by simp, f, ?_⟩
  simp only at hf
  simp only [M.bind_def, hf]
  rfl

theorem pairs_cons {α β : Type} {R : α → β → Prop} {a : α} {as : List α} {bs : List β} (h : Pairs R (a :: as) bs) :
    ∃ b bs', R a b ∧ Pairs R as bs' ∧ bs = b :: bs' := by
  cases h with
  | cons h1 h2 => exact ⟨_, _, h1, h2, rfl⟩

theorem pairs_length {α β : Type} {R : α → β → Prop} {as : List α} {bs : List β} (h : Pairs R as bs) : bs.length = as.length := by
  induction h with
  | nil => rfl
  | cons _ _ ih => simp [ih]

theorem values_length {ns : List PNode} {xs : List Str} (h : Values ns xs) : xs.length = ns.length := pairs_length h

theorem values_zip {ns : List PNode} {xs : List Str} (h : Values ns xs) : ∀ a ∈ xs.zip ns, ∃ b, Literal a.2 b ∧ b.value = a.1 := by
  unfold Values at h
  induction h with
  | nil => simp
  | cons h1 _ ih =>
    intro a ha
    rw [List.zip_cons_cons] at ha
    rcases List.mem_cons.1 ha with rfl | ha
    · exact h1
    · exact ih a ha

theorem literal_bare {n m : PNode} {a : Node} (h : bare n = bare m) (hm : Literal m a) : ∃ b, Literal n b ∧ b.value = a.value := by
  cases hm <;> cases n <;> simp [bare, PNode.setLw] at h
  · exact ⟨_, .symbol _, h.1⟩
  · exact ⟨_, .number _, h.1⟩
  · exact ⟨_, .string _, h.1⟩
  · exact ⟨_, .raw _, h.1⟩

theorem values_bare : ∀ {ms : List PNode} {sorted : List (Str × PNode)}, ms.map bare = sorted.map (bare ·.2) →
    (∀ a ∈ sorted, ∃ b, Literal a.2 b ∧ b.value = a.1) → Values ms (sorted.map (·.1))
  | [], [], _, _ => .nil
  | [], _ :: _, h, _ => by simp at h
  | _ :: _, [], h, _ => by simp at h
  | m :: ms, x :: xs, h, hv => by
    simp only [List.map_cons, List.cons.injEq] at h
    obtain ⟨b, hb, hb'⟩ := hv x (by simp)
    obtain ⟨b', h1, h2⟩ := literal_bare h.1 hb
    exact .cons ⟨b', h1, h2.trans hb'⟩ (values_bare h.2 fun a ha => hv a (by simp [ha]))

theorem intercalate_nil {α : Type} : ∀ (xs : List (List α)), List.intercalate [] xs = xs.flatten
  | [] => rfl
  | [x] => by simp [List.intercalate]
  | x :: y :: xs => by
    have := intercalate_nil (y :: xs)
    simp only [List.intercalate] at this ⊢
    simp [this]

/-- Literals without macros are their own keys. -/
theorem keyed_plain {ext : Ext} {c : PNode} : ∀ {ns : List PNode} {xs : List Str} (s : St), MacrosFree ns → Values ns xs →
    Keyed ext (str! "do") c ns s (xs.zip ns) s
  | [], _, s, _, hv => by cases hv; exact .nil s
  | n :: ns, _, s, hf, hv => by
    obtain ⟨x, xs, ⟨a, h1, h2⟩, h, rfl⟩ := pairs_cons hv
    cases hf with
    | cons _ _ hf1 hf2 =>
      subst h2
      refine .cons n n a ns _ s s s ?_ h1 (keyed_plain s hf2 h)
      rw [invokes_builtin (b := .do_) rfl]
      exact runs_nodes.2 (macroFree_evals ext n hf1 s)

theorem sort_rejects {ext : Ext} {args vs : List PNode} {c : PNode}
    (hc : IsCall (str! "sort") args c) {s u : St} (ha : Evals ext args s (.ok vs) u)
    (hn : ¬ ((∃ n, positional vs = [n]) ∧ NamedArgs SortOption vs)) :
    ∃ e, Evals ext [c] s (.err e) u := by
  refine eager_rejects sort_mem hc ha fun hacc => hn ?_
  obtain ⟨front, back, h1, h2, h3, h4⟩ := (accepts_schema (eager_wellDeclared _ sort_mem)).1 hacc
  cases h2 with
  | cons _ n _ _ h5 h6 =>
    cases h6
    refine ⟨⟨n, ?_⟩, fun k v s w hm => ?_⟩
    · cases back with
      | nil => exact h1
      | cons b _ => obtain ⟨t, ht, _⟩ := h3 b (by simp); cases ht
    · obtain ⟨h5, h6⟩ := h4 k v s w hm
      by_cases hk : k = str! "order"
      · subst hk
        exact Or.inl ⟨rfl, (hasType_oneOf (by simp)).1 (h5 _ (by simp [sortKey]))⟩
      · by_cases hk' : k = str! "key"
        · subst hk'
          obtain ⟨a, ha, _⟩ := hasType_symbol_iff.1 (h5 (.symbol []) (by simp [sortKey]))
          exact Or.inr ⟨rfl, a, ha⟩
        · obtain ⟨t, ht, hty⟩ := h6 (by simp [sortKey, hk, hk'])
          cases ht

theorem lastNamed_mem {k : Str} {v : PNode} : ∀ {vs : List PNode}, lastNamed k vs = some v → ∃ s w, .attr k v s w ∈ vs
  | [], h => by simp [lastNamed] at h
  | x :: vs, h => by
    have ih := fun h => lastNamed_mem (k := k) (v := v) (vs := vs) h
    cases x with
    | attr k' v' s w =>
      simp only [lastNamed] at h
      cases hl : lastNamed k vs with
      | some a =>
        rw [hl] at h
        obtain ⟨s, w, hm⟩ := ih (hl.trans h)
        exact ⟨s, w, by simp [hm]⟩
      | none =>
        rw [hl] at h
        by_cases hk : k' = k
        · subst hk; simp at h; subst h; exact ⟨s, w, by simp⟩
        · simp [hk] at h
    | _ =>
      obtain ⟨s, w, hm⟩ := ih h
      exact ⟨s, w, by simp [hm]⟩

/-- Under a keyword there is nothing or a literal. -/
theorem given_exists {k : Str} {vs : List PNode} (h : ∀ v s w, .attr k v s w ∈ vs → ∃ a, Literal v a) : ∃ o, Given k vs o := by
  cases hl : lastNamed k vs with
  | none => exact ⟨none, .absent hl⟩
  | some v =>
    obtain ⟨s, w, hm⟩ := lastNamed_mem hl
    obtain ⟨a, ha⟩ := h v s w hm
    exact ⟨some a, .literal v a hl ha⟩

theorem sort_given {vs : List PNode} (hn : NamedArgs SortOption vs) (k : Str) : ∃ o, Given k vs o :=
  given_exists fun v s w hm => by
    rcases hn k v s w hm with ⟨_, a, ha, _⟩ | ⟨_, a, rfl⟩
    · exact ⟨a, ha⟩
    · exact ⟨a, .symbol a⟩

theorem sort_not_list {ext : Ext} {args vs : List PNode} {c n : PNode}
    (hc : IsCall (str! "sort") args c) {s u : St} (ha : Evals ext args s (.ok vs) u) (hp : positional vs = [n])
    (hn : n.list? = none) : ∃ e, Evals ext [c] s (.err e) u := by
  by_cases hno : NamedArgs SortOption vs
  · obtain ⟨o, ho⟩ := sort_given hno (str! "order")
    obtain ⟨key, hk⟩ := sort_given hno (str! "key")
    cases n with
    | list => simp [PNode.list?] at hn
    | _ => exact ⟨_, (sort_runs hc ha hp hno ho hk).2 (runs_fail.2 ⟨rfl, rfl⟩)⟩
  · exact sort_rejects hc ha fun h => hno h.2

end Seam
