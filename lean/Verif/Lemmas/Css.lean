import Verif.Spec.Css
import Verif.Lemmas.Markup

namespace Seam
open Spec

/-! ### Panics -/

mutual
theorem cssValue_noPanic (dbg : Str → Str) : ∀ n : PNode, cssValue dbg n ≠ .panic ∧ cssValue dbg n ≠ .diverge
  | .symbol n | .number n | .string n | .raw n => by simp [cssValue]
  | .attr k n s w => by simp [cssValue]
  | .list [] s e w => by simp [cssValue]
  | .list (h :: t) s e w => by
    have h1 := cssValue_noPanic dbg h
    have h2 := cssValues_noPanic dbg t
    simp only [cssValue]
    constructor
    · rw [Ne, Res.bind_eq_panic]
      rintro (h | ⟨a, _, h⟩)
      · exact h1.1 h
      · rw [Res.bind_eq_panic] at h
        rcases h with h | ⟨b, _, h⟩
        · exact h2.1 h
        · cases h
    · rw [Ne, Res.bind_eq_diverge]
      rintro (h | ⟨a, _, h⟩)
      · exact h1.2 h
      · rw [Res.bind_eq_diverge] at h
        rcases h with h | ⟨b, _, h⟩
        · exact h2.2 h
        · cases h
theorem cssValues_noPanic (dbg : Str → Str) : ∀ ns : List PNode, cssValues dbg ns ≠ .panic ∧ cssValues dbg ns ≠ .diverge
  | [] => by simp [cssValues]
  | n :: ns => by
    have h1 := cssValue_noPanic dbg n
    have h2 := cssValues_noPanic dbg ns
    simp only [cssValues]
    constructor
    · rw [Ne, Res.bind_eq_panic]
      rintro (h | ⟨a, _, h⟩)
      · exact h1.1 h
      · rw [Res.bind_eq_panic] at h
        rcases h with h | ⟨b, _, h⟩
        · exact h2.1 h
        · cases h
    · rw [Ne, Res.bind_eq_diverge]
      rintro (h | ⟨a, _, h⟩)
      · exact h1.2 h
      · rw [Res.bind_eq_diverge] at h
        rcases h with h | ⟨b, _, h⟩
        · exact h2.2 h
        · cases h
end

/-- Two bad outcomes at once. -/
def Fails {α : Type} (r : Res α) : Prop := r = .panic ∨ r = .diverge

theorem fails_bind {α β : Type} {r : Res α} {f : α → Res β} (h : Fails (r >>= f)) :
    Fails r ∨ ∃ a, r = .ok a ∧ Fails (f a) := by
  cases r with
  | ok a => exact Or.inr ⟨a, rfl, h⟩
  | err e => rcases h with h | h <;> cases h
  | panic => exact Or.inl (Or.inl rfl)
  | diverge => exact Or.inl (Or.inr rfl)

theorem not_fails_ok {α : Type} (a : α) : ¬ Fails (.ok a : Res α) := by rintro (h | h) <;> cases h
theorem not_fails_err {α : Type} (a : Err) : ¬ Fails (.err a : Res α) := by rintro (h | h) <;> cases h

theorem cssValue_notFails (dbg : Str → Str) (n : PNode) : ¬ Fails (cssValue dbg n) := by
  rintro (h | h)
  · exact (cssValue_noPanic dbg n).1 h
  · exact (cssValue_noPanic dbg n).2 h

theorem cssOneline_notFails (dbg : Str → Str) : ∀ ns : List PNode, ¬ Fails (cssOneline dbg ns)
  | [] => not_fails_ok _
  | n :: ns => by
    intro h
    have ih := cssOneline_notFails dbg ns
    cases n with
    | attr k v s w =>
      rcases fails_bind h with h | ⟨a, _, h⟩
      · exact cssValue_notFails _ _ h
      rcases fails_bind h with h | ⟨b, _, h⟩
      · exact ih h
      exact not_fails_ok _ h
    | _ =>
      rcases fails_bind h with h | ⟨a, _, h⟩
      · exact cssValue_notFails _ _ h
      rcases fails_bind h with h | ⟨b, _, h⟩
      · exact ih h
      exact not_fails_ok _ h

theorem cssProps_notFails (dbg : Str → Str) : ∀ ns : List PNode, ¬ Fails (cssProps dbg ns)
  | [] => not_fails_ok _
  | n :: ns => by
    intro h
    have ih := cssProps_notFails dbg ns
    cases n with
    | attr k v s w =>
      rcases fails_bind h with h | ⟨a, _, h⟩
      · exact cssValue_notFails _ _ h
      rcases fails_bind h with h | ⟨b, _, h⟩
      · exact ih h
      exact not_fails_ok _ h
    | _ => exact not_fails_err _ h

/-- The rules handled by the nested branch are the block rules. -/
theorem special_iff (v : Str) : (cssIsSpecial v = true ∧ cssOnelineRules.contains v = false) ↔ v ∈ blockRules := by
  constructor
  · rintro ⟨h1, h2⟩
    simp only [cssIsSpecial, Bool.and_eq_true, List.contains_iff_mem, cssSpecialSelectors, List.mem_cons,
      List.not_mem_nil, or_false] at h1
    obtain ⟨h1, h3⟩ := h1
    rcases h1 with rfl | rfl | rfl | rfl | rfl | rfl | rfl | rfl | rfl | rfl | rfl | rfl <;>
      first
      | (exfalso; revert h2; decide)
      | (exfalso; revert h3; decide)
      | decide
  · intro h
    simp only [blockRules, List.mem_cons, List.not_mem_nil, or_false] at h
    rcases h with rfl | rfl | rfl | rfl | rfl | rfl <;> decide

theorem oneline_iff (v : Str) : (cssIsSpecial v = true ∧ cssOnelineRules.contains v = true) ↔ v ∈ lineRules := by
  constructor
  · rintro ⟨h1, h2⟩
    simpa [cssOnelineRules, lineRules] using h2
  · intro h
    simp only [lineRules, List.mem_cons, List.not_mem_nil, or_false] at h
    rcases h with rfl | rfl | rfl <;> decide

theorem special_split (v : Str) : cssIsSpecial v = true ↔ v ∈ blockRules ∨ v ∈ lineRules := by
  rw [← special_iff, ← oneline_iff]
  cases cssIsSpecial v <;> cases cssOnelineRules.contains v <;> simp

mutual
theorem cssRule_notFails (dbg : Str → Str) {body : Bool} : ∀ {ns : List PNode}, RuleOk body ns → ¬ Fails (cssRule dbg ns)
  | [], h => by cases h
  | h :: rest, hr => by
    cases hr with
    | mk _ a _ ha hx hb =>
      intro hf
      rw [cssRule, isAtom_iff.2 ha] at hf
      simp only [] at hf
      split at hf
      · rename_i hsp
        split at hf
        · rcases fails_bind hf with h | ⟨r, _, h⟩
          · exact cssOneline_notFails dbg _ h
          · exact not_fails_ok _ h
        · rename_i hol
          have hblk := (special_iff a.value).1 ⟨hsp, by simpa using hol⟩
          rcases fails_bind hf with h | ⟨r, _, h⟩
          · exact cssNested_notFails dbg (hb hblk) h
          · exact not_fails_ok _ h
      · rcases fails_bind hf with h | ⟨r, _, h⟩
        · exact cssProps_notFails dbg _ h
        · exact not_fails_ok _ h
theorem cssNested_notFails (dbg : Str → Str) {body : Bool} : ∀ {rules : Bool} {ns : List PNode},
    (∀ ks s e w, PNode.list ks s e w ∈ ns → RuleOk body ks) → ¬ Fails (cssNested dbg rules ns)
  | rules, [], h => by intro hf; rw [cssNested] at hf; exact not_fails_ok _ hf
  | rules, .list ks s e w :: rest, h => by
    intro hf
    rw [cssNested] at hf
    rcases fails_bind hf with h1 | ⟨r, _, h1⟩
    · exact cssRule_notFails dbg (h ks s e w (by simp)) h1
    rcases fails_bind h1 with h2 | ⟨r, _, h2⟩
    · exact cssNested_notFails dbg (fun ks s e w hm => h ks s e w (List.mem_cons_of_mem _ hm)) h2
    exact not_fails_ok _ h2
  | rules, .attr k v s w :: rest, h => by
    intro hf
    rw [cssNested] at hf
    split at hf
    · exact not_fails_err _ hf
    rcases fails_bind hf with h1 | ⟨r, _, h1⟩
    · exact cssValue_notFails dbg _ h1
    rcases fails_bind h1 with h2 | ⟨r, _, h2⟩
    · exact cssNested_notFails dbg (fun ks s e w hm => h ks s e w (List.mem_cons_of_mem _ hm)) h2
    exact not_fails_ok _ h2
  | rules, .symbol a :: rest, h | rules, .number a :: rest, h | rules, .string a :: rest, h
  | rules, .raw a :: rest, h => by
    intro hf
    rw [cssNested] at hf
    · split at hf
      · exact not_fails_err _ hf
      rcases fails_bind hf with h1 | ⟨r, _, h1⟩
      · exact cssValue_notFails dbg _ h1
      rcases fails_bind h1 with h2 | ⟨r, _, h2⟩
      · exact cssNested_notFails dbg (fun ks s e w hm => h ks s e w (List.mem_cons_of_mem _ hm)) h2
      exact not_fails_ok _ h2
    all_goals (intros; contradiction)
end

theorem cssGenerate_notFails (dbg : Str → Str) {body : Bool} : ∀ {ns : List PNode},
    (∀ ks s e w, PNode.list ks s e w ∈ ns → RuleOk body ks) → ¬ Fails (cssGenerate dbg ns)
  | [], _ => not_fails_ok _
  | n :: ns, h => by
    intro hf
    cases n with
    | list ks s e w =>
      rcases fails_bind hf with h1 | ⟨r, _, h1⟩
      · exact cssRule_notFails dbg (h ks s e w (by simp)) h1
      rcases fails_bind h1 with h2 | ⟨r, _, h2⟩
      · exact cssGenerate_notFails dbg (fun ks s e w hm => h ks s e w (List.mem_cons_of_mem _ hm)) h2
      exact not_fails_ok _ h2
    | _ => exact not_fails_err _ hf

/-! ### Braces -/

theorem depth_append (n : Nat) (a b : Str) : depth n (a ++ b) = (depth n a).bind fun m => depth m b := by
  induction a generalizing n with
  | nil => rfl
  | cons c a ih =>
    rw [List.cons_append, depth, depth]
    split
    · exact ih _
    · split
      · by_cases hn : n = 0
        · simp [hn]
        · simp only [hn, if_false]; exact ih _
      · exact ih _

/-- A text that changes no depth. -/
def Neutral (s : Str) : Prop := ∀ n, depth n s = some n

theorem neutral_nil : Neutral [] := fun _ => rfl
theorem neutral_append {a b : Str} (ha : Neutral a) (hb : Neutral b) : Neutral (a ++ b) := by
  intro n; rw [depth_append, ha n]; exact hb n
theorem neutral_noBrace : ∀ {s : Str}, NoBrace s → Neutral s
  | [], _ => neutral_nil
  | c :: s, h => by
    intro n
    obtain ⟨h1, h2⟩ := h
    simp only [List.mem_cons, not_or] at h1 h2
    rw [depth, if_neg (Ne.symm h1.1), if_neg (Ne.symm h2.1)]
    exact neutral_noBrace ⟨h1.2, h2.2⟩ n
theorem neutral_block {s : Str} (h : Neutral s) : Neutral ('{' :: s ++ ['}']) := by
  intro n
  rw [List.cons_append, depth, if_pos rfl, depth_append, h]
  simp [depth]

/-- Raises the depth by one. -/
def Opening (s : Str) : Prop := ∀ n, depth n s = some (n + 1)

theorem opening_append_left {a b : Str} (ha : Neutral a) (hb : Opening b) : Opening (a ++ b) := by
  intro n; rw [depth_append, ha n]; exact hb n
theorem opening_append_right {a b : Str} (ha : Opening a) (hb : Neutral b) : Opening (a ++ b) := by
  intro n; rw [depth_append, ha n]; exact hb _
theorem opening_close {a : Str} (ha : Opening a) : Neutral (a ++ ['}']) := by
  intro n; rw [depth_append, ha n]; simp [depth]

/-- Balanced at depth 0 is balanced at every depth. -/
theorem depth_shift {s : Str} : ∀ {n m : Nat}, depth n s = some m → ∀ k, depth (n + k) s = some (m + k) := by
  induction s with
  | nil => intro n m h k; simp [depth] at h; simp [depth, h]
  | cons c s ih =>
    intro n m h k
    rw [depth] at h ⊢
    split at h
    · rename_i hc
      rw [if_pos hc]
      have := ih h k
      rw [show n + k + 1 = n + 1 + k by omega]; exact this
    · rename_i hc
      rw [if_neg hc]
      split at h
      · rename_i hc'
        rw [if_pos hc']
        by_cases hn : n = 0
        · rw [if_pos hn] at h; cases h
        · rw [if_neg hn] at h
          rw [if_neg (by omega)]
          have := ih h k
          rw [show n + k - 1 = n - 1 + k by omega]; exact this
      · rename_i hc'
        rw [if_neg hc']
        exact ih h k

theorem neutral_iff {s : Str} : Neutral s ↔ Balanced s := by
  constructor
  · intro h; exact h 0
  · intro h n
    have := depth_shift h n
    simpa using this

theorem isUniWs_noBrace {c : Char} (h : isUniWs c = true) : c ≠ '{' ∧ c ≠ '}' := by
  constructor <;> (rintro rfl; revert h; decide)

theorem mem_takeWhile {α : Type} {p : α → Bool} : ∀ {l : List α} {a : α}, a ∈ l.takeWhile p → p a = true
  | [], a, h => by simp at h
  | b :: l, a, h => by
    rw [List.takeWhile_cons] at h
    split at h
    · rcases List.mem_cons.1 h with rfl | h
      · assumption
      · exact mem_takeWhile h
    · simp at h

theorem neutral_dropWs {s : Str} (h : Neutral s) : Neutral (s.dropWhile isUniWs) := by
  have hs : s = s.takeWhile isUniWs ++ s.dropWhile isUniWs := by simp
  have hn : Neutral (s.takeWhile isUniWs) := by
    refine neutral_noBrace ⟨fun hm => ?_, fun hm => ?_⟩
    · exact (isUniWs_noBrace (mem_takeWhile hm)).1 rfl
    · exact (isUniWs_noBrace (mem_takeWhile hm)).2 rfl
  intro n
  have := h n
  rw [hs, depth_append, hn n] at this
  exact this

theorem neutral_trimEnd {s : Str} (h : Neutral s) : Neutral (trimEnd s) := by
  have hs : s = (s.reverse.dropWhile isUniWs).reverse ++ (s.reverse.takeWhile isUniWs).reverse := by
    rw [← List.reverse_append, List.takeWhile_append_dropWhile, List.reverse_reverse]
  have hn : Neutral (s.reverse.takeWhile isUniWs).reverse := by
    refine neutral_noBrace ⟨fun hm => ?_, fun hm => ?_⟩
    · exact (isUniWs_noBrace (mem_takeWhile (List.mem_reverse.1 hm))).1 rfl
    · exact (isUniWs_noBrace (mem_takeWhile (List.mem_reverse.1 hm))).2 rfl
  intro n
  have := h n
  rw [hs, depth_append] at this
  unfold trimEnd
  cases hd : depth n (s.reverse.dropWhile isUniWs).reverse with
  | none => rw [hd] at this; cases this
  | some m =>
    rw [hd] at this
    have : some m = some n := by rw [← hn m]; exact this
    exact this

theorem neutral_trim {s : Str} (h : Neutral s) : Neutral (trim s) := neutral_trimEnd (neutral_dropWs h)

theorem neutral_join {sep : Str} (hs : Neutral sep) : ∀ {l : List Str}, (∀ s ∈ l, Neutral s) → Neutral (joinStr sep l)
  | [], _ => neutral_nil
  | [s], h => h s (by simp)
  | s :: t :: l, h =>
    neutral_append (neutral_append (h s (by simp)) hs) (neutral_join hs fun x hx => h x (List.mem_cons_of_mem _ hx))

theorem neutral_apply {h : Str} {t : List Str} (hh : Neutral h) (ht : ∀ s ∈ t, Neutral s) : Neutral (cssApply h t) := by
  have paren : ∀ {s : Str}, Neutral s → Neutral ('(' :: s ++ [')']) := fun hs =>
    neutral_append (a := '(' :: _) (b := [')']) (neutral_append (a := ['(']) (neutral_noBrace (by simp [NoBrace])) hs)
      (neutral_noBrace (by simp [NoBrace]))
  unfold cssApply
  simp only []
  have hsep : Neutral (if cssCommaDelim.contains h = true then str! ", " else str! " ") := by
    split <;> exact neutral_noBrace (by simp [NoBrace])
  split
  · have := neutral_append hh (paren (neutral_trim (neutral_join hsep ht)))
    simpa using this
  · split
    · refine paren (neutral_join ?_ ht)
      exact neutral_append (a := ' ' :: h) (b := [' ']) (neutral_append (a := [' ']) (neutral_noBrace (by simp [NoBrace])) hh)
        (neutral_noBrace (by simp [NoBrace]))
    · exact neutral_append hh (neutral_append (a := [' ']) (neutral_noBrace (by simp [NoBrace]))
        (neutral_trim (neutral_join hsep ht)))

section
variable {dbg : Str → Str} (hd : ∀ s, NoBrace s → Balanced (dbg s))
include hd

mutual
theorem cssValue_neutral : ∀ {n : PNode} {v : Str}, (∀ t ∈ texts n, NoBrace t) → cssValue dbg n = .ok v → Neutral v
  | .symbol n, v, ht, h | .number n, v, ht, h | .string n, v, ht, h => by
    have hn := ht n.value (by simp [texts])
    simp only [cssValue, Res.ok.injEq] at h
    subst h
    split
    · exact neutral_iff.2 (hd _ hn)
    · exact neutral_noBrace hn
  | .raw n, v, ht, h => by
    have hn := ht n.value (by simp [texts])
    simp only [cssValue, Res.ok.injEq] at h
    subst h
    exact neutral_noBrace hn
  | .attr k n s w, v, ht, h => by simp [cssValue] at h
  | .list [] s e w, v, ht, h => by
    simp only [cssValue, Res.ok.injEq] at h
    subst h
    exact neutral_nil
  | .list (m :: ms) s e w, v, ht, h => by
    simp only [cssValue, Res.bind_eq_ok, Res.ok.injEq] at h
    obtain ⟨a, h1, b, h2, rfl⟩ := h
    exact neutral_apply (cssValue_neutral (fun t hm => ht t (by simp [texts, textss, hm])) h1)
      (cssValues_neutral (fun t hm => ht t (by simp [texts, textss, hm])) h2)
theorem cssValues_neutral : ∀ {ns : List PNode} {vs : List Str}, (∀ t ∈ textss ns, NoBrace t) →
    cssValues dbg ns = .ok vs → ∀ v ∈ vs, Neutral v
  | [], vs, ht, h => by
    simp only [cssValues, Res.ok.injEq] at h
    subst h
    simp
  | n :: ns, vs, ht, h => by
    simp only [cssValues, Res.bind_eq_ok, Res.ok.injEq] at h
    obtain ⟨a, h1, b, h2, rfl⟩ := h
    intro v hv
    rcases List.mem_cons.1 hv with rfl | hv
    · exact cssValue_neutral (fun t hm => ht t (by simp [textss, hm])) h1
    · exact cssValues_neutral (fun t hm => ht t (by simp [textss, hm])) h2 v hv
end

omit hd
/-- A literal without braces. -/
theorem neutral_lit {s : Str} (h : s.all (fun c => !(c == '{' || c == '}')) = true) : Neutral s := by
  refine neutral_noBrace ⟨fun hm => ?_, fun hm => ?_⟩
  · have := List.all_eq_true.1 h _ hm; revert this; decide
  · have := List.all_eq_true.1 h _ hm; revert this; decide

theorem neutral_pair {k v a b c : Str} (hk : NoBrace k) (hv : Neutral v) (ha : Neutral a) (hb : Neutral b) (hc : Neutral c) :
    Neutral (a ++ k ++ b ++ v ++ c) :=
  neutral_append (neutral_append (neutral_append (neutral_append ha (neutral_noBrace hk)) hb) hv) hc

include hd

theorem cssOneline_neutral : ∀ {ns : List PNode} {v : Str}, (∀ t ∈ textss ns, NoBrace t) →
    cssOneline dbg ns = .ok v → Neutral v
  | [], v, ht, h => by simp only [cssOneline, Res.ok.injEq] at h; subst h; exact neutral_nil
  | n :: ns, v, ht, h => by
    have hs := fun t hm => ht t (by simp only [textss, List.mem_append]; exact Or.inr hm)
    cases n with
    | attr k m s w =>
      simp only [cssOneline, Res.bind_eq_ok, Res.ok.injEq] at h
      obtain ⟨a, h1, b, h2, rfl⟩ := h
      have := neutral_append (neutral_pair (k := k) (a := ['(']) (b := str! ": ") (c := str! ") ") (ht k (by simp [textss, texts]))
        (cssValue_neutral hd (fun t hm => ht t (by simp [textss, texts, hm])) h1)
        (neutral_lit rfl) (neutral_lit rfl) (neutral_lit rfl)) (cssOneline_neutral hs h2)
      simpa using this
    | symbol m | number m | string m | raw m | list m s e w =>
      simp only [cssOneline, Res.bind_eq_ok, Res.ok.injEq] at h
      obtain ⟨a, h1, b, h2, rfl⟩ := h
      exact neutral_append (cssValue_neutral hd (fun t hm => ht t (by simp only [textss, List.mem_append]; exact Or.inl hm)) h1)
        (neutral_append (a := [' ']) (neutral_lit rfl) (cssOneline_neutral hs h2))

theorem cssProps_neutral : ∀ {ns : List PNode} {v : Str}, (∀ t ∈ textss ns, NoBrace t) →
    cssProps dbg ns = .ok v → Neutral v
  | [], v, ht, h => by simp only [cssProps, Res.ok.injEq] at h; subst h; exact neutral_nil
  | n :: ns, v, ht, h => by
    have hs := fun t hm => ht t (by simp only [textss, List.mem_append]; exact Or.inr hm)
    cases n with
    | attr k m s w =>
      simp only [cssProps, Res.bind_eq_ok, Res.ok.injEq] at h
      obtain ⟨a, h1, b, h2, rfl⟩ := h
      exact neutral_append (neutral_pair (k := k) (a := str! "  ") (b := str! ": ") (c := str! ";\n") (ht k (by simp [textss, texts]))
        (cssValue_neutral hd (fun t hm => ht t (by simp [textss, texts, hm])) h1)
        (neutral_lit rfl) (neutral_lit rfl) (neutral_lit rfl)) (cssProps_neutral hs h2)
    | symbol m | number m | string m | raw m | list m s e w => simp [cssProps] at h
omit hd

theorem textss_sub {ns ms : List PNode} (h : ∀ n ∈ ns, n ∈ ms) : ∀ t ∈ textss ns, t ∈ textss ms := by
  have key : ∀ {ns : List PNode} {t}, t ∈ textss ns ↔ ∃ n ∈ ns, t ∈ texts n := by
    intro ns t
    induction ns with
    | nil => simp [textss]
    | cons n ns ih => simp [textss, ih]
  intro t ht
  rw [key] at ht ⊢
  obtain ⟨n, h1, h2⟩ := ht
  exact ⟨n, h n h1, h2⟩

theorem cssSelectorText_neutral : ∀ {ns : List PNode}, (∀ t ∈ textss ns, NoBrace t) → Neutral (cssSelectorText ns)
  | [], _ => neutral_nil
  | n :: ns, ht => by
    have hs := fun t hm => ht t (by simp only [textss, List.mem_append]; exact Or.inr hm)
    rw [cssSelectorText]
    refine neutral_append ?_ (neutral_append (a := [' ']) (neutral_lit rfl) (cssSelectorText_neutral hs))
    cases n with
    | symbol m | number m | string m | raw m => exact neutral_noBrace (ht m.value (by simp [textss, texts]))
    | _ => exact neutral_nil
include hd

mutual
theorem cssRule_neutral : ∀ {ns : List PNode} {v : Str}, RuleOk true ns → (∀ t ∈ textss ns, NoBrace t) →
    cssRule dbg ns = .ok v → Neutral v
  | [], v, hr, ht, h => by cases hr
  | n :: rest, v, hr, ht, h => by
    cases hr with
    | mk _ a _ ha hx hb =>
      have hrest := fun t hm => ht t (by simp only [textss, List.mem_append]; exact Or.inr hm)
      have hav : NoBrace a.value := by
        refine ht _ ?_
        rcases ha with rfl | rfl | rfl | rfl <;> simp [textss, texts]
      rw [cssRule, isAtom_iff.2 ha] at h
      simp only [] at h
      split at h
      · rename_i hsp
        split at h
        · simp only [Res.bind_eq_ok, Res.ok.injEq] at h
          obtain ⟨r, h1, rfl⟩ := h
          have := neutral_append (neutral_append (neutral_append (neutral_noBrace hav) (neutral_lit (s := [' ']) rfl))
            (cssOneline_neutral hd hrest h1)) (neutral_lit (s := str! ";\n") rfl)
          simpa using this
        · rename_i hol
          have hblk := (special_iff a.value).1 ⟨hsp, by simpa using hol⟩
          simp only [Res.bind_eq_ok, Res.ok.injEq] at h
          obtain ⟨r, h1, rfl⟩ := h
          have ho := cssNested_opening (hb hblk) hrest (hx hblk rfl) h1
          have := opening_close (opening_append_left (neutral_append (neutral_noBrace hav) (neutral_lit (s := [' ']) rfl)) ho)
          simpa using this
      · simp only [Res.bind_eq_ok, Res.ok.injEq] at h
        obtain ⟨ps, h1, rfl⟩ := h
        have hsel : Neutral (cssSelectorText (cssSelectors (n :: rest))) :=
          cssSelectorText_neutral fun t hm =>
            ht t (textss_sub (fun m hm => (List.takeWhile_sublist _).subset hm) t hm)
        have hps : Neutral ps := cssProps_neutral hd (fun t hm =>
          ht t (textss_sub (fun m hm => List.mem_of_mem_drop hm) t hm)) h1
        have := neutral_append hsel (neutral_block (neutral_append (neutral_lit (s := ['\n']) rfl) hps))
        simpa using this
theorem cssNested_neutral : ∀ {ns : List PNode} {v : Str},
    (∀ ks s e w, PNode.list ks s e w ∈ ns → RuleOk true ks) → (∀ t ∈ textss ns, NoBrace t) →
    cssNested dbg true ns = .ok v → Neutral v
  | [], v, _, _, h => by simp only [cssNested, Res.ok.injEq] at h; subst h; exact neutral_nil
  | .list ks s e w :: rest, v, hr, ht, h => by
    have hs := fun t hm => ht t (by simp only [textss, List.mem_append]; exact Or.inr hm)
    simp only [cssNested, Res.bind_eq_ok, Res.ok.injEq, if_true, List.nil_append] at h
    obtain ⟨a, h1, b, h2, rfl⟩ := h
    have g1 := cssRule_neutral (hr ks s e w (by simp)) (fun t hm => ht t (by simp [textss, texts, hm])) h1
    have g2 := cssNested_neutral (fun ks s e w hm => hr ks s e w (List.mem_cons_of_mem _ hm)) hs h2
    exact neutral_append (neutral_append (neutral_noBrace (ht w (by simp [textss, texts]))) g1) g2
  | .attr k v s w :: rest, _, _, _, h => by simp [cssNested] at h
  | .symbol a :: rest, _, _, _, h | .number a :: rest, _, _, _, h | .string a :: rest, _, _, _, h
  | .raw a :: rest, _, _, _, h => by simp [cssNested] at h
theorem cssNested_opening : ∀ {ns : List PNode} {v : Str},
    (∀ ks s e w, PNode.list ks s e w ∈ ns → RuleOk true ks) → (∀ t ∈ textss ns, NoBrace t) →
    (∃ ks s e w, PNode.list ks s e w ∈ ns) → cssNested dbg false ns = .ok v → Opening v
  | [], v, _, _, he, h => by simp at he
  | .list ks s e w :: rest, v, hr, ht, _, h => by
    have hs := fun t hm => ht t (by simp only [textss, List.mem_append]; exact Or.inr hm)
    simp only [cssNested, Res.bind_eq_ok, Res.ok.injEq, Bool.false_eq_true, if_false] at h
    obtain ⟨a, h1, b, h2, rfl⟩ := h
    have g1 := cssRule_neutral (hr ks s e w (by simp)) (fun t hm => ht t (by simp [textss, texts, hm])) h1
    have g2 := cssNested_neutral (fun ks s e w hm => hr ks s e w (List.mem_cons_of_mem _ hm)) hs h2
    have ho : Opening (str! "{\n") := by intro n; simp [depth]
    exact opening_append_right (opening_append_right (opening_append_right ho
      (neutral_noBrace (ht w (by simp [textss, texts])))) g1) g2
  | .attr k m s w :: rest, v, hr, ht, he, h => by
    have hs := fun t hm => ht t (by simp only [textss, List.mem_append]; exact Or.inr hm)
    simp only [cssNested, Bool.false_eq_true, if_false, Res.bind_eq_ok, Res.ok.injEq] at h
    obtain ⟨a, h1, b, h2, rfl⟩ := h
    have he' : ∃ ks s e w, PNode.list ks s e w ∈ rest := by
      obtain ⟨ks, s, e, w, hm⟩ := he
      exact ⟨ks, s, e, w, by simpa using hm⟩
    have := opening_append_left (neutral_pair (k := k) (a := ['(']) (b := str! ": ") (c := str! ") ") (ht k (by simp [textss, texts]))
        (cssValue_neutral hd (fun t hm => ht t (by simp [textss, texts, hm])) h1)
        (neutral_lit rfl) (neutral_lit rfl) (neutral_lit rfl))
        (cssNested_opening (fun ks s e w hm => hr ks s e w (List.mem_cons_of_mem _ hm)) hs he' h2)
    simpa using this
  | .symbol m :: rest, v, hr, ht, he, h | .number m :: rest, v, hr, ht, he, h | .string m :: rest, v, hr, ht, he, h
  | .raw m :: rest, v, hr, ht, he, h => by
    have hs := fun t hm => ht t (by simp only [textss, List.mem_append]; exact Or.inr hm)
    simp only [cssNested, Bool.false_eq_true, if_false, Res.bind_eq_ok, Res.ok.injEq] at h
    obtain ⟨a, h1, b, h2, rfl⟩ := h
    have he' : ∃ ks s e w, PNode.list ks s e w ∈ rest := by
      obtain ⟨ks, s, e, w, hm⟩ := he
      exact ⟨ks, s, e, w, by simpa using hm⟩
    have := opening_append_left
        (cssValue_neutral hd (fun t hm => ht t (by simp only [textss, List.mem_append]; exact Or.inl hm)) h1)
        (opening_append_left (neutral_lit (s := [' ']) rfl)
          (cssNested_opening (fun ks s e w hm => hr ks s e w (List.mem_cons_of_mem _ hm)) hs he' h2))
    simpa using this
end

theorem cssGenerate_neutral : ∀ {ns : List PNode} {v : Str},
    (∀ ks s e w, PNode.list ks s e w ∈ ns → RuleOk true ks) → (∀ t ∈ textss ns, NoBrace t) →
    cssGenerate dbg ns = .ok v → Neutral v
  | [], v, _, _, h => by simp only [cssGenerate, Res.ok.injEq] at h; subst h; exact neutral_nil
  | n :: ns, v, hr, ht, h => by
    have hs := fun t hm => ht t (by simp only [textss, List.mem_append]; exact Or.inr hm)
    cases n with
    | list ks s e w =>
      simp only [cssGenerate, Res.bind_eq_ok, Res.ok.injEq] at h
      obtain ⟨a, h1, b, h2, rfl⟩ := h
      have g1 := cssRule_neutral hd (hr ks s e w (by simp)) (fun t hm => ht t (by simp [textss, texts, hm])) h1
      have g2 := cssGenerate_neutral (fun ks s e w hm => hr ks s e w (List.mem_cons_of_mem _ hm)) hs h2
      exact neutral_append (neutral_append (neutral_noBrace (ht w (by simp [textss, texts]))) g1) g2
    | symbol m | number m | string m | raw m | attr k m s w => simp [cssGenerate] at h

end

end Seam
