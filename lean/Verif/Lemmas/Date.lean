import Verif.Lemmas.Sort
import Verif.Spec.Date

/-! # `%date` and `%timestamp` -/

namespace Seam
open Spec

/-- The rounded product. -/
theorem tzSeconds_some {b r : Int} (h : tzSeconds b = some r) :
    -(2 ^ 31) ≤ r * 2 ^ 32 - b * 3600 ∧ r * 2 ^ 32 - b * 3600 ≤ 2 ^ 31 := by
  unfold tzSeconds at h
  simp only at h
  split at h
  · generalize hr : (if 0 ≤ b * 3600 then (b * 3600 + 2 ^ 31) / 2 ^ 32 else -((-(b * 3600) + 2 ^ 31) / 2 ^ 32)) = q at h
    by_cases hq : q < 2 ^ 31
    · rw [if_pos hq] at h
      cases h
      rw [← hr]
      split <;> omega
    · rw [if_neg hq] at h
      cases h
  · cases h

theorem tzSeconds_defined {b : Int} (h : -(2 ^ 63) ≤ b * 3600 ∧ b * 3600 < 2 ^ 63 - 2 ^ 31) : ∃ r, tzSeconds b = some r := by
  unfold tzSeconds
  simp only
  rw [if_pos (by omega)]
  split
  · rw [if_pos (by omega)]; exact ⟨_, rfl⟩
  · rw [if_pos (by omega)]; exact ⟨_, rfl⟩

theorem tzSeconds_overflow {b : Int} (h : b * 3600 < -(2 ^ 63) ∨ 2 ^ 63 - 2 ^ 31 ≤ b * 3600) : tzSeconds b = none := by
  unfold tzSeconds
  simp only
  split
  · rw [if_neg]
    split <;> omega
  · rfl

theorem pow10_pos (k : Nat) : (0 : Int) < 10 ^ k := Int.pow_pos (by decide)

/-- Rounding twice: half a second and a little more. -/
theorem tz_close {b n r : Int} {P : Int} (hP : 0 < P) (h1 : -P ≤ 2 * (b * P - n * 2 ^ 32)) (h2 : 2 * (b * P - n * 2 ^ 32) ≤ P)
    (h : tzSeconds b = some r) :
    -((2 ^ 32 + 3600) * P) ≤ 2 ^ 33 * (r * P - 3600 * n) ∧ 2 ^ 33 * (r * P - 3600 * n) ≤ (2 ^ 32 + 3600) * P := by
  obtain ⟨h3, h4⟩ := tzSeconds_some h
  have h5 := Int.mul_le_mul_of_nonneg_right h3 (Int.le_of_lt hP)
  have h6 := Int.mul_le_mul_of_nonneg_right h4 (Int.le_of_lt hP)
  rw [Int.sub_mul] at h5 h6
  have e1 : r * 2 ^ 32 * P = 2 ^ 32 * (r * P) := by rw [Int.mul_comm r, Int.mul_assoc]
  have e2 : b * 3600 * P = 3600 * (b * P) := by rw [Int.mul_comm b, Int.mul_assoc]
  rw [e1, e2] at h5 h6
  generalize r * P = X at *
  generalize b * P = Y at *
  omega

/-- Nine digits are enough: seconds that are not halves differ from halves by 0.4 microseconds or more, and for those
that differ by just that much the rounding error of the hours has a remainder modulo 9 that keeps it small enough. -/
theorem tz_nine {b n r : Int} (h1 : -(1000000000) ≤ 2 * (b * 1000000000 - n * 4294967296))
    (h2 : 2 * (b * 1000000000 - n * 4294967296) ≤ 1000000000)
    (hr : 2 * (r * 4294967296 - 3600 * b) ≤ 4294967296) : 2 * (r * 1000000000 - 3600 * n) ≤ 1000000000 := by
  apply Classical.byContradiction
  intro hc
  obtain ⟨t, ht⟩ : ∃ t, 2 * r * 1000000000 - 7200 * n - 1000000000 = 800 * t := ⟨2500000 * r - 9 * n - 1250000, by omega⟩
  obtain ⟨g, hg⟩ : ∃ g, 4294967296 - 2 * (r * 4294967296 - 3600 * b) = 32 * g := ⟨134217728 - 2 * r * 134217728 + 225 * b, by omega⟩
  have ht1 : 1 ≤ t := by omega
  have hg0 : 0 ≤ g := by omega
  have key : 32000000000 * g = 3600 * (2 * (b * 1000000000 - n * 4294967296)) - 4294967296 * 800 * t := by omega
  have ht2 : t = 1 := by omega
  subst ht2
  have hg5 : g ≤ 5 := by omega
  have e1 : 2500000 * r - 9 * n - 1250000 = 1 := by omega
  have e2 : 134217728 - 268435456 * r + 225 * b = g := by omega
  clear h1 h2 hr key ht hg hc
  omega

theorem tz_nearest {b n r : Int} {k : Nat} (hk : k ≤ 9) (h1 : -(10 ^ k) ≤ 2 * (b * 10 ^ k - n * 2 ^ 32))
    (h2 : 2 * (b * 10 ^ k - n * 2 ^ 32) ≤ 10 ^ k) (h : tzSeconds b = some r) : NearestSecond n k r := by
  have h3 := tz_close (pow10_pos k) h1 h2 h
  unfold NearestSecond
  have : k = 9 ∨ k = 0 ∨ k = 1 ∨ k = 2 ∨ k = 3 ∨ k = 4 ∨ k = 5 ∨ k = 6 ∨ k = 7 ∨ k = 8 := by omega
  rcases this with rfl | this
  · obtain ⟨h4, h5⟩ := tzSeconds_some h
    have h6 := tz_nine (b := b) (n := n) (r := r) (by omega) (by omega) (by omega)
    have h7 := tz_nine (b := -b) (n := -n) (r := -r) (by omega) (by omega) (by omega)
    omega
  · rcases this with rfl | rfl | rfl | rfl | rfl | rfl | rfl | rfl | rfl <;> omega

/-- In range. -/
theorem tz_defined {b n : Int} {P : Int} (hP : 0 < P) (h1 : -P ≤ 2 * (b * P - n * 2 ^ 32)) (h2 : 2 * (b * P - n * 2 ^ 32) ≤ P)
    (hn : -(596523 * P) ≤ n ∧ n ≤ 596523 * P) : ∃ r, tzSeconds b = some r := by
  apply tzSeconds_defined
  have hb1 : b < 596523 * 2 ^ 32 + 1 := by
    apply Classical.byContradiction
    intro hc
    have := Int.mul_le_mul_of_nonneg_right (show 596523 * 2 ^ 32 + 1 ≤ b by omega) (Int.le_of_lt hP)
    rw [Int.add_mul, Int.one_mul] at this
    generalize b * P = Y at *
    omega
  have hb2 : -(596523 * 2 ^ 32 + 1) < b := by
    apply Classical.byContradiction
    intro hc
    have := Int.mul_le_mul_of_nonneg_right (show b ≤ -(596523 * 2 ^ 32 + 1) by omega) (Int.le_of_lt hP)
    rw [Int.neg_mul, Int.add_mul, Int.one_mul] at this
    generalize b * P = Y at *
    omega
  omega

/-- Out of range. -/
theorem tz_overflow {b n : Int} {P : Int} (hP : 0 < P) (h1 : -P ≤ 2 * (b * P - n * 2 ^ 32)) (h2 : 2 * (b * P - n * 2 ^ 32) ≤ P)
    (hn : n ≤ -(596524 * P) ∨ 596524 * P ≤ n) : tzSeconds b = none := by
  apply tzSeconds_overflow
  rcases hn with hn | hn
  · left
    have hb2 : b < -(596524 * 2 ^ 32 - 1) := by
      apply Classical.byContradiction
      intro hc
      have := Int.mul_le_mul_of_nonneg_right (show -(596524 * 2 ^ 32 - 1) ≤ b by omega) (Int.le_of_lt hP)
      rw [Int.neg_mul, Int.sub_mul, Int.one_mul] at this
      generalize b * P = Y at *
      omega
    omega
  · right
    have hb1 : 596524 * 2 ^ 32 - 1 < b := by
      apply Classical.byContradiction
      intro hc
      have := Int.mul_le_mul_of_nonneg_right (show b ≤ 596524 * 2 ^ 32 - 1 by omega) (Int.le_of_lt hP)
      rw [Int.sub_mul, Int.one_mul] at this
      generalize b * P = Y at *
      omega
    omega

theorem eastOk_iff (r : Int) : eastOk r = true ↔ OffsetOk r := by simp [eastOk, OffsetOk]

theorem natStr_digits (n : Nat) : Digits (natStr n) ∧ natStr n ≠ [] ∧ digitsValue (natStr n) = n := by
  refine ⟨fun c hc => ?_, Nat.toDigits_ne_nil, ?_⟩
  · have := Nat.isDigit_of_mem_toDigits (by decide) (by decide) hc
    simp only [Char.isDigit, Bool.and_eq_true, decide_eq_true_eq] at this
    exact this
  · exact Nat.ofDigitChars_eq_foldl.symm.trans Nat.ofDigitChars_ten_toDigits

theorem intStr_decimal (z : Int) : Decimal (intStr z) z 0 := by
  obtain ⟨h1, h2, h3⟩ := natStr_digits z.natAbs
  unfold intStr
  split
  · have := Decimal.whole ['-'] _ (-1) .minus h1 h2
    rw [h3] at this
    have e : -1 * (z.natAbs : Int) = z := by omega
    rw [e] at this
    exact this
  · have := Decimal.whole [] _ 1 .none h1 h2
    rw [h3] at this
    have e : 1 * (z.natAbs : Int) = z := by omega
    rw [e] at this
    exact this

/-! ## The macros -/

def tzKey : List (Str × ArgType) := [(str! "timezone", .number [])]

/-- The declarations of `%date`. -/
def dateEntries : List Entry := [req 1 (.literal []), optAt 2 (.number []), named (str! "timezone") (.number [])]

theorem date_mem : (str! "date", dateEntries, none) ∈ eagerMacros := by simp [eagerMacros, dateEntries]
theorem timestamp_mem : (str! "timestamp", schemaEntries [.literal [], .literal []] tzKey, none) ∈ eagerMacros := by
  simp [eagerMacros, schemaEntries, tzKey]

/-- The time stamp argument is the last positional argument or missing. -/
theorem date_accepts {ext : Ext} {vs ts : List PNode} {n : PNode} {a : Node} {z : Option Int} (hp : positional vs = n :: ts)
    (hl : Literal n a) (ht : TimeArg ext ts z) (hn : NamedArgs (fun k v => k = str! "timezone" ∧ ∃ a, v = .number a) vs) :
    Accepts dateEntries none vs where
  declared := by
    rintro ⟨pos, v, w⟩ hx e he hpos
    simp only [dateEntries, List.mem_cons, List.not_mem_nil, or_false] at he
    rcases he with rfl | rfl | rfl
    · simp only [req] at hpos
      subst hpos
      have := (places_int_get hx).2
      rw [hp] at this
      cases this
      exact hasType_literal_iff.2 ⟨a, hl⟩
    · simp only [optAt] at hpos
      subst hpos
      have := (places_int_get hx).2
      rw [hp] at this
      cases ht with
      | now => cases this
      | «at» b z =>
        cases this
        exact .number _ _ (Or.inl rfl)
    · simp only [named] at hpos
      subst hpos
      obtain ⟨s, w', rfl, hm⟩ := places_str_mem hx
      obtain ⟨_, b, rfl⟩ := hn _ _ _ _ hm
      exact .number _ _ (Or.inl rfl)
  others := by
    rintro ⟨pos, v, w⟩ hx hno
    exfalso
    cases pos with
    | int i =>
      obtain ⟨h1, h2⟩ := places_int_get hx
      have h3 : i - (0 + 1) < (n :: ts).length := by
        rw [← hp]
        exact (List.getElem?_eq_some_iff.1 h2).1
      have h4 : ts.length ≤ 1 := by cases ht <;> simp
      have : i = 1 ∨ i = 2 := by
        simp only [List.length_cons] at h3
        omega
      rcases this with rfl | rfl
      · exact hno (req 1 (.literal [])) (by simp [dateEntries]) rfl
      · exact hno (optAt 2 (.number [])) (by simp [dateEntries]) rfl
    | str k =>
      obtain ⟨s, w', rfl, hm⟩ := places_str_mem hx
      obtain ⟨rfl, _⟩ := hn _ _ _ _ hm
      exact hno (named (str! "timezone") (.number [])) (by simp [dateEntries]) rfl
  present := by
    intro e he hm
    simp only [dateEntries, List.mem_cons, List.not_mem_nil, or_false] at he
    rcases he with rfl | rfl | rfl
    · exact ⟨(.int 1, n, n), places_pos_mem (j := 0) (i := 0) (by rw [hp]; rfl), rfl⟩
    · cases hm
    · cases hm

/-- `%date` with accepted arguments. -/
theorem date_runs {ext : Ext} {args vs ts : List PNode} {c n : PNode} {a : Node} {z : Option Int} {o : Option Node}
    (hc : IsCall (str! "date") args c) {s u : St} (ha : Evals ext args s (.ok vs) u) (hp : positional vs = n :: ts)
    (hl : Literal n a) (ht : TimeArg ext ts z) (hn : NamedArgs (fun k v => k = str! "timezone" ∧ ∃ a, v = .number a) vs)
    (ho : Given (str! "timezone") vs o) {r : Res (List PNode)} {t : St} :
    Evals ext [c] s r t ↔ r ≠ .diverge ∧ (do
      let off ← timezone ext o
      if eastOk off then
        match ext.date z off a.value with
        | some text => pure [.string (callNode c text)]
        | none => M.panic
      else M.fail "Failed to compute UTC+(east) offset." ((o.map (·.site)).getD c.site) : M (List PNode)) u = (r, t) := by
  obtain ⟨p, hp', h⟩ := eager_accepts hc (b := .date) rfl (eager_wellDeclared _ date_mem) (tr := none) (H := fun vs args _ => do
      let fmt ← M.lift (args.posNode c 1)
      let time ← M.lift (args.posOpt 2)
      let tz ← M.lift (args.opt (str! "timezone"))
      let off ← timezone ext tz
      let secs ← match time with
        | none => pure none
        | some t =>
          match parseI64 t.value with
          | none => M.fail "Timestamp not a valid UNIX epoch signed integer." t.site
          | some i => if ext.validTime i then pure (some i) else M.fail "Invalid timestamp." t.site
      if eastOk off then
        match ext.date secs off fmt.value with
        | some text => pure [.string (callNode c text)]
        | none => M.panic
      else M.fail "Failed to compute UTC+(east) offset." (match tz with | some n => n.site | none => c.site))
    (fun _ => rfl) (fun _ _ => Mon.const _) ha (date_accepts hp hl ht hn)
  rw [h]
  have h1 : p.posNode c 1 = .ok a := by
    have := parsed_pos hp' (e := req 1 (.literal [])) (by simp [dateEntries]) (i := 0) rfl
    rw [hp] at this
    unfold ArgParser.posNode ArgParser.pos
    rw [this]
    exact toNode_literal hl
  have h3 : p.opt (str! "timezone") = .ok o := by
    have := parsed_named hp' (e := named (str! "timezone") (.number [])) (by simp [dateEntries]) (k := str! "timezone") rfl
    unfold ArgParser.opt
    rw [this]
    cases ho with
    | absent h => rw [h]; rfl
    | literal v a h1 h2 =>
      rw [h1]
      show (toNode v >>= fun a => Res.ok (some a)) = _
      rw [toNode_literal h2]
      rfl
  have h2 := parsed_pos hp' (e := optAt 2 (.number [])) (by simp [dateEntries]) (i := 1) rfl
  rw [hp] at h2
  rw [h1, h3, runs_const]
  refine and_congr Iff.rfl (iff_of_eq (congrArg (· = (r, t)) ?_))
  unfold ArgParser.posOpt
  rw [h2]
  cases ht with
  | now => cases o <;> rfl
  | «at» b z hz hv =>
    have hz := parseI64_iff.2 hz
    simp only [optNode, List.getElem?_cons_succ, List.getElem?_cons_zero, toNode_literal (.number b), Res.ok_bind, M.bind_def, M.lift, hz, hv, if_true]
    cases o <;> rfl

/-- `%timestamp` with accepted arguments. -/
theorem timestamp_runs {ext : Ext} {args vs : List PNode} {c n m : PNode} {a b : Node} {o : Option Node}
    (hc : IsCall (str! "timestamp") args c) {s u : St} (ha : Evals ext args s (.ok vs) u) (hp : positional vs = [n, m])
    (hl : Literal n a) (hm : Literal m b) (hn : NamedArgs (fun k v => k = str! "timezone" ∧ ∃ a, v = .number a) vs)
    (ho : Given (str! "timezone") vs o) {r : Res (List PNode)} {t : St} :
    Evals ext [c] s r t ↔ r ≠ .diverge ∧ (do
      let off ← timezone ext o
      if eastOk off then
        match ext.zonedTime b.value a.value with
        | some t => pure [.number (callNode c (intStr t))]
        | none =>
          match ext.naiveTime b.value a.value with
          | some t => pure [.number (callNode c (intStr (t - off)))]
          | none => M.fail "Failed to parse date." c.site
      else M.fail "Failed to compute UTC+(east) offset." ((o.map (·.site)).getD c.site) : M (List PNode)) u = (r, t) := by
  obtain ⟨p, hp', h⟩ := eager_extract hc (b := .timestamp) rfl timestamp_mem (H := fun vs args _ => do
      let fmt ← M.lift (args.posNode c 1)
      let text ← M.lift (args.posNode c 2)
      let tz ← M.lift (args.opt (str! "timezone"))
      let off ← timezone ext tz
      if eastOk off then
        match ext.zonedTime text.value fmt.value with
        | some t => pure [.number (callNode c (intStr t))]
        | none =>
          match ext.naiveTime text.value fmt.value with
          | some t => pure [.number (callNode c (intStr (t - off)))]
          | none => M.fail "Failed to parse date." c.site
      else M.fail "Failed to compute UTC+(east) offset." (match tz with | some n => n.site | none => c.site))
    (fun _ => rfl) (fun _ _ => Mon.const _)
    ha (front := [n, m]) (back := []) hp (.cons _ _ _ _ (hasType_literal_iff.2 ⟨a, hl⟩) (.cons _ _ _ _ (hasType_literal_iff.2 ⟨b, hm⟩) .nil))
    (by simp) (fun k v s w hm => by
      obtain ⟨rfl, b, rfl⟩ := hn k v s w hm
      refine ⟨fun t ht => ?_, fun h => absurd (by simp [tzKey]) (h (.number []))⟩
      simp only [tzKey, List.mem_singleton, Prod.mk.injEq, true_and] at ht
      subst ht
      exact .number _ _ (Or.inl rfl))
  rw [h]
  have h1 : p.posNode c 1 = .ok a := extracted_node hp' (i := 0) (by simp) (by rw [hp]; rfl) hl c
  have h2 : p.posNode c 2 = .ok b := extracted_node hp' (i := 1) (by simp) (by rw [hp]; rfl) hm c
  have h3 : p.opt (str! "timezone") = .ok o := given_opt hp' ⟨_, by simp [tzKey]; rfl⟩ ho
  rw [h1, h2, h3, runs_const]
  cases o <;> exact Iff.rfl

end Seam
