import Verif.Lemmas.Get
import Verif.Lemmas.Data
import Verif.Spec.Access

/-! Names of variables and paths of `%get` lead to the same data. -/

namespace Seam
open Spec

theorem intercalate_step {sep x : Str} {p : List Str} (h : p ≠ []) : sep.intercalate (x :: p) = x ++ sep ++ sep.intercalate p := by
  cases p with
  | nil => exact absurd rfl h
  | cons y p => simp [List.intercalate]

theorem intercalate_one {sep x : Str} : sep.intercalate [x] = x := by simp [List.intercalate]

theorem not_infix {c : Char} {x : Str} (h : c ∉ x) (a b : Str) : x ≠ a ++ [c] ++ b := by
  rintro rfl
  simp at h

theorem splitStr_one {c : Char} {x : Str} (h : c ∉ x) : splitStr x [c] = [x] := splitStr_none (by simp) (not_infix h)

theorem splitStr_path {c : Char} : ∀ {p : List Str}, p ≠ [] → (∀ x ∈ p, c ∉ x) → splitStr ([c].intercalate p) [c] = p
  | [], h, _ => absurd rfl h
  | [x], _, h => by rw [intercalate_one, splitStr_one (h x List.mem_cons_self)]
  | x :: y :: p, _, h => by
    rw [intercalate_step (by simp), splitStr_char, splitStr_one (h x List.mem_cons_self),
      splitStr_path (by simp) (fun z hz => h z (List.mem_cons_of_mem _ hz))]
    rfl

theorem numeral_digits {i : Nat} (h : i < 2 ^ 64) : Numeral (Nat.toDigits 10 i) i := by
  refine ⟨_, .inl rfl, Nat.toDigits_ne_nil, fun d hd => ?_, ?_, h⟩
  · have := Nat.isDigit_of_mem_toDigits (by decide) (by decide) hd
    simp only [Char.isDigit, Bool.and_eq_true, decide_eq_true_eq] at this
    exact this
  · exact Nat.ofDigitChars_ten_toDigits.symm.trans Nat.ofDigitChars_eq_foldl

theorem itemNodes_get (site : Site) : ∀ (ds : List Data) (first : Bool) (i : Nat) (d : Data), ds[i]? = some d →
    ∃ w, (itemNodes site first ds)[i]? = some (dataNode site w d)
  | [], _, _, _, h => by simp at h
  | d0 :: ds, first, 0, d, h => by
    simp only [List.getElem?_cons_zero, Option.some.injEq] at h
    subst h
    exact ⟨_, by rw [itemNodes]; rfl⟩
  | d0 :: ds, first, i + 1, d, h => by
    rw [itemNodes]
    simpa using itemNodes_get site ds false i d (by simpa using h)

theorem entryNodes_length (site : Site) : ∀ (es : List (Str × Data)) (first : Bool), (entryNodes site first es).length = es.length
  | [], _ => by rw [entryNodes]; rfl
  | (k, d) :: es, first => by rw [entryNodes, List.length_cons, List.length_cons, entryNodes_length site es false]

theorem entryNodes_find (site : Site) (k : Str) (d : Data) : ∀ (es : List (Str × Data)) (first : Bool), (es.map (·.1)).Nodup →
    (k, d) ∈ es → FirstNamed k (entryNodes site first es) (dataNode site [' '] d)
  | [], _, _, h => by simp at h
  | (k', d') :: es, first, hn, h => by
    rw [entryNodes]
    rcases List.mem_cons.1 h with e | hm
    · cases e
      exact .here _ _ _ _
    · rw [List.map_cons, List.nodup_cons] at hn
      refine .later _ _ _ (fun v s w e => ?_) (entryNodes_find site k d es false hn.2 hm)
      cases e
      exact hn.1 (List.mem_map.2 ⟨_, hm, rfl⟩)

/-- Following a path in the nodes of the data. -/
theorem getPath_sub (site : Site) {c : Char} {d d' : Data} {p : List Str} (h : Sub d p d') : ∀ (w : Str), Tidy c d →
    ∃ w', getPath (dataNode site w d) p = .ok (dataNode site w' d') := by
  induction h with
  | here d => exact fun w _ => ⟨w, rfl⟩
  | item ds i d d' p hi _ ih =>
    intro w ht
    cases ht with
    | items _ hl ht =>
      obtain ⟨w1, h1⟩ := itemNodes_get site ds true i d hi
      have hlt : i < ds.length := (List.getElem?_eq_some_iff.1 hi).1
      have h2 : getItem (dataNode site w (.items ds)) (Nat.toDigits 10 i) = .ok (dataNode site w1 d) :=
        getItem_iff.2 (.index _ _ _ _ i (by rw [dataNode]) (numeral_digits (by omega)) h1)
      obtain ⟨w2, h3⟩ := ih w1 (ht d (List.mem_of_getElem? hi))
      refine ⟨w2, ?_⟩
      rw [getPath, h2]
      exact h3
  | entry es k d d' p hm _ ih =>
    intro w ht
    cases ht with
    | entries _ hn hc hi ht =>
      have h2 : getItem (dataNode site w (.entries es)) k = .ok (dataNode site [' '] d) := by
        refine getItem_iff.2 (.name _ _ _ _ (by rw [dataNode]) (fun i hk => ?_) (entryNodes_find site k d es true hn hm))
        rw [List.getElem?_eq_none_iff, entryNodes_length]
        exact hi _ hm i hk
      obtain ⟨w2, h3⟩ := ih [' '] (ht _ hm)
      refine ⟨w2, ?_⟩
      rw [getPath, h2]
      exact h3

theorem digits_not {c : Char} (hc : ¬ ('0' ≤ c ∧ c ≤ '9')) (i : Nat) : c ∉ Nat.toDigits 10 i := by
  intro h
  have := Nat.isDigit_of_mem_toDigits (by decide) (by decide) h
  simp only [Char.isDigit, Bool.and_eq_true, decide_eq_true_eq] at this
  exact hc this

theorem sub_parts {c : Char} (hc : ¬ ('0' ≤ c ∧ c ≤ '9')) {d d' : Data} {p : List Str} (h : Sub d p d') (ht : Tidy c d) :
    ∀ x ∈ p, c ∉ x := by
  induction h with
  | here d => exact fun x hx => (nomatch hx)
  | item ds i d d' p hi _ ih =>
    cases ht with
    | items _ hl ht =>
      intro x hx
      rcases List.mem_cons.1 hx with rfl | hx
      · exact digits_not hc i
      · exact ih (ht d (List.mem_of_getElem? hi)) x hx
  | entry es k d d' p hm _ ih =>
    cases ht with
    | entries _ hn hk hi ht =>
      intro x hx
      rcases List.mem_cons.1 hx with rfl | hx
      · exact hk _ hm
      · exact ih (ht _ hm) x hx

theorem key_unique {es : List (Str × Data)} (hn : (es.map (·.1)).Nodup) {k : Str} {d1 d2 : Data} (h1 : (k, d1) ∈ es) (h2 : (k, d2) ∈ es) :
    d1 = d2 := by
  induction es with
  | nil => cases h1
  | cons e es ih =>
    rw [List.map_cons, List.nodup_cons] at hn
    rcases List.mem_cons.1 h1 with e1 | m1 <;> rcases List.mem_cons.1 h2 with e2 | m2
    · exact (Prod.mk.inj (e1.trans e2.symm)).2
    · exact absurd (List.mem_map.2 ⟨(k, d2), m2, (congrArg Prod.fst e1 : k = e.1)⟩) hn.1
    · exact absurd (List.mem_map.2 ⟨(k, d1), m1, (congrArg Prod.fst e2 : k = e.1)⟩) hn.1
    · exact ih hn.2 m1 m2

theorem sub_unique {c : Char} {d d1 d2 : Data} {p : List Str} (h1 : Sub d p d1) (ht : Tidy c d) (h2 : Sub d p d2) : d1 = d2 := by
  induction h1 with
  | here d => cases h2; rfl
  | item ds i d d' p hi _ ih =>
    cases ht with
    | items _ hl ht =>
      generalize hq : Nat.toDigits 10 i :: p = q at h2
      cases h2 with
      | here => cases hq
      | item _ j e _ p' hj h2 =>
        simp only [List.cons.injEq] at hq
        obtain ⟨hq, rfl⟩ := hq
        have : i = j := by
          rw [← Nat.ofDigitChars_ten_toDigits (n := i), hq, Nat.ofDigitChars_ten_toDigits]
        subst this
        rw [hi] at hj
        cases hj
        exact ih (ht d (List.mem_of_getElem? hi)) h2
  | entry es k d d' p hm _ ih =>
    cases ht with
    | entries _ hn hk hi ht =>
      cases h2 with
      | entry _ _ e _ _ hm' h2 =>
        cases key_unique hn hm hm'
        exact ih (ht _ hm) h2

/-- The variable with the name of a path has the value that the path leads to. -/
theorem defines_at {site : Site} {c : Char} (hc : ¬ ('0' ≤ c ∧ c ≤ '9')) {d : Data} (ht : Tidy c d)
    {before after : Str → Option Macro} (h : DefinesPaths site [c] d before after) {p : List Str} {d' : Data} (hs : Sub d p d')
    (hp : p ≠ []) : ∃ w, after ([c].intercalate p) = some (Macro.var [dataNode site w d']) := by
  obtain ⟨p', d'', w, h1, h2, h3, h4⟩ := h.1 p d' hs hp
  have : p' = p := by
    rw [← splitStr_path h2 (sub_parts hc h1 ht), h3, splitStr_path hp (sub_parts hc hs ht)]
  subst this
  cases sub_unique h1 ht hs
  exact ⟨w, h4⟩

theorem dataNode_lw (site : Site) (w w' : Str) (d : Data) : firstSpaced w' [dataNode site w d] = [dataNode site w' d] := by
  cases d <;> simp only [dataNode] <;> rfl

theorem Spec.PlainData.sub {d d' : Data} {p : List Str} (h : Sub d p d') (hp : PlainData d) : PlainData d' := by
  induction h with
  | here d => exact hp
  | item ds i d d' p hi _ ih =>
    cases hp with
    | items _ hp => exact ih (hp d (List.mem_of_getElem? hi))
  | entry es k d d' p hm _ ih =>
    cases hp with
    | entries _ hp => exact ih (hp _ hm)

mutual
theorem dataNode_free (site : Site) : ∀ (d : Data) (w : Str), PlainData d → MacroFree (dataNode site w d)
  | .text v, w, _ => by rw [dataNode]; exact .string _
  | .number v, w, _ => by rw [dataNode]; exact .number _
  | .symbol v, w, h => by
    rw [dataNode]
    cases h with
    | symbol _ h => exact .symbol _ h
  | .items ds, w, h => by
    rw [dataNode]
    cases h with
    | items _ h => exact .list _ _ _ _ (itemNodes_free site ds true h)
  | .entries es, w, h => by
    rw [dataNode]
    cases h with
    | entries _ h => exact .list _ _ _ _ (entryNodes_free site es true h)
theorem itemNodes_free (site : Site) : ∀ (ds : List Data) (first : Bool), (∀ d ∈ ds, PlainData d) → MacrosFree (itemNodes site first ds)
  | [], _, _ => by rw [itemNodes]; exact .nil
  | d :: ds, first, h => by
    rw [itemNodes]
    exact .cons _ _ (dataNode_free site d _ (h d List.mem_cons_self)) (itemNodes_free site ds false fun x hx => h x (List.mem_cons_of_mem _ hx))
theorem entryNodes_free (site : Site) : ∀ (es : List (Str × Data)) (first : Bool), (∀ e ∈ es, PlainData e.2) →
    MacrosFree (entryNodes site first es)
  | [], _, _ => by rw [entryNodes]; exact .nil
  | (k, d) :: es, first, h => by
    rw [entryNodes]
    exact .cons _ _ (.attr _ _ _ _ (dataNode_free site d _ (h (k, d) List.mem_cons_self)))
      (entryNodes_free site es false fun x hx => h x (List.mem_cons_of_mem _ hx))
end

mutual
theorem yaml_plain : ∀ {d : Data} {es : List YEvent}, YamlOf d es → PlainData d
  | _, _, .text v => .text v
  | _, _, .items _ _ h => .items _ (yamlItems_plain h)
  | _, _, .entries _ _ h => .entries _ (yamlEntries_plain h)
theorem yamlItems_plain : ∀ {ds : List Data} {es : List YEvent}, YamlItems ds es → ∀ d ∈ ds, PlainData d
  | _, _, .nil => fun _ h => (nomatch h)
  | _, _, .cons _ _ _ _ h h' => List.forall_mem_cons.2 ⟨yaml_plain h, yamlItems_plain h'⟩
theorem yamlEntries_plain : ∀ {kvs : List (Str × Data)} {es : List YEvent}, YamlEntries kvs es → ∀ e ∈ kvs, PlainData e.2
  | _, _, .nil => fun _ h => (nomatch h)
  | _, _, .last _ => fun _ h => (nomatch h)
  | _, _, .cons _ _ _ _ _ h h' => List.forall_mem_cons.2 ⟨yaml_plain h, yamlEntries_plain h'⟩
end

end Seam
