import Verif.Lemmas.Call

/-! What follows from matching a parameter list. -/

namespace Seam
open Spec

/-- arguments match plain names iff they are all positional and as many as there
are names. -/
theorem matches_count (ps vs : List PNode) (xs : List Str) (sc : Scope) (hp : NameParams ps xs) :
    (∃ sc', MatchesList ps vs sc sc') ↔ NoNamed vs ∧ vs.length = xs.length := by
  obtain ⟨h1, h2, h3, h4, h5⟩ := nameParams_plain hp
  constructor
  · rintro ⟨sc', h⟩
    cases h with
    | mk _ _ front left _ sc₁ sc₂ sc₃ _ ha hb hc hd he =>
      rcases he with ⟨_, he, _⟩ | ⟨r, _, he, _⟩
      · have hn : NoNamed vs := noNamed_iff.2 fun k => he k (h4 k)
        rcases hc with ⟨_, rfl, _⟩ | ⟨r, hc, _⟩
        · rw [h1] at hb
          have := (matchesEach_names hp hb).1
          rw [(positional_noNamed hn).1, List.append_nil] at ha
          exact ⟨hn, ha ▸ this⟩
        · rw [h2] at hc; cases hc
      · rw [h3] at he; cases he
  · rintro ⟨hn, hl⟩
    obtain ⟨sc', h⟩ := matchesEach_names_exists hp sc hl
    exact ⟨sc', .mk ps vs vs [] sc sc' sc' sc' sc' (by rw [(positional_noNamed hn).1, List.append_nil]) (h1.symm ▸ h)
      (Or.inl ⟨h2, rfl, rfl⟩) (fun x => by rw [h4 x]) (Or.inl ⟨h3, fun k _ => noNamed_iff.1 hn k, rfl⟩)⟩

/-- then each name stands for its argument and no other name changes. -/
theorem matches_bound (ps vs : List PNode) (xs : List Str) (sc sc' : Scope) (hp : NameParams ps xs) (hx : xs.Nodup)
    (h : MatchesList ps vs sc sc') :
    (∀ (i : Nat) x v, xs[i]? = some x → vs[i]? = some v → sc' x = some { params := [], body := [v] }) ∧
    ∀ y, y ∉ xs → sc' y = sc y := by
  obtain ⟨h1, h2, h3, h4, h5⟩ := nameParams_plain hp
  have hn := ((matches_count ps vs xs sc hp).1 ⟨sc', h⟩).1
  cases h with
  | mk _ _ front left _ sc₁ sc₂ sc₃ _ ha hb hc hd he =>
    rcases he with ⟨_, _, rfl⟩ | ⟨r, _, he, _⟩
    · rcases hc with ⟨_, rfl, rfl⟩ | ⟨r, hc, _⟩
      · rw [h1] at hb
        rw [(positional_noNamed hn).1, List.append_nil] at ha
        subst ha
        have hs : sc' = sc₂ := by funext x; rw [hd x, h4 x]
        rw [hs]
        have := matchesEach_names hp hb
        exact ⟨this.2.1 hx, this.2.2⟩
      · rw [h2] at hc; cases hc
    · rw [h3] at he; cases he

/-- a `&` parameter stands for the positional arguments left after the plain
patterns, in order and unchanged (unless another parameter has the same name). -/
theorem matches_rest (ps vs : List PNode) (r : Str) (sc sc' : Scope) (hr : r ∈ restNames ps)
    (hk : r ∉ kwRestNames ps) (hn : lastNamed r ps = none) (h : MatchesList ps vs sc sc') :
    sc' r = some { params := [], body := (positional vs).drop (plainParams ps).length } := by
  cases h with
  | mk _ _ front left _ sc₁ sc₂ sc₃ _ ha hb hc hd he =>
    have h4 : sc' r = sc₃ r := by
      rcases he with ⟨_, _, rfl⟩ | ⟨r', _, he, _, rfl⟩
      · rfl
      · have : r ≠ r' := by rintro rfl; exact hk (by rw [he]; simp)
        simp [bound, this]
    have h3 := hd r
    rw [hn] at h3
    rcases hc with ⟨hc, _⟩ | ⟨r', hc, rfl⟩
    · rw [hc] at hr; simp at hr
    · rw [hc, List.mem_singleton] at hr
      subst hr
      rw [h4, h3, ha, ← matchesEach_length hb]
      simp [bound]

/-- there have to be at least as many positional arguments as plain patterns, and
without a `&` parameter exactly as many. -/
theorem matches_enough (ps vs : List PNode) (sc sc' : Scope) (h : MatchesList ps vs sc sc') :
    (plainParams ps).length ≤ (positional vs).length ∧
    (restNames ps = [] → (positional vs).length = (plainParams ps).length) := by
  cases h with
  | mk _ _ front left _ sc₁ sc₂ sc₃ _ ha hb hc hd he =>
    rw [ha, ← matchesEach_length hb, List.length_append]
    refine ⟨by omega, fun hr => ?_⟩
    rcases hc with ⟨_, rfl, _⟩ | ⟨r, hc, _⟩
    · simp
    · rw [hr] at hc; cases hc

theorem names_rest_parts {ps : List PNode} {xs : List Str} {a : Node} {r : Str} (hp : NameParams ps xs)
    (ha : a.value = '&' :: r) (hr : ∀ r', r ≠ '&' :: r') :
    plainParams (ps ++ [.symbol a]) = ps ∧ restNames (ps ++ [.symbol a]) = [r] ∧ kwRestNames (ps ++ [.symbol a]) = [] ∧
    ∀ k, lastNamed k (ps ++ [.symbol a]) = none := by
  obtain ⟨h1, h2, h3, h4, h5⟩ := nameParams_plain hp
  have hra : restOf a.value = some r := by
    rw [ha]
    unfold restOf
    split
    · next h => exact absurd (List.cons.inj h).2 (hr _)
    · next h => rw [(List.cons.inj h).2]
    · next h => exact absurd rfl (h _)
  have hka : kwRestOf a.value = none := (restOf_some hra).2
  have hp1 : plainParams (ps ++ [.symbol a]) = ps := by
    have : ∀ qs, plainParams (qs ++ [.symbol a]) = plainParams qs := by
      intro qs
      induction qs with
      | nil => simp [plainParams, restName?, hra]
      | cons q qs ih => cases q <;> simp [plainParams, ih]
    rw [this, h1]
  have hp2 : restNames (ps ++ [.symbol a]) = [r] := by
    simp only [restNames, List.filterMap_append] at h2 ⊢
    rw [h2]
    simp [restName?, hra]
  have hp3 : kwRestNames (ps ++ [.symbol a]) = [] := by
    simp only [kwRestNames, List.filterMap_append] at h3 ⊢
    rw [h3]
    simp [kwRestName?, hka]
  have hp4 : ∀ k, lastNamed k (ps ++ [.symbol a]) = none := by
    intro k
    have : ∀ qs, lastNamed k (qs ++ [.symbol a]) = lastNamed k qs := by
      intro qs
      induction qs with
      | nil => rfl
      | cons q qs ih => cases q <;> simp [lastNamed, ih]
    rw [this, h4]
  exact ⟨hp1, hp2, hp3, hp4⟩

/-- names and then `&r` match any arguments that are positional and enough. -/
theorem matches_names_rest (ps : List PNode) (xs : List Str) (a : Node) (r : Str) (vs : List PNode) (sc : Scope)
    (hp : NameParams ps xs) (ha : a.value = '&' :: r) (hr : ∀ r', r ≠ '&' :: r') :
    (∃ sc', MatchesList (ps ++ [.symbol a]) vs sc sc') ↔ NoNamed vs ∧ xs.length ≤ vs.length := by
  obtain ⟨hp1, hp2, hp3, hp4⟩ := names_rest_parts hp ha hr
  constructor
  · rintro ⟨sc', h⟩
    have hle := (matches_enough _ _ _ _ h).1
    cases h with
    | mk _ _ front left _ sc₁ sc₂ sc₃ _ ha' hb hc hd he =>
      rcases he with ⟨_, he, _⟩ | ⟨_, _, he, _⟩
      · have hn : NoNamed vs := noNamed_iff.2 fun k => he k (hp4 k)
        rw [hp1, (positional_noNamed hn).1] at hle
        have h5 := (nameParams_plain hp).2.2.2.2
        exact ⟨hn, by omega⟩
      · rw [hp3] at he; cases he
  · rintro ⟨hn, hl⟩
    obtain ⟨sc', h⟩ := matchesEach_names_exists hp (vs := vs.take xs.length) sc (by simp; omega)
    exact ⟨bound sc' r (vs.drop xs.length), .mk _ vs (vs.take xs.length) (vs.drop xs.length) sc sc' _ _ _
      (by rw [(positional_noNamed hn).1, List.take_append_drop]) (hp1.symm ▸ h) (Or.inr ⟨r, hp2, rfl⟩)
      (fun x => by rw [hp4 x]) (Or.inl ⟨hp3, fun k _ => noNamed_iff.1 hn k, rfl⟩)⟩

theorem matches_names_rest_bound (ps : List PNode) (xs : List Str) (a : Node) (r : Str) (vs : List PNode) (sc sc' : Scope)
    (hp : NameParams ps xs) (hx : (xs ++ [r]).Nodup) (ha : a.value = '&' :: r) (hr : ∀ r', r ≠ '&' :: r') (hn : NoNamed vs)
    (h : MatchesList (ps ++ [.symbol a]) vs sc sc') :
    (∀ (i : Nat) x b, xs[i]? = some x → vs[i]? = some b → sc' x = some { params := [], body := [b] }) ∧
    sc' r = some { params := [], body := vs.drop xs.length } ∧ ∀ y, y ∉ xs → y ≠ r → sc' y = sc y := by
  obtain ⟨hp1, hp2, hp3, hp4⟩ := names_rest_parts hp ha hr
  cases h with
  | mk _ _ front left _ sc₁ sc₂ sc₃ _ ha' hb hc hd he =>
    rcases he with ⟨_, he, rfl⟩ | ⟨_, _, he, _⟩
    · rcases hc with ⟨hc, _⟩ | ⟨r', hc, rfl⟩
      · rw [hp2] at hc; cases hc
      · rw [hp2] at hc
        cases hc
        rw [hp1] at hb
        obtain ⟨m1, m2, m3⟩ := matchesEach_names hp hb
        rw [(positional_noNamed hn).1] at ha'
        have hs : sc' = bound sc₁ r left := by funext x; rw [hd x, hp4 x]
        have hx' := List.nodup_append.1 hx
        subst hs
        refine ⟨fun i x b h1 h2 => ?_, ?_, fun y h1 h2 => ?_⟩
        · have hxr : x ≠ r := by
            rintro rfl
            exact hx'.2.2 x (List.mem_of_getElem? h1) x (by simp) rfl
          have hi : i < xs.length := (List.getElem?_eq_some_iff.1 h1).1
          rw [ha', List.getElem?_append_left (by omega)] at h2
          simp only [bound, hxr, if_false]
          exact m2 hx'.1 i x b h1 h2
        · simp only [bound, if_true]
          rw [ha', ← m1, List.drop_left]
        · simp only [bound, h2, if_false]
          exact m3 y h1
    · rw [hp3] at he; cases he

/-- a named parameter stands for the argument given under its keyword, or for its
default (unless a `&&` parameter has the same name). -/
theorem matches_named (ps vs : List PNode) (k : Str) (d : PNode) (sc sc' : Scope) (hd : lastNamed k ps = some d)
    (hk : k ∉ kwRestNames ps) (h : MatchesList ps vs sc sc') :
    sc' k = some { params := [], body := [(lastNamed k vs).getD d] } := by
  cases h with
  | mk _ _ front left _ sc₁ sc₂ sc₃ _ ha hb hc hd' he =>
    have h3 := hd' k
    rw [hd] at h3
    rcases he with ⟨_, _, rfl⟩ | ⟨r, _, he, _, rfl⟩
    · exact h3
    · have : k ≠ r := by rintro rfl; exact hk (by rw [he]; simp)
      simp [bound, this, h3]

/-- it does not matter where named arguments stand: only the positional arguments in
order and the last argument for each keyword count. -/
theorem matches_anywhere (ps vs vs' : List PNode) (sc sc' : Scope) (hp : positional vs = positional vs')
    (hk : ∀ k, lastAttr k vs = lastAttr k vs') (h : MatchesList ps vs sc sc') : MatchesList ps vs' sc sc' := by
  have hn : ∀ k, lastNamed k vs = lastNamed k vs' := fun k => by rw [lastAttr_named, lastAttr_named, hk]
  cases h with
  | mk _ _ front left _ sc₁ sc₂ sc₃ _ ha hb hc hd he =>
    refine .mk ps vs' front left _ sc₁ sc₂ sc₃ _ (hp ▸ ha) hb hc (fun x => by rw [hd x, hn x]) ?_
    rcases he with ⟨h1, h2, h3⟩ | ⟨r, es, h1, h2, h3⟩
    · exact Or.inl ⟨h1, fun k hk => hn k ▸ h2 k hk, h3⟩
    · refine Or.inr ⟨r, es, h1, ⟨fun n hm => ?_, fun k n h => h2.complete k n (by rw [hk k]; exact h), h2.once⟩, h3⟩
      obtain ⟨k, v, s, w, h4, h5, h6⟩ := h2.sound n hm
      exact ⟨k, v, s, w, h4, by rw [← hk k]; exact h5, h6⟩

/-- an unknown keyword is an error unless there is a `&&` parameter. -/
theorem matches_unknown (ps vs : List PNode) (k : Str) (sc : Scope) (hv : lastNamed k vs ≠ none)
    (hk : lastNamed k ps = none) (hr : kwRestNames ps = []) : ∀ sc', ¬ MatchesList ps vs sc sc' := by
  intro sc' h
  cases h with
  | mk _ _ front left _ sc₁ sc₂ sc₃ _ ha hb hc hd he =>
    rcases he with ⟨_, he, _⟩ | ⟨r, _, he, _⟩
    · exact hv (he k hk)
    · rw [hr] at he; cases he

/-- a `&&` parameter stands for the named arguments for which there is no
parameter, each once, in any order. -/
theorem matches_kwrest (ps vs : List PNode) (r : Str) (sc sc' : Scope) (hr : r ∈ kwRestNames ps)
    (h : MatchesList ps vs sc sc') : ∃ es, sc' r = some { params := [], body := es } ∧ Leftover ps vs es := by
  cases h with
  | mk _ _ front left _ sc₁ sc₂ sc₃ _ ha hb hc hd he =>
    rcases he with ⟨he, _⟩ | ⟨r', es, he, hl, rfl⟩
    · rw [he] at hr; simp at hr
    · rw [he, List.mem_singleton] at hr
      subst hr
      exact ⟨es, by simp [bound], hl⟩

end Seam
