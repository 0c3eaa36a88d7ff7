import Verif.Spec.Capture

/-!
# What matching does to a scope

Every name is either bound, to the same nodes in whatever scope the matching begins, or left alone.
-/

namespace Seam
open Spec

/-- From `a` and `b` to `a'` and `b'`: the names `P` mean the same in `a'` and `b'`, the others what they meant before. -/
def Steers (P : Str → Prop) (a b a' b' : Scope) : Prop := ∀ x, (P x → a' x = b' x) ∧ (¬ P x → a' x = a x ∧ b' x = b x)

theorem Steers.trans {P Q R : Str → Prop} {a b a' b' a'' b'' : Scope} (h : Steers P a b a' b') (h' : Steers Q a' b' a'' b'')
    (hr : ∀ x, R x ↔ P x ∨ Q x) : Steers R a b a'' b'' := by
  intro x
  rw [hr]
  by_cases hq : Q x
  · exact ⟨fun _ => (h' x).1 hq, fun hn => absurd (.inr hq) hn⟩
  · obtain ⟨h1, h2⟩ := (h' x).2 hq
    rw [h1, h2]
    exact ⟨fun hp => (h x).1 (hp.resolve_right hq), fun hn => (h x).2 fun hp => hn (.inl hp)⟩

theorem steers_bound {P : Str → Prop} (a b : Scope) (k : Str) (ns : List PNode) (hp : ∀ x, P x ↔ x = k) :
    Steers P a b (bound a k ns) (bound b k ns) := by
  intro x
  rw [hp]
  simp only [bound]
  exact ⟨fun h => by simp [h], fun h => by simp [h]⟩

theorem Steers.refl {P : Str → Prop} (a b : Scope) (h : ∀ x, ¬ P x) : Steers P a b a b := fun x => ⟨fun hp => absurd hp (h x), fun _ => ⟨rfl, rfl⟩⟩

theorem Steers.of {P Q : Str → Prop} {a b a' b' : Scope} (h : Steers P a b a' b') (hq : ∀ x, Q x ↔ P x) : Steers Q a b a' b' := fun x => by
  rw [hq]; exact h x

theorem noKwRests_kwRestNames {ps : List PNode} : NoKwRests ps → kwRestNames ps = [] := by
  induction ps with
  | nil => intro _; rfl
  | cons p ps ih =>
    rintro (_ | ⟨_, _, h1, h2⟩)
    have : kwRestName? p = none := by
      cases h1 with
      | symbol a h =>
        show kwRestOf a.value = none
        cases ha : a.value with
        | nil => rfl
        | cons c t =>
          cases t with
          | nil => simp [kwRestOf]
          | cons c' t => 
            unfold kwRestOf
            split
            · rename_i heq; exact absurd (ha.trans heq) (h _)
            · rfl
      | _ => rfl
    have := ih h2
    simp_all [kwRestNames]

theorem noKwRests_plainParams {ps : List PNode} : NoKwRests ps → NoKwRests (plainParams ps) := by
  induction ps with
  | nil => exact id
  | cons p ps ih =>
    rintro (_ | ⟨_, _, h1, h2⟩)
    cases p <;> simp only [plainParams] <;> try split
    all_goals first | exact ih h2 | exact .cons _ _ h1 (ih h2)

theorem matchesEach_sizes : ∀ {ps vs : List PNode} {a a' : Scope}, MatchesEach ps vs a a' → vs.length = ps.length
  | _, _, _, _, .nil _ => rfl
  | _, _, _, _, .cons _ _ _ _ _ _ _ _ h => by simp [matchesEach_sizes h]

theorem matches_steers {p v : PNode} {a a' : Scope} (h : Matches p v a a') :
    NoKwRest p → ∀ b b', Matches p v b b' → Steers (Binder · p) a b a' b' := by
  refine Matches.rec
    (motive_1 := fun p v a a' _ => NoKwRest p → ∀ b b', Matches p v b b' → Steers (Binder · p) a b a' b')
    (motive_2 := fun ps vs a a' _ => NoKwRests ps → ∀ b b', MatchesList ps vs b b' → Steers (ParamName · ps) a b a' b')
    (motive_3 := fun ps vs a a' _ => NoKwRests ps → ∀ b b', MatchesEach ps vs b b' → Steers (fun x => ∃ p ∈ ps, Binder x p) a b a' b')
    ?_ ?_ ?_ ?_ ?_ ?_ ?_ ?_ h
  · intro n v a _ b b' h
    cases h with
    | symbol => exact steers_bound _ _ _ _ fun x => ⟨fun | .symbol _ h => h.symm, fun h => .symbol _ h.symm⟩
    | string _ _ _ _ _ h => rcases h with h | h <;> cases h
  · intro n m a _ _ b b' h
    cases h with
    | number => exact .refl _ _ fun x h => by cases h
    | string _ _ _ _ _ h => rcases h with h | h <;> cases h
  · intro p v x y a hp hv _ _ b b' h
    have : ∀ x, ¬ Binder x p := fun x h => by rcases hp with rfl | rfl <;> cases h
    cases h with
    | string => exact .refl _ _ this
    | _ => rcases hp with h | h <;> cases h
  · intro k p v s s' w w' a a' _ ih hk b b' h
    cases hk with
    | attr _ _ _ _ hk =>
    cases h with
    | attr _ _ _ _ _ _ _ _ _ h => exact (ih hk _ _ h).of fun x => ⟨fun | .attr _ _ _ _ h => h, .attr _ _ _ _⟩
    | string _ _ _ _ _ h => rcases h with h | h <;> cases h
  · intro ps vs s s' e e' w w' a a' _ ih hk b b' h
    cases hk with
    | list _ _ _ _ hk =>
    cases h with
    | list _ _ _ _ _ _ _ _ _ _ h => exact (ih hk _ _ h).of fun x => ⟨fun | .list _ _ _ _ h => h, .list _ _ _ _⟩
    | string _ _ _ _ _ h => rcases h with h | h <;> cases h
  · intro ps vs front left a a₁ a₂ a₃ a₄ hv hm hr hn hw ih hk b b' h
    cases h with
    | mk _ _ front' left' _ b₁ b₂ b₃ _ gv gm gr gn gw =>
    obtain ⟨rfl, rfl⟩ : front = front' ∧ left = left' :=
      List.append_inj (hv.symm.trans gv) ((matchesEach_sizes hm).trans (matchesEach_sizes gm).symm)
    have e₁ := ih (noKwRests_plainParams hk) _ _ gm
    have e₂ : Steers (· ∈ restNames ps) a₁ b₁ a₂ b₂ := by
      rcases hr with ⟨h1, h2, rfl⟩ | ⟨r, h1, rfl⟩ <;> rcases gr with ⟨g1, g2, rfl⟩ | ⟨r', g1, rfl⟩
      · exact .refl _ _ (by simp [h1])
      · cases h1.symm.trans g1
      · cases h1.symm.trans g1
      · cases h1.symm.trans g1
        exact steers_bound _ _ _ _ (by simp [h1])
    have e₃ : Steers (fun x => ∃ d, lastNamed x ps = some d) a₂ b₂ a₃ b₃ := by
      intro x
      rw [hn x, gn x]
      cases hq : lastNamed x ps with
      | none => exact ⟨fun ⟨_, h⟩ => (by cases hq.symm.trans h), fun _ => ⟨rfl, rfl⟩⟩
      | some d => exact ⟨fun _ => rfl, fun h => absurd ⟨_, hq⟩ h⟩
    have hk' := noKwRests_kwRestNames hk
    have e₄ : a₄ = a₃ ∧ b' = b₃ := by
      rcases hw with ⟨_, _, rfl⟩ | ⟨r, es, h1, _⟩
      · rcases gw with ⟨_, _, rfl⟩ | ⟨r, es, h1, _⟩
        · exact ⟨rfl, rfl⟩
        · cases hk'.symm.trans h1
      · cases hk'.symm.trans h1
    obtain ⟨rfl, rfl⟩ := e₄
    refine (e₁.trans (Q := (· ∈ restNames ps)) e₂ (fun x => Iff.rfl)).trans e₃ fun x => ?_
    constructor
    · rintro (⟨_, p, h1, h2⟩ | ⟨_, h | h⟩ | ⟨_, d, h⟩)
      · exact .inl (.inl ⟨p, h1, h2⟩)
      · exact .inl (.inr h)
      · rw [hk'] at h; cases h
      · exact .inr ⟨d, h⟩
    · rintro ((⟨p, h1, h2⟩ | h) | ⟨d, h⟩)
      · exact .plain _ p h1 h2
      · exact .rest _ (.inl h)
      · exact .named _ d h
  · intro a _ b b' h
    cases h
    exact .refl _ _ (by simp)
  · intro p v ps vs a a' a'' _ _ ih ih' hk b b'' h
    cases hk with
    | cons _ _ hk hk' =>
    cases h with
    | cons _ _ _ _ _ b' _ h h' => exact (ih hk _ _ h).trans (ih' hk' _ _ h') (by simp)

/-- The scope after matching is unique, if there is no `&&`. -/
theorem matches_unique {p v : PNode} {a a' b' : Scope} (hk : NoKwRest p) (h : Matches p v a a') (h' : Matches p v a b') : a' = b' := by
  funext x
  have h := matches_steers h hk _ _ h' x
  by_cases hx : Binder x p
  · exact h.1 hx
  · exact (h.2 hx).1.trans (h.2 hx).2.symm

theorem matchesList_steers {ps vs : List PNode} {a a' b b' : Scope} (hk : NoKwRests ps) (h : MatchesList ps vs a a')
    (h' : MatchesList ps vs b b') : Steers (ParamName · ps) a b a' b' :=
  (matches_steers (.list ps vs default default default default [] [] _ _ h) (.list _ _ _ _ hk) _ _ (.list _ _ _ _ _ _ _ _ _ _ h')).of
    fun _ => ⟨.list _ _ _ _, fun | .list _ _ _ _ h => h⟩

theorem matchesList_unique {ps vs : List PNode} {a a' b' : Scope} (hk : NoKwRests ps) (h : MatchesList ps vs a a')
    (h' : MatchesList ps vs a b') : a' = b' :=
  matches_unique (p := .list ps default default []) (v := .list vs default default []) (.list _ _ _ _ hk)
    (.list _ _ _ _ _ _ _ _ _ _ h) (.list _ _ _ _ _ _ _ _ _ _ h')

/-- Whether a value matches does not depend on the scope. -/
theorem matches_everywhere {p v : PNode} {a a' : Scope} (h : Matches p v a a') : ∀ b, ∃ b', Matches p v b b' := by
  refine Matches.rec
    (motive_1 := fun p v _ _ _ => ∀ b, ∃ b', Matches p v b b')
    (motive_2 := fun ps vs _ _ _ => ∀ b, ∃ b', MatchesList ps vs b b')
    (motive_3 := fun ps vs _ _ _ => ∀ b, ∃ b', MatchesEach ps vs b b')
    ?_ ?_ ?_ ?_ ?_ ?_ ?_ ?_ h
  · exact fun n v _ b => ⟨_, .symbol _ _ _⟩
  · exact fun n m _ h b => ⟨_, .number _ _ _ h⟩
  · exact fun p v x y _ h h' h'' b => ⟨_, .string _ _ _ _ _ h h' h''⟩
  · intro k p v s s' w w' _ _ _ ih b
    obtain ⟨b', h⟩ := ih b
    exact ⟨b', .attr _ _ _ _ _ _ _ _ _ h⟩
  · intro ps vs s s' e e' w w' _ _ _ ih b
    obtain ⟨b', h⟩ := ih b
    exact ⟨b', .list _ _ _ _ _ _ _ _ _ _ h⟩
  · intro ps vs front left a a₁ a₂ a₃ a₄ hv hm hr hn hw ih b
    obtain ⟨b₁, h1⟩ := ih b
    have h2 : ∃ b₂, restNames ps = [] ∧ left = [] ∧ b₂ = b₁ ∨ ∃ r, restNames ps = [r] ∧ b₂ = bound b₁ r left := by
      rcases hr with ⟨h, h', _⟩ | ⟨r, h, _⟩
      · exact ⟨_, .inl ⟨h, h', rfl⟩⟩
      · exact ⟨_, .inr ⟨r, h, rfl⟩⟩
    obtain ⟨b₂, h2⟩ := h2
    rcases hw with ⟨h3, h4, _⟩ | ⟨r, es, h3, h4, _⟩
    · exact ⟨_, .mk _ _ _ _ _ _ _ _ _ hv h1 h2 (fun x => rfl) (.inl ⟨h3, h4, rfl⟩)⟩
    · exact ⟨_, .mk _ _ _ _ _ _ _ _ _ hv h1 h2 (fun x => rfl) (.inr ⟨r, es, h3, h4, rfl⟩)⟩
  · exact fun _ b => ⟨b, .nil _⟩
  · intro p v ps vs _ _ _ _ _ ih ih' b
    obtain ⟨b', h⟩ := ih b
    obtain ⟨b'', h'⟩ := ih' b'
    exact ⟨b'', .cons _ _ _ _ _ _ _ h h'⟩

theorem matchesList_everywhere {ps vs : List PNode} {a a' : Scope} (h : MatchesList ps vs a a') (b : Scope) : ∃ b', MatchesList ps vs b b' := by
  obtain ⟨b', h⟩ := matches_everywhere (.list ps vs default default default default [] [] _ _ h) b
  cases h with
  | list _ _ _ _ _ _ _ _ _ _ h => exact ⟨b', h⟩
  | string _ _ _ _ _ h => rcases h with h | h <;> cases h

end Seam
