import Verif.Lemmas.Sayable
import Verif.Props.Document

/-! Where the lists of the tree for a document are. -/

namespace Seam
open Spec

theorem says_headed {d : Dialect} {sp : Str → Bool} {x : Dom} {w name : Str} {n : PNode} (hx : Sayable d sp x) (h : Says x w n) :
    Headed name n ↔ ∃ m as inner, x = .elem m as inner ∧ m.map lowerChar = name.map lowerChar := by
  cases h with
  | char c _ a _ _ =>
    constructor
    · rintro ⟨_, _, _, _, _, _, e, _⟩
      cases e
    · rintro ⟨_, _, _, e, _⟩
      cases e
  | elem nm as inner _ h attrs kids s e h1 h2 h3 h4 =>
    constructor
    · rintro ⟨_, a, _, _, _, _, e, ha, hv⟩
      cases e
      have : a = h := by rcases ha with e | e | e | e <;> cases e; rfl
      subst this
      exact ⟨_, _, _, rfl, by rw [← h1]; exact hv⟩
    · rintro ⟨_, _, _, e, hv⟩
      cases e
      exact ⟨_, h, _, _, _, _, rfl, .inl rfl, by rw [h1]; exact hv⟩

theorem saysAll_headed {d : Dialect} {sp : Str → Bool} {name : Str} : ∀ {xs : List Dom} {w : Str} {ns : List PNode},
    Sayables d sp xs → SaysAll xs w ns →
    ((∃ n ∈ ns, Headed name n) ↔ ∃ m as inner, .elem m as inner ∈ xs ∧ m.map lowerChar = name.map lowerChar)
  | _, _, _, .nil, .nil _ => by simp
  | _, _, _, .cons _ _ hx hxs, .cons _ _ _ n ns h hs => by
    have h1 := says_headed (name := name) hx h
    have h2 := saysAll_headed (name := name) hxs hs
    constructor
    · rintro ⟨m, hm, hh⟩
      rcases List.mem_cons.1 hm with rfl | hm
      · obtain ⟨a, b, c, e, g⟩ := h1.1 hh
        exact ⟨a, b, c, by rw [e]; exact List.mem_cons_self .., g⟩
      · obtain ⟨a, b, c, e, g⟩ := h2.1 ⟨m, hm, hh⟩
        exact ⟨a, b, c, List.mem_cons_of_mem _ e, g⟩
    · rintro ⟨a, b, c, e, g⟩
      rcases List.mem_cons.1 e with e | e
      · exact ⟨n, List.mem_cons_self .., h1.2 ⟨a, b, c, e.symm, g⟩⟩
      · obtain ⟨m, hm, hh⟩ := h2.2 ⟨a, b, c, e, g⟩
        exact ⟨m, List.mem_cons_of_mem _ hm, hh⟩

theorem saysAttrs_headed {as : List (Str × Str)} {ns : List PNode} (h : SaysAttrs as ns) : ∀ n ∈ ns, ∀ name, ¬ Headed name n := by
  induction h with
  | nil => intro n hn; cases hn
  | cons k v a s as ns _ _ ih =>
    intro n hn name hh
    rcases List.mem_cons.1 hn with rfl | hn
    · obtain ⟨_, _, _, _, _, _, e, _⟩ := hh
      cases e
    · exact ih n hn name hh

/-- The lists at the top and directly in them. -/
theorem saysAll_two {d : Dialect} {sp : Str → Bool} {name : Str} : ∀ {xs : List Dom} {w : Str} {ns : List PNode},
    Sayables d sp xs → SaysAll xs w ns → (∃ n ∈ downTos 2 ns, Headed name n) →
    ∃ m as inner, m.map lowerChar = name.map lowerChar ∧
      (.elem m as inner ∈ xs ∨ ∃ m' as' inner', .elem m' as' inner' ∈ xs ∧ .elem m as inner ∈ inner')
  | _, _, _, .nil, .nil _ => by rintro ⟨n, hn, _⟩; simp [downTos] at hn
  | _, _, _, .cons x xs hx hxs, .cons _ _ _ n ns h hs => by
    rintro ⟨k, hk, hh⟩
    rw [downTos, List.mem_append] at hk
    rcases hk with hk | hk
    · cases h with
      | char c _ a _ _ =>
        simp only [downTo, List.mem_singleton] at hk
        subst hk
        obtain ⟨_, _, _, _, _, _, e, _⟩ := hh
        cases e
      | elem nm as inner _ h attrs kids s e h1 h2 h3 h4 =>
        rw [downTo, downTos_one] at hk
        rcases List.mem_cons.1 hk with rfl | hk
        · obtain ⟨a, b, c, e, g⟩ := (says_headed (name := name) hx (.elem nm as inner _ h attrs kids s e h1 h2 h3 h4)).1 hh
          exact ⟨a, b, c, g, .inl (by rw [e]; exact List.mem_cons_self ..)⟩
        · rcases List.mem_cons.1 hk with rfl | hk
          · obtain ⟨_, _, _, _, _, _, e, _⟩ := hh
            cases e
          rcases List.mem_append.1 hk with hk | hk
          · exact absurd hh (saysAttrs_headed h2 k hk name)
          · cases hx with
            | elem _ _ _ _ _ _ _ _ _ h7 =>
              obtain ⟨a, b, c, e, g⟩ := (saysAll_headed (name := name) h7 h3).1 ⟨k, hk, hh⟩
              exact ⟨a, b, c, g, .inr ⟨nm, as, inner, List.mem_cons_self .., e⟩⟩
    · obtain ⟨a, b, c, g, e⟩ := saysAll_two hxs hs ⟨k, hk, hh⟩
      refine ⟨a, b, c, g, ?_⟩
      rcases e with e | ⟨m', as', i', e1, e2⟩
      · exact .inl (List.mem_cons_of_mem _ e)
      · exact .inr ⟨m', as', i', List.mem_cons_of_mem _ e1, e2⟩

theorem sayables_name {d : Dialect} {sp : Str → Bool} : ∀ {xs : List Dom}, Sayables d sp xs → ∀ {m as inner}, .elem m as inner ∈ xs → NameOk m
  | _, .nil, _, _, _, h => by cases h
  | _, .cons x xs hx hxs, m, as, inner, h => by
    rcases List.mem_cons.1 h with e | h
    · subst e
      cases hx with
      | elem _ _ _ h1 => exact h1
    · exact sayables_name hxs h

theorem lowerChar_mark {c q : Char} (hq : q = '!' ∨ q = '?') (h : lowerChar c = q) : c = q := by
  rcases lowerChar_ascii c with e | ⟨h1, _, h3⟩
  · exact e ▸ h
  · rw [h] at h3
    have : q.toNat = 33 ∨ q.toNat = 63 := by rcases hq with rfl | rfl <;> decide
    omega

/-- Names of elements do not begin with the mark of a declaration. -/
theorem nameOk_mark {m : Str} (h : NameOk m) {q : Char} (hq : q = '!' ∨ q = '?') {r : Str} : m.map lowerChar ≠ q :: r := by
  intro e
  obtain ⟨c, t, hv, hc⟩ := nameOk_front h
  rw [hv, List.map_cons] at e
  have := lowerChar_mark hq (List.cons.inj e).1
  subst this
  rcases hq with rfl | rfl <;> revert hc <;> decide

end Seam
