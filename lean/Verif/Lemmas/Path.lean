import Verif.Lemmas.Void
import Verif.Model.Cli

/-! # The order of paths, and `BTreeSet::insert` -/

namespace Seam

theorem strCmp_trans : ∀ {a b c : Str}, strCmp a b = .lt → strCmp b c = .lt → strCmp a c = .lt
  | [], [], _, h, _ => by simp [strCmp] at h
  | [], _ :: _, [], _, h => by simp [strCmp] at h
  | [], _ :: _, _ :: _, _, _ => by simp [strCmp]
  | _ :: _, [], _, h, _ => by simp [strCmp] at h
  | _ :: _, _ :: _, [], _, h => by simp [strCmp] at h
  | a :: as, b :: bs, c :: cs, h1, h2 => by
    have ih := @strCmp_trans as bs cs
    rw [strCmp] at h1 h2 ⊢
    by_cases p1 : a.toNat < b.toNat
    · by_cases p2 : b.toNat < c.toNat
      · rw [if_pos (by omega)]
      · rw [if_neg p2] at h2
        by_cases p3 : c.toNat < b.toNat
        · rw [if_pos p3] at h2; cases h2
        · rw [if_pos (by omega)]
    · rw [if_neg p1] at h1
      by_cases p2 : b.toNat < a.toNat
      · rw [if_pos p2] at h1; cases h1
      · rw [if_neg p2] at h1
        by_cases p3 : b.toNat < c.toNat
        · rw [if_pos (by omega)]
        · rw [if_neg p3] at h2
          by_cases p4 : c.toNat < b.toNat
          · rw [if_pos p4] at h2; cases h2
          · rw [if_neg p4] at h2
            rw [if_neg (by omega), if_neg (by omega)]
            exact ih h1 h2

theorem PComp.cmp_eq (a b : PComp) : PComp.cmp a b = .eq ↔ a = b := by
  cases a <;> cases b <;> simp [PComp.cmp, strCmp_eq]

theorem PComp.cmp_swap (a b : PComp) : PComp.cmp b a = (PComp.cmp a b).swap := by
  cases a <;> cases b <;> first | rfl | exact strCmp_swap _ _

theorem PComp.cmp_trans {a b c : PComp} (h1 : PComp.cmp a b = .lt) (h2 : PComp.cmp b c = .lt) :
    PComp.cmp a c = .lt := by
  cases a <;> cases b <;> simp [PComp.cmp] at h1 <;> cases c <;> simp [PComp.cmp] at h2 ⊢
  exact strCmp_trans h1 h2

theorem compsCmp_eq : ∀ (a b : List PComp), compsCmp a b = .eq ↔ a = b
  | [], [] => by simp [compsCmp]
  | [], _ :: _ => by simp [compsCmp]
  | _ :: _, [] => by simp [compsCmp]
  | a :: as, b :: bs => by
    rw [compsCmp]
    rcases h : PComp.cmp a b
    · simp only [List.cons.injEq, reduceCtorEq, false_iff]
      rintro ⟨rfl, _⟩
      rw [(PComp.cmp_eq a a).2 rfl] at h; cases h
    · simp [(PComp.cmp_eq a b).1 h, compsCmp_eq as bs]
    · simp only [List.cons.injEq, reduceCtorEq, false_iff]
      rintro ⟨rfl, _⟩
      rw [(PComp.cmp_eq a a).2 rfl] at h; cases h

theorem compsCmp_swap : ∀ (a b : List PComp), compsCmp b a = (compsCmp a b).swap
  | [], [] => rfl
  | [], _ :: _ => rfl
  | _ :: _, [] => rfl
  | a :: as, b :: bs => by
    rw [compsCmp, compsCmp, PComp.cmp_swap a b]
    rcases PComp.cmp a b
    · rfl
    · exact compsCmp_swap as bs
    · rfl

theorem compsCmp_trans : ∀ {a b c : List PComp}, compsCmp a b = .lt → compsCmp b c = .lt → compsCmp a c = .lt
  | [], [], _, h, _ => by simp [compsCmp] at h
  | [], _ :: _, [], _, h => by simp [compsCmp] at h
  | [], _ :: _, _ :: _, _, _ => by simp [compsCmp]
  | _ :: _, [], _, h, _ => by simp [compsCmp] at h
  | _ :: _, _ :: _, [], _, h => by simp [compsCmp] at h
  | a :: as, b :: bs, c :: cs, h1, h2 => by
    have ih := @compsCmp_trans as bs cs
    rw [compsCmp] at h1 h2 ⊢
    rcases p1 : PComp.cmp a b
    · rcases p2 : PComp.cmp b c
      · rw [PComp.cmp_trans p1 p2]
      · rw [← (PComp.cmp_eq b c).1 p2, p1]
      · rw [p2] at h2; cases h2
    · rw [p1] at h1
      have := (PComp.cmp_eq a b).1 p1
      subst this
      rcases p2 : PComp.cmp a c
      · rfl
      · rw [p2] at h2; exact ih h1 h2
      · rw [p2] at h2; cases h2
    · rw [p1] at h1; cases h1

/-! ## Insertion into an ordered set -/

/-- A comparison that is a total preorder. -/
structure TotalCmp {α : Type} (cmp : α → α → Ordering) : Prop where
  swap : ∀ a b, cmp b a = (cmp a b).swap
  trans : ∀ {a b c}, cmp a b = .lt → cmp b c = .lt → cmp a c = .lt
  congr : ∀ {a b c}, cmp a b = .eq → cmp b c = .lt → cmp a c = .lt

theorem pathCmp_total : TotalCmp pathCmp where
  swap _ _ := compsCmp_swap _ _
  trans := compsCmp_trans
  congr := by
    intro a b c h1 h2
    unfold pathCmp at *
    rw [(compsCmp_eq _ _).1 h1]
    exact h2

theorem TotalCmp.refl {α : Type} {cmp : α → α → Ordering} (h : TotalCmp cmp) (a : α) : cmp a a = .eq := by
  have := h.swap a a
  rcases hc : cmp a a <;> rw [hc] at this <;> simp [Ordering.swap] at this

theorem TotalCmp.gt {α : Type} {cmp : α → α → Ordering} (h : TotalCmp cmp) {a b : α} :
    cmp a b = .gt ↔ cmp b a = .lt := by
  rw [h.swap a b]
  rcases cmp a b <;> simp [Ordering.swap]

theorem btInsert_mem {α : Type} (cmp : α → α → Ordering) (x : α) : ∀ (l : List α) (y : α),
    y ∈ btInsert cmp x l → y = x ∨ y ∈ l
  | [], y, h => by simpa [btInsert] using h
  | z :: l, y, h => by
    rw [btInsert] at h
    rcases hc : cmp x z <;> rw [hc] at h
    · simpa using h
    · exact Or.inr h
    · rcases List.mem_cons.1 h with rfl | h
      · exact Or.inr List.mem_cons_self
      · rcases btInsert_mem cmp x l y h with h | h
        · exact Or.inl h
        · exact Or.inr (List.mem_cons_of_mem _ h)

theorem btInsert_keeps {α : Type} (cmp : α → α → Ordering) (x : α) : ∀ (l : List α) (y : α),
    y ∈ l → y ∈ btInsert cmp x l
  | [], y, h => by cases h
  | z :: l, y, h => by
    rw [btInsert]
    rcases hc : cmp x z
    · exact List.mem_cons_of_mem _ h
    · exact h
    · rcases List.mem_cons.1 h with rfl | h
      · exact List.mem_cons_self
      · exact List.mem_cons_of_mem _ (btInsert_keeps cmp x l y h)

theorem btInsert_has {α : Type} {cmp : α → α → Ordering} (hc : TotalCmp cmp) (x : α) : ∀ (l : List α),
    ∃ y ∈ btInsert cmp x l, cmp x y = .eq
  | [] => ⟨x, by simp [btInsert], hc.refl x⟩
  | z :: l => by
    rw [btInsert]
    rcases h : cmp x z
    · exact ⟨x, List.mem_cons_self, hc.refl x⟩
    · exact ⟨z, List.mem_cons_self, h⟩
    · obtain ⟨y, hy, e⟩ := btInsert_has hc x l
      exact ⟨y, List.mem_cons_of_mem _ hy, e⟩

theorem btInsert_sorted {α : Type} {cmp : α → α → Ordering} (hc : TotalCmp cmp) (x : α) : ∀ (l : List α),
    l.Pairwise (fun a b => cmp a b = .lt) → (btInsert cmp x l).Pairwise (fun a b => cmp a b = .lt)
  | [], _ => by simp [btInsert]
  | z :: l, h => by
    rw [btInsert]
    rcases hx : cmp x z
    · refine List.pairwise_cons.2 ⟨fun y hy => ?_, h⟩
      rcases List.mem_cons.1 hy with rfl | hy
      · exact hx
      · exact hc.trans hx ((List.pairwise_cons.1 h).1 y hy)
    · exact h
    · refine List.pairwise_cons.2 ⟨fun y hy => ?_, btInsert_sorted hc x l (List.pairwise_cons.1 h).2⟩
      rcases btInsert_mem cmp x l y hy with rfl | hy
      · exact hc.gt.1 hx
      · exact (List.pairwise_cons.1 h).1 y hy

/-! ## The include directories -/

theorem addDirs_cons (set : List Str) (d : Str) (ds : List Str) :
    addDirs set (d :: ds) = addDirs (btInsert pathCmp d set) ds := rfl

theorem addDirs_sorted : ∀ (ds set : List Str), set.Pairwise (fun a b => pathCmp a b = .lt) →
    (addDirs set ds).Pairwise (fun a b => pathCmp a b = .lt)
  | [], _, h => h
  | d :: ds, set, h => by
    rw [addDirs_cons]
    exact addDirs_sorted ds _ (btInsert_sorted pathCmp_total d set h)

theorem addDirs_mem : ∀ (ds set : List Str) (y : Str), y ∈ addDirs set ds → y ∈ set ∨ y ∈ ds
  | [], _, _, h => Or.inl h
  | d :: ds, set, y, h => by
    rw [addDirs_cons] at h
    rcases addDirs_mem ds _ y h with h | h
    · rcases btInsert_mem _ _ _ _ h with rfl | h
      · exact Or.inr List.mem_cons_self
      · exact Or.inl h
    · exact Or.inr (List.mem_cons_of_mem _ h)

theorem addDirs_keeps : ∀ (ds set : List Str) (y : Str), y ∈ set → y ∈ addDirs set ds
  | [], _, _, h => h
  | d :: ds, set, y, h => addDirs_keeps ds _ y (btInsert_keeps _ _ _ _ h)

theorem addDirs_has : ∀ (ds set : List Str) (x : Str), x ∈ ds → ∃ y ∈ addDirs set ds, pathCmp x y = .eq
  | [], _, _, h => by cases h
  | d :: ds, set, x, h => by
    rw [addDirs_cons]
    rcases List.mem_cons.1 h with rfl | h
    · obtain ⟨y, hy, e⟩ := btInsert_has pathCmp_total x set
      exact ⟨y, addDirs_keeps ds _ y hy, e⟩
    · exact addDirs_has ds _ x h

/-- Appending in ascending order keeps the order given. -/
theorem btInsert_last {x : Str} : ∀ {l : List Str}, (∀ y ∈ l, pathCmp y x = .lt) → btInsert pathCmp x l = l ++ [x]
  | [], _ => rfl
  | z :: l, h => by
    rw [btInsert, pathCmp_total.gt.2 (h z List.mem_cons_self)]
    show z :: _ = _
    rw [btInsert_last (fun y hy => h y (List.mem_cons_of_mem _ hy))]
    rfl

theorem addDirs_ascending : ∀ (ds set : List Str), (set ++ ds).Pairwise (fun a b => pathCmp a b = .lt) →
    addDirs set ds = set ++ ds
  | [], set, _ => by simp [addDirs]
  | d :: ds, set, h => by
    rw [addDirs_cons, btInsert_last, addDirs_ascending ds]
    · simp
    · simpa using h
    · intro y hy
      rw [List.pairwise_append] at h
      exact h.2.2 y hy d List.mem_cons_self

/-- A list that is ordered is determined by its elements. -/
theorem ordered_unique : ∀ (l l' : List Str), l.Pairwise (fun a b => pathCmp a b = .lt) →
    l'.Pairwise (fun a b => pathCmp a b = .lt) → (∀ x, x ∈ l ↔ x ∈ l') → l = l'
  | [], [], _, _, _ => rfl
  | [], y :: l', _, _, h => by have := (h y).2 List.mem_cons_self; cases this
  | x :: l, [], _, _, h => by have := (h x).1 List.mem_cons_self; cases this
  | x :: l, y :: l', h1, h2, h => by
    obtain ⟨a1, b1⟩ := List.pairwise_cons.1 h1
    obtain ⟨a2, b2⟩ := List.pairwise_cons.1 h2
    have ne : ∀ {a : Str}, pathCmp a a ≠ .lt := by intro a; rw [pathCmp_total.refl]; simp
    have hxy : x = y := by
      rcases List.mem_cons.1 ((h x).1 List.mem_cons_self) with e | m1
      · exact e
      · rcases List.mem_cons.1 ((h y).2 List.mem_cons_self) with e | m2
        · exact e.symm
        · exact absurd (pathCmp_total.trans (a1 y m2) (a2 x m1)) ne
    subst hxy
    congr 1
    apply ordered_unique l l' b1 b2
    intro z
    constructor
    · intro hz
      rcases List.mem_cons.1 ((h z).1 (List.mem_cons_of_mem _ hz)) with rfl | m
      · exact absurd (a1 _ hz) ne
      · exact m
    · intro hz
      rcases List.mem_cons.1 ((h z).2 (List.mem_cons_of_mem _ hz)) with rfl | m
      · exact absurd (a2 _ hz) ne
      · exact m

end Seam
