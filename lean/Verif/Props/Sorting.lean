import Verif.Props.Lists

/-!
# `%sort` and the sorting algorithm (C45)

The model sorts with a merge sort.  `C45_any_algorithm` says that every other stable sorting algorithm gives the same
result, so that it does not matter which one the Rust library uses.
-/

namespace Seam
open Spec

/-- Two lists in order whose parts with equal keys are the same are the same. -/
theorem sorted_unique {α : Type} {le : α → α → Prop} [DecidableRel le] : ∀ {l m : List α}, (∀ a ∈ l, le a a) → l.Perm m →
    l.Pairwise le → m.Pairwise le →
    (∀ x ∈ l, l.filter (fun a => le a x ∧ le x a) = m.filter (fun a => le a x ∧ le x a)) → l = m
  | [], m, _, hp, _, _, _ => by rw [hp.symm.eq_nil]
  | a :: l, [], _, hp, _, _, _ => by simpa using hp.eq_nil
  | a :: l, b :: m, hr, hp, h1, h2, hf => by
    rw [List.pairwise_cons] at h1 h2
    have haa : le a a := hr a List.mem_cons_self
    have hb : b ∈ a :: l := hp.mem_iff.2 List.mem_cons_self
    have ha : a ∈ b :: m := hp.mem_iff.1 List.mem_cons_self
    have hab : le a b := by
      rcases List.mem_cons.1 hb with rfl | hb
      · exact haa
      · exact h1.1 b hb
    have hba : le b a := by
      rcases List.mem_cons.1 ha with rfl | ha
      · exact haa
      · exact h2.1 a ha
    have h3 := hf a List.mem_cons_self
    rw [List.filter_cons_of_pos (by simp [haa]), List.filter_cons_of_pos (by simp [hab, hba])] at h3
    obtain ⟨rfl, h3⟩ := List.cons.inj h3
    refine congrArg _ (sorted_unique (fun x hx => hr x (List.mem_cons_of_mem _ hx)) (List.perm_cons _ |>.1 hp) h1.2 h2.2
      fun x hx => ?_)
    have h4 := hf x (List.mem_cons_of_mem _ hx)
    by_cases hax : le a x ∧ le x a
    · rw [List.filter_cons_of_pos (by simp [hax]), List.filter_cons_of_pos (by simp [hax])] at h4
      exact (List.cons.inj h4).2
    · rwa [List.filter_cons_of_neg (by simpa using hax), List.filter_cons_of_neg (by simpa using hax)] at h4

/-- The part with equal keys of a stably sorted list is that of the original list. -/
theorem stable_part {α : Type} {le : α → α → Prop} [DecidableRel le] {items l : List α} (hp : l.Perm items)
    (ht : ∀ a ∈ items, ∀ b ∈ items, ∀ c ∈ items, le a b → le b c → le a c)
    (hs : ∀ sub : List α, sub.Sublist items → (∀ a ∈ sub, ∀ b ∈ sub, le a b) → sub.Sublist l) (x : α) (hx : x ∈ items) :
    l.filter (fun a => le a x ∧ le x a) = items.filter (fun a => le a x ∧ le x a) := by
  have h1 := hs (items.filter (fun a => le a x ∧ le x a)) List.filter_sublist (by
    intro a ha b hb
    simp only [List.mem_filter, decide_eq_true_eq] at ha hb
    exact ht a ha.1 x hx b hb.1 ha.2.1 hb.2.2)
  have h2 := h1.filter (fun a => le a x ∧ le x a)
  rw [List.filter_filter] at h2
  simp only [Bool.and_self] at h2
  exact (h2.eq_of_length ((hp.filter _).length_eq.symm)).symm

/-- C45: every stable sorting algorithm gives the result of `%sort`: if `l` is any arrangement of the elements with their
keys that is in order and keeps elements with equal keys in their order, then the elements of `l` with the layout of the
given list are the result. -/
theorem C45_any_algorithm (ext : Ext) (c : PNode) (args vs ns : List PNode) (si : Site) (e : Token) (w : Str)
    (order key : Option Node) (items l : List (Str × PNode)) (s u t : St)
    (hc : IsCall (str! "sort") args c) (ha : Evals ext args s (.ok vs) u)
    (hp : positional vs = [.list ns si e w]) (hn : NamedArgs SortOption vs)
    (ho : Given (str! "order") vs order) (hk : Given (str! "key") vs key)
    (hi : Keyed ext ((key.map (·.value)).getD (str! "do")) c ns u items t)
    (hcmp : Comparable ext (items.map (·.1))) (before : Str × PNode → Str × PNode → Prop)
    (hb : ∀ a b, before a b ↔
      if order.map (·.value) = some (str! "descending") then KeyLe ext b.1 a.1 else KeyLe ext a.1 b.1)
    (hperm : l.Perm items) (hord : l.Pairwise before)
    (hst : ∀ sub : List (Str × PNode), sub.Sublist items → (∀ a ∈ sub, ∀ b ∈ sub, before a b) → sub.Sublist l) :
    ∃ ms, Evals ext [c] s (.ok [.list ms si e c.lw]) t ∧ ms.map bare = l.map (bare ·.2) ∧
      ms.map (·.lw) = ns.map (·.lw) := by
  classical
  obtain ⟨ms, sorted, h1, h2, h3, h4, h5, h6⟩ := C45_sorts_partial ext c args vs ns si e w order key items s u t hc ha hp hn ho
    hk hi hcmp
  refine ⟨ms, h1, ?_, h3⟩
  have hm : ∀ a ∈ items, a.1 ∈ items.map (·.1) := fun a ha => List.mem_map_of_mem ha
  have hre : ∀ a ∈ items, before a a := fun a ha => by
    rw [hb]
    have := hcmp.total _ (hm a ha) _ (hm a ha)
    split <;> exact this.elim id id
  have htr : ∀ a ∈ items, ∀ b ∈ items, ∀ d ∈ items, before a b → before b d → before a d := by
    intro a ha b hb' d hd
    rw [hb, hb, hb]
    split
    · exact fun h h' => hcmp.trans _ (hm d hd) _ (hm b hb') _ (hm a ha) h' h
    · exact hcmp.trans _ (hm a ha) _ (hm b hb') _ (hm d hd)
  have hsorted : sorted = l := sorted_unique (le := before) (fun a ha => hre a (h4.mem_iff.1 ha)) (h4.trans hperm.symm)
    (h5.imp fun {a b} h => (hb a b).2 h) hord fun x hx => by
      have hx' := h4.mem_iff.1 hx
      rw [stable_part h4 htr (fun sub h h' => h6 sub h (List.pairwise_iff_forall_sublist.2 fun {a b} hs =>
          (hb a b).1 (h' a (hs.subset (by simp)) b (hs.subset (by simp))))) x hx', stable_part hperm htr hst x hx']
  rw [h2, hsorted]

/-- C45 fails: `%sort` on a list with the values `9`, `10` and `1a` gives a list that is not in order (if it gives one: the
sorting function of the Rust library is allowed to panic for such keys). -/
theorem C45_run_false (ext : Ext) (h : ∀ x y, ext.floatCmp x (str! "1a") = none ∧ ext.floatCmp (str! "1a") y = none)
    (c : PNode) (args ns : List PNode) (si : Site) (e : Token) (w : Str) (s u : St)
    (hc : IsCall (str! "sort") args c) (ha : Evals ext args s (.ok [.list ns si e w]) u)
    (hm : MacrosFree ns) (hx : Values ns [['9'], str! "10", str! "1a"]) :
    ∃ ms ys, Evals ext [c] s (.ok [.list ms si e c.lw]) u ∧ Values ms ys ∧ ¬ ys.Pairwise (KeyLe ext) := by
  have hlen := values_length hx
  have hxs : (List.zip [['9'], str! "10", str! "1a"] ns).map (·.1) = [['9'], str! "10", str! "1a"] := List.map_fst_zip (by omega)
  have hi := keyed_plain (ext := ext) (c := c) u hm hx
  have h1 : (sortItems ext true (List.zip [['9'], str! "10", str! "1a"] ns)).Perm _ := List.mergeSort_perm _ _
  have hl : ((sortItems ext true (List.zip [['9'], str! "10", str! "1a"] ns)).map (·.2)).length = ns.length := by
    rw [List.length_map, h1.length_eq]
    simpa using congrArg List.length (keyed_items hi)
  refine ⟨_, _, evals_sort hc ha rfl (by intro k v s w h; simp at h) (.absent rfl) (.absent rfl) hi,
    values_bare (layoutOf_bare hl |>.trans (List.map_map ..)) fun a ha => values_zip hx a (h1.mem_iff.1 ha), fun hp => ?_⟩
  refine C45_keys_false ext h ⟨_, ?_, hp⟩
  have h2 := h1.map (·.1)
  rwa [hxs] at h2

/-- The theorems on `(%sort (10 9  9))` and `(%sort (9 10 1a))`: the second `9` keeps its place behind the first one. -/
example := C45_any_algorithm exExt (exList [exSym (str! "%sort"), exList [exNum (str! "10"), exNum ['9'] [' '], exStr ['9'] [' ']]])
  _ _ [exNum (str! "10"), exNum ['9'] [' '], exStr ['9'] [' ']] default default [] none none
  [(str! "10", exNum (str! "10")), (['9'], exNum ['9'] [' ']), (['9'], exStr ['9'] [' '])]
  [(['9'], exNum ['9'] [' ']), (['9'], exStr ['9'] [' ']), (str! "10", exNum (str! "10"))]
  exSt exSt exSt (.mk _ _ _ _ _ rfl rfl) (plain_evals _ _ _ rfl) rfl (no_namedArgs _ rfl) (.absent rfl) (.absent rfl)
  (.cons _ _ ⟨str! "10", default, []⟩ _ _ _ _ _ ⟨by simp, 9, rfl⟩ (.number _)
    (.cons _ _ ⟨['9'], default, [' ']⟩ _ _ _ _ _ ⟨by simp, 9, rfl⟩ (.number _)
      (.cons _ _ ⟨['9'], default, [' ']⟩ _ _ _ _ _ ⟨by simp, 9, rfl⟩ (.string _) (.nil _))))
  (comparable_integers (by
    intro k hk
    simp at hk
    rcases hk with rfl | rfl
    · exact ⟨10, parseI64_iff.1 (by decide)⟩
    · exact ⟨9, parseI64_iff.1 (by decide)⟩))
  (fun a b => KeyLe exExt a.1 b.1) (fun a b => by simp)
  (by exact (List.perm_append_comm (l₁ := [(['9'], exNum ['9'] [' ']), (['9'], exStr ['9'] [' '])])
    (l₂ := [(str! "10", exNum (str! "10"))])))
  (by
    have h9 : Integer ['9'] 9 := parseI64_iff.1 (by decide)
    have h10 : Integer (str! "10") 10 := parseI64_iff.1 (by decide)
    simp only [List.pairwise_cons, List.mem_cons, List.not_mem_nil, or_false, forall_eq_or_imp, forall_eq]
    exact ⟨⟨.ints 9 9 h9 h9 (by decide), .ints 9 10 h9 h10 (by decide)⟩, .ints 9 10 h9 h10 (by decide), by simp⟩)
  (by
    intro sub hs he
    rcases List.sublist_cons_iff.1 hs with hs | ⟨r, rfl, hr⟩
    · exact hs.trans (List.sublist_append_left _ [_])
    · match r, hr with
      | [], _ => simp
      | y :: r, hr =>
        have h1 : y.1 = ['9'] := by
          have := hr.subset List.mem_cons_self
          simp only [List.mem_cons, List.not_mem_nil, or_false] at this
          rcases this with rfl | rfl <;> rfl
        have h2 := he _ List.mem_cons_self y (List.mem_cons_of_mem _ List.mem_cons_self)
        rw [keyLe_iff, h1] at h2
        exact absurd (by decide) h2)
example := C45_run_false exExt (fun _ _ => ⟨rfl, rfl⟩)
  (exList [exSym (str! "%sort"), exList [exNum ['9'], exNum (str! "10") [' '], exSym (str! "1a") [' ']]])
  _ [exNum ['9'], exNum (str! "10") [' '], exSym (str! "1a") [' ']] _ _ _ exSt exSt (.mk _ _ _ _ _ rfl rfl) (plain_evals _ _ _ rfl)
  (freeNodes_sound _ rfl) (.cons ⟨_, .number _, rfl⟩ (.cons ⟨_, .number _, rfl⟩ (.cons ⟨_, .symbol _, rfl⟩ .nil)))

end Seam
