import Verif.Lemmas.Cases
import Verif.Lemmas.Sort
import Verif.Lemmas.EvalCheck
import Verif.Props.Expand

/-!
# Properties of `%reverse`, `%sort`, `%join`, `%concat`, `%string`, `%list`, `%splat`, `%do`, `%strip` (C44–C46, C51)

`vs` are the expanded arguments of the call `c`; `u` is the state after their expansion.
-/

namespace Seam
open Spec

/-! ## C44 -/

/-- C44: the elements in reverse order; the n-th element printed has the n-th leading
whitespace. -/
theorem C44_reverse (ext : Ext) (c : PNode) (args ns : List PNode) (si : Site) (e : Token) (w : Str) (s u : St)
    (hc : IsCall (str! "reverse") args c) (ha : Evals ext args s (.ok [.list ns si e w]) u) :
    ∃ ms, Evals ext [c] s (.ok [.list ms si e w]) u ∧ ms.map bare = (ns.map bare).reverse ∧
      ms.map (·.lw) = ns.map (·.lw) :=
  ⟨_, evals_reverse hc ha, by rw [layoutOf_bare (by simp), List.map_reverse], layoutOf_lw (by simp)⟩

/-- C44: reversing twice gives the original list. -/
theorem C44_twice (ext : Ext) (c c' : PNode) (args ns : List PNode) (si : Site) (e : Token) (w : Str) (s u : St)
    (hc : IsCall (str! "reverse") args c) (hc' : IsCall (str! "reverse") [c] c')
    (ha : Evals ext args s (.ok [.list ns si e w]) u) : Evals ext [c'] s (.ok [.list ns si e w]) u := by
  obtain ⟨ms, h1, h2, h3⟩ := C44_reverse ext c args ns si e w s u hc ha
  obtain ⟨ks, h4, h5, h6⟩ := C44_reverse ext c' [c] ms si e w s u hc' h1
  have : ks = ns := nodes_eq (by rw [h5, h2, List.reverse_reverse]) (h6.trans h3)
  rw [← this]
  exact h4

/-- C44: anything but one list is an error. -/
theorem C44_rejects (ext : Ext) (c : PNode) (args vs : List PNode) (s u : St) (hc : IsCall (str! "reverse") args c)
    (ha : Evals ext args s (.ok vs) u) (hn : ¬ ∃ ns si e w, vs = [.list ns si e w]) :
    ∃ e, Evals ext [c] s (.err e) u := eager_rejects reverse_mem hc ha fun h => hn (reverse_accepts.1 h)

/-- `(%reverse (a  b c))` is `(c  b a)`. -/
example : ∃ t, Evals exExt [exList [exSym (str! "%reverse"), exList [exSym ['a'], exSym ['b'] [' ', ' '], exSym ['c'] [' ']]]] exSt
    (.ok [exList [exSym ['c'], exSym ['b'] [' ', ' '], exSym ['a'] [' ']]]) t :=
  evals_ok_at 10 (by decide +kernel)
example : IsCall (str! "reverse") [exList [exSym ['a'], exSym ['b']]]
    (exList [exSym (str! "%reverse"), exList [exSym ['a'], exSym ['b']]]) := .mk _ _ _ _ _ rfl rfl

/-- The theorems on `(%reverse (a  b c))`, `(%reverse (%reverse (a  b)))` and `(%reverse a)`. -/
example := C44_reverse exExt (exList [exSym (str! "%reverse"), exList [exSym ['a'], exSym ['b'] [' ', ' '], exSym ['c'] [' ']]])
  _ [exSym ['a'], exSym ['b'] [' ', ' '], exSym ['c'] [' ']] _ _ _ exSt exSt (.mk _ _ _ _ _ rfl rfl) (plain_evals _ _ _ rfl)
example := C44_twice exExt (exList [exSym (str! "%reverse"), exList [exSym ['a'], exSym ['b'] [' ', ' ']]])
  (exList [exSym (str! "%reverse"), exList [exSym (str! "%reverse"), exList [exSym ['a'], exSym ['b'] [' ', ' ']]]])
  _ [exSym ['a'], exSym ['b'] [' ', ' ']] _ _ _ exSt exSt (.mk _ _ _ _ _ rfl rfl) (.mk _ _ _ _ _ rfl rfl) (plain_evals _ _ _ rfl)
example := C44_rejects exExt (exList [exSym (str! "%reverse"), exSym ['a']]) _ [exSym ['a']] exSt exSt
  (.mk _ _ _ _ _ rfl rfl) (plain_evals _ _ _ rfl) (by simp [exSym])

/-! ## C45 -/

/-- C45: the result has the same elements, in the order of their keys, or in the opposite
order for `:order descending`; elements that are in order already, in particular those with
equal keys, are not rearranged; and the n-th element printed has the n-th leading whitespace.
Missing: keys for which the comparison is not an order, see `C45_keys_false`. -/
theorem C45_sorts_partial (ext : Ext) (c : PNode) (args vs ns : List PNode) (si : Site) (e : Token) (w : Str)
    (order key : Option Node) (items : List (Str × PNode)) (s u t : St)
    (hc : IsCall (str! "sort") args c) (ha : Evals ext args s (.ok vs) u)
    (hp : positional vs = [.list ns si e w]) (hn : NamedArgs SortOption vs)
    (ho : Given (str! "order") vs order) (hk : Given (str! "key") vs key)
    (hi : Keyed ext ((key.map (·.value)).getD (str! "do")) c ns u items t)
    (hcmp : Comparable ext (items.map (·.1))) :
    ∃ ms sorted, Evals ext [c] s (.ok [.list ms si e c.lw]) t ∧ ms.map bare = sorted.map (bare ·.2) ∧
      ms.map (·.lw) = ns.map (·.lw) ∧ sorted.Perm items ∧
      let before (a b : Str × PNode) : Prop :=
        if order.map (·.value) = some (str! "descending") then KeyLe ext b.1 a.1 else KeyLe ext a.1 b.1
      sorted.Pairwise before ∧ ∀ sub : List (Str × PNode), sub.Sublist items → sub.Pairwise before → sub.Sublist sorted := by
  have hasc : ∀ a b : Str × PNode, (if order.map (·.value) = some (str! "descending") then KeyLe ext b.1 a.1 else KeyLe ext a.1 b.1) ↔
      if isAscending order then KeyLe ext a.1 b.1 else KeyLe ext b.1 a.1 := by
    intro a b
    have : (order.map (·.value) = some (str! "descending")) ↔ ¬ isAscending order = true := by
      cases ho with
      | absent h => simp [isAscending]
      | literal v x h1 h2 =>
        obtain ⟨s, w, hm⟩ := lastNamed_mem h1
        rcases hn _ _ _ _ hm with ⟨_, y, hy, hv⟩ | ⟨h, _⟩
        · have hxy : x = y := Option.some.inj ((literal_atomic h2).symm.trans (literal_atomic hy))
          subst hxy
          rcases List.mem_cons.1 hv with h | h
          · simp [isAscending, h]
          · rw [List.mem_singleton] at h
            simp [isAscending, h]
        · exact absurd h (by decide)
    by_cases hd : isAscending order = true
    · rw [if_pos hd, if_neg (by rw [this]; simp [hd])]
    · rw [if_neg hd, if_pos (this.2 hd)]
  obtain ⟨h1, h2, h3⟩ := sortItems_sorted (isAscending order) hcmp
  have hlen : ((sortItems ext (isAscending order) items).map (·.2)).length = ns.length := by
    rw [List.length_map, h1.length_eq, ← keyed_items hi, List.length_map]
  refine ⟨_, _, evals_sort hc ha hp hn ho hk hi, ?_, layoutOf_lw hlen, h1, ?_, ?_⟩
  · rw [layoutOf_bare hlen, List.map_map]
    rfl
  · exact h2.imp fun {a b} h => (hasc a b).2 h
  · exact fun sub hs hp => h3 sub hs (hp.imp fun {a b} h => (hasc a b).1 h)

/-- C45: whatever the keys, nothing is lost or added, and the layout is kept. -/
theorem C45_elements (ext : Ext) (c : PNode) (args vs ns : List PNode) (si : Site) (e : Token) (w : Str)
    (order key : Option Node) (items : List (Str × PNode)) (s u t : St)
    (hc : IsCall (str! "sort") args c) (ha : Evals ext args s (.ok vs) u)
    (hp : positional vs = [.list ns si e w]) (hn : NamedArgs SortOption vs)
    (ho : Given (str! "order") vs order) (hk : Given (str! "key") vs key)
    (hi : Keyed ext ((key.map (·.value)).getD (str! "do")) c ns u items t) :
    ∃ ms, Evals ext [c] s (.ok [.list ms si e c.lw]) t ∧ (ms.map bare).Perm (ns.map bare) ∧ ms.map (·.lw) = ns.map (·.lw) := by
  have h1 : (sortItems ext (isAscending order) items).Perm items := List.mergeSort_perm _ _
  have hlen : ((sortItems ext (isAscending order) items).map (·.2)).length = ns.length := by
    rw [List.length_map, h1.length_eq, ← keyed_items hi, List.length_map]
  refine ⟨_, evals_sort hc ha hp hn ho hk hi, ?_, layoutOf_lw hlen⟩
  rw [layoutOf_bare hlen, ← keyed_items hi]
  exact (h1.map _).map _

/-- C45: sorting a list of integers by value. -/
theorem C45_integers (ext : Ext) (c : PNode) (args ns : List PNode) (xs : List Str) (si : Site) (e : Token) (w : Str) (s u : St)
    (hc : IsCall (str! "sort") args c) (ha : Evals ext args s (.ok [.list ns si e w]) u)
    (hm : MacrosFree ns) (hx : Values ns xs) (hz : ∀ x ∈ xs, ∃ z, Integer x z) :
    ∃ ms ys, Evals ext [c] s (.ok [.list ms si e c.lw]) u ∧ Values ms ys ∧ ms.map (·.lw) = ns.map (·.lw) ∧
      (ms.map bare).Perm (ns.map bare) ∧
      ys.Pairwise fun x y => ∃ a b, Integer x a ∧ Integer y b ∧ a ≤ b := by
  have hlen : xs.length = ns.length := values_length hx
  have hxs : (xs.zip ns).map (·.1) = xs := List.map_fst_zip (by omega)
  have hns : (xs.zip ns).map (·.2) = ns := List.map_snd_zip (by omega)
  obtain ⟨ms, sorted, h1, h2, h3, h4, h5, _⟩ := C45_sorts_partial ext c args _ ns si e w none none (xs.zip ns) s u u hc ha rfl
    (by intro k v s w h; simp at h) (.absent rfl) (.absent rfl) (keyed_plain u hm hx)
    (by rw [hxs]; exact comparable_integers hz)
  have hz' : ∀ a ∈ sorted, ∃ z, Integer a.1 z := fun a ha => hz _ (by
    rw [← hxs]; exact List.mem_map_of_mem (h4.mem_iff.1 ha))
  have hv : ∀ a ∈ sorted, ∃ b, Literal a.2 b ∧ b.value = a.1 := fun a ha => values_zip hx a (h4.mem_iff.1 ha)
  refine ⟨ms, sorted.map (·.1), h1, values_bare h2 hv, h3, ?_, ?_⟩
  · rw [h2, ← hns, List.map_map]
    exact h4.map _
  · rw [List.pairwise_map]
    refine h5.imp_of_mem fun {a b} ha hb h => ?_
    obtain ⟨x, hx⟩ := hz' a ha
    obtain ⟨y, hy⟩ := hz' b hb
    simp only [Option.map_none, reduceCtorEq, if_false] at h
    cases h with
    | ints x y h1 h2 h3 => exact ⟨x, y, h1, h2, h3⟩
    | floats _ h => exact absurd ⟨_, _, hx, hy⟩ h
    | texts h => exact absurd ⟨_, _, hx, hy⟩ h

/-- C45: sorting words lexicographically. -/
theorem C45_words (ext : Ext) (c : PNode) (args ns : List PNode) (xs : List Str) (si : Site) (e : Token) (w : Str) (s u : St)
    (hc : IsCall (str! "sort") args c) (ha : Evals ext args s (.ok [.list ns si e w]) u)
    (hm : MacrosFree ns) (hx : Values ns xs) (hz : ∀ x ∈ xs, (¬ ∃ z, Integer x z) ∧ ∀ y, ext.floatCmp x y = none) :
    ∃ ms ys, Evals ext [c] s (.ok [.list ms si e c.lw]) u ∧ Values ms ys ∧ ms.map (·.lw) = ns.map (·.lw) ∧
      (ms.map bare).Perm (ns.map bare) ∧ ys.Pairwise LexLe := by
  have hlen : xs.length = ns.length := values_length hx
  have hxs : (xs.zip ns).map (·.1) = xs := List.map_fst_zip (by omega)
  have hns : (xs.zip ns).map (·.2) = ns := List.map_snd_zip (by omega)
  obtain ⟨ms, sorted, h1, h2, h3, h4, h5, _⟩ := C45_sorts_partial ext c args _ ns si e w none none (xs.zip ns) s u u hc ha rfl
    (by intro k v s w h; simp at h) (.absent rfl) (.absent rfl) (keyed_plain u hm hx)
    (by rw [hxs]; exact comparable_texts fun a ha b hb => ⟨fun ⟨x, _, hx, _⟩ => (hz a ha).1 ⟨x, hx⟩, (hz a ha).2 b⟩)
  have hz' : ∀ a ∈ sorted, (¬ ∃ z, Integer a.1 z) ∧ ∀ y, ext.floatCmp a.1 y = none := fun a ha => hz _ (by
    rw [← hxs]; exact List.mem_map_of_mem (h4.mem_iff.1 ha))
  have hv : ∀ a ∈ sorted, ∃ b, Literal a.2 b ∧ b.value = a.1 := fun a ha => values_zip hx a (h4.mem_iff.1 ha)
  refine ⟨ms, sorted.map (·.1), h1, values_bare h2 hv, h3, ?_, ?_⟩
  · rw [h2, ← hns, List.map_map]
    exact h4.map _
  · rw [List.pairwise_map]
    refine h5.imp_of_mem fun {a b} ha hb h => ?_
    obtain ⟨h6, h7⟩ := hz' a ha
    simp only [Option.map_none, reduceCtorEq, if_false] at h
    cases h with
    | ints x y h1 h2 h3 => exact absurd ⟨_, h1⟩ h6
    | floats _ _ h => rw [h7] at h; cases h
    | texts _ _ h => exact h

/-- C45 fails for some keys: `9` is before `10`, `10` is before `1a`, and `1a` is before `9`,
so that no arrangement of the three is in order. -/
theorem C45_keys_false (ext : Ext) (h : ∀ x y, ext.floatCmp x (str! "1a") = none ∧ ext.floatCmp (str! "1a") y = none) :
    ¬ ∃ l : List Str, l.Perm [['9'], str! "10", str! "1a"] ∧ l.Pairwise (KeyLe ext) := by
  have n1 : ¬ ∃ z, Integer (str! "1a") z := by
    rintro ⟨z, hz⟩
    rw [← parseI64_iff] at hz
    exact absurd hz (by rw [show parseI64 (str! "1a") = none by decide]; simp)
  have i9 : Integer ['9'] 9 := parseI64_iff.1 (by decide)
  have i10 : Integer (str! "10") 10 := parseI64_iff.1 (by decide)
  have ka : ∀ x y, KeyLe ext x y ↔ keyCmp ext x y ≠ .gt := fun x y => keyLe_iff
  have c1 : ¬ KeyLe ext (str! "10") ['9'] := by
    rw [ka]; intro h; exact h (by unfold keyCmp; rw [parseI64_iff.2 i9, parseI64_iff.2 i10]; rfl)
  have c2 : ¬ KeyLe ext (str! "1a") (str! "10") := by
    rw [ka]; intro h'
    refine h' ?_
    unfold keyCmp
    rw [show parseI64 (str! "1a") = none by decide, (h (str! "10") (str! "10")).2]
    decide
  have c3 : ¬ KeyLe ext ['9'] (str! "1a") := by
    rw [ka]; intro h'
    refine h' ?_
    unfold keyCmp
    rw [show parseI64 (str! "1a") = none by decide, (h ['9'] ['9']).1]
    decide
  rintro ⟨l, hp, hw⟩
  have hl := hp.length_eq
  match l, hl with
  | [a, b, d], _ =>
    simp only [List.pairwise_cons, List.mem_cons, List.not_mem_nil, or_false] at hw
    obtain ⟨h1, h2, _⟩ := hw
    have hab := h1 b (Or.inl rfl)
    have had := h1 d (Or.inr rfl)
    have hbd := h2 d rfl
    have hnd : [a, b, d].Nodup := hp.nodup_iff.2 (by decide)
    have ha := hp.mem_iff (a := a)
    have hb := hp.mem_iff (a := b)
    have hd := hp.mem_iff (a := d)
    simp only [List.mem_cons, List.not_mem_nil, or_false, true_or, or_true, true_iff] at ha hb hd
    simp only [List.nodup_cons, List.mem_cons, List.not_mem_nil, or_false, not_or] at hnd
    obtain ⟨⟨nab, nad⟩, nbd, _⟩ := hnd
    rcases ha with rfl | rfl | rfl <;> rcases hb with rfl | rfl | rfl <;> rcases hd with rfl | rfl | rfl <;>
      first
      | exact nab rfl
      | exact nad rfl
      | exact nbd rfl
      | exact c1 hab
      | exact c1 had
      | exact c1 hbd
      | exact c2 hab
      | exact c2 had
      | exact c2 hbd
      | exact c3 hab
      | exact c3 had
      | exact c3 hbd

/-- C45: anything but one list and the two options is an error. -/
theorem C45_rejects (ext : Ext) (c : PNode) (args vs : List PNode) (s u : St) (hc : IsCall (str! "sort") args c)
    (ha : Evals ext args s (.ok vs) u)
    (hn : ¬ ((∃ ns si e w, positional vs = [.list ns si e w]) ∧ NamedArgs SortOption vs)) :
    ∃ e, Evals ext [c] s (.err e) u := by
  by_cases h : ∃ n, positional vs = [n]
  · obtain ⟨n, h⟩ := h
    cases n with
    | list ns si e w => exact sort_rejects hc ha fun h' => hn ⟨⟨ns, si, e, w, h⟩, h'.2⟩
    | _ => exact sort_not_list hc ha h rfl
  · exact sort_rejects hc ha fun h' => h h'.1

/-- C45: if the key macro fails for an element, `%sort` fails with an error at the place of the key macro's
name (or at the call, if there is no `:key`), after the keys of the elements before have been evaluated.
If it gives anything but one literal, that is an error as well; a crash remains a crash. -/
theorem C45_key_fails (ext : Ext) (c n : PNode) (args vs pre post : List PNode) (si : Site) (e : Token) (w : Str)
    (order key : Option Node) (items : List (Str × PNode)) (s u v t : St) (r : Res (List PNode))
    (hc : IsCall (str! "sort") args c) (ha : Evals ext args s (.ok vs) u)
    (hp : positional vs = [.list (pre ++ n :: post) si e w]) (hn : NamedArgs SortOption vs)
    (ho : Given (str! "order") vs order) (hk : Given (str! "key") vs key)
    (hi : Keyed ext ((key.map (·.value)).getD (str! "do")) c pre u items v)
    (hr : Invokes ext ((key.map (·.value)).getD (str! "do")) c [n] v r t) :
    (∀ e0, r = .err e0 → ∃ err, Evals ext [c] s (.err err) t ∧ err.site = (key.map (·.site)).getD c.site ∧
      err.msg = "Error evaluating `:key` macro.") ∧
    (r = .panic → Evals ext [c] s .panic t) ∧
    (∀ out, r = .ok out → (¬ ∃ k a, out = [k] ∧ Literal k a) → ∃ err, Evals ext [c] s (.err err) t) := by
  have go : ∀ q : Res (List (Str × PNode)), ∀ q' : Res (List PNode), (∀ x, q ≠ .ok x) → (∀ e, q = .err e → q' = .err e) →
      (q = .panic → q' = .panic) → Runs ext (fun rec => sortKeys rec c ((key.map (·.value)).getD (str! "do"))
        ((key.map (·.site)).getD c.site) (pre ++ n :: post)) u q t → Evals ext [c] s q' t := by
    rintro q q' h1 h2 h3 ⟨hd, f, hf⟩
    rw [sort_runs hc ha hp hn ho hk]
    simp only at hf
    cases q with
    | ok x => exact absurd rfl (h1 x)
    | err e =>
      rw [h2 e rfl]
      refine ⟨by simp, f, ?_⟩
      simp only [M.bind_def, hf]
    | panic =>
      rw [h3 rfl]
      refine ⟨by simp, f, ?_⟩
      simp only [M.bind_def, hf]
    | diverge => exact absurd rfl hd
  obtain ⟨h1, h2, h3⟩ := runs_sortKeys_stop hi ((key.map (·.site)).getD c.site) n post hr
  refine ⟨fun e0 he => ?_, fun he => ?_, fun out he hl => ?_⟩
  · exact ⟨_, go _ _ (by simp) (fun e h => by cases h; rfl) (by simp) (h1 e0 he), rfl, rfl⟩
  · exact go _ _ (by simp) (fun e h => by cases h) (fun _ => rfl) (h2 he)
  · obtain ⟨e, he⟩ := h3 out he hl
    exact ⟨e, go _ _ (by simp) (fun e h => by cases h; rfl) (by simp) he⟩

/-- `(%sort (a ()) :key symbol)`: `%symbol` cannot convert a list. -/
example : ∃ e, Invokes exExt (str! "symbol") (exSym ['c']) [exList []] exSt (.err e) exSt :=
  ⟨_, by simp, 9, rfl⟩

/-- `(%sort (10 9  8))`. -/
def exSort : PNode := exList [exSym (str! "%sort"), exList [exNum (str! "10"), exNum ['9'] [' '], exNum ['8'] [' ', ' ']]]

example : ∃ ms ys si e w, Evals exExt [exSort] exSt (.ok [.list ms si e w]) exSt ∧ Values ms ys ∧
    ms.map (·.lw) = [[], [' '], [' ', ' ']] ∧ ys.Pairwise fun x y => ∃ a b, Integer x a ∧ Integer y b ∧ a ≤ b := by
  obtain ⟨ms, ys, h1, h2, h3, _, h4⟩ := C45_integers exExt exSort _ [exNum (str! "10"), exNum ['9'] [' '], exNum ['8'] [' ', ' ']]
    [str! "10", ['9'], ['8']] _ _ _ exSt exSt (.mk _ _ _ _ _ rfl rfl)
    (macrosFree_evals exExt _ (.cons _ _ (.list _ _ _ _ (.cons _ _ (.number _) (.cons _ _ (.number _)
      (.cons _ _ (.number _) .nil)))) .nil) exSt)
    (.cons _ _ (.number _) (.cons _ _ (.number _) (.cons _ _ (.number _) .nil)))
    (.cons ⟨_, .number _, rfl⟩ (.cons ⟨_, .number _, rfl⟩ (.cons ⟨_, .number _, rfl⟩ .nil)))
    (by
      intro k hk
      simp at hk
      rcases hk with rfl | rfl | rfl
      · exact ⟨10, parseI64_iff.1 (by decide)⟩
      · exact ⟨9, parseI64_iff.1 (by decide)⟩
      · exact ⟨8, parseI64_iff.1 (by decide)⟩)
  exact ⟨ms, ys, _, _, _, h1, h2, h3, h4⟩
example : Integer (str! "-7") (-7) := parseI64_iff.1 (by decide)

/-- The theorems on `(%sort (10 9  8) :order descending)`, `(%sort (b a))`, `(%sort a)` and
`(%sort (a ()) :key symbol)`. -/
example := C45_sorts_partial exExt
  (exList [exSym (str! "%sort"), exList [exNum (str! "10"), exNum ['9'] [' ']], exAttr (str! "order") (exSym (str! "descending"))])
  _ _ [exNum (str! "10"), exNum ['9'] [' ']] default default [] _ none [(str! "10", exNum (str! "10")), (['9'], exNum ['9'] [' '])]
  exSt exSt exSt (.mk _ _ _ _ _ rfl rfl) (plain_evals _ _ _ rfl) rfl
  (one_namedArg _ _ _ rfl (.inl ⟨rfl, _, .symbol _, by simp⟩))
  (.literal _ _ rfl (.symbol _)) (.absent rfl)
  (.cons _ _ ⟨str! "10", default, []⟩ _ _ _ _ _ ⟨by simp, 9, rfl⟩ (.number _)
    (.cons _ _ ⟨['9'], default, [' ']⟩ _ _ _ _ _ ⟨by simp, 9, rfl⟩ (.number _) (.nil _)))
  (comparable_integers (by
    intro k hk
    simp at hk
    rcases hk with rfl | rfl
    · exact ⟨10, parseI64_iff.1 (by decide)⟩
    · exact ⟨9, parseI64_iff.1 (by decide)⟩))
example := C45_elements exExt
  (exList [exSym (str! "%sort"), exList [exNum (str! "10"), exSym (str! "1a") [' ']]])
  _ _ [exNum (str! "10"), exSym (str! "1a") [' ']] default default [] none none [(str! "10", exNum (str! "10")), (str! "1a", exSym (str! "1a") [' '])]
  exSt exSt exSt (.mk _ _ _ _ _ rfl rfl) (plain_evals _ _ _ rfl) rfl (no_namedArgs _ rfl) (.absent rfl) (.absent rfl)
  (.cons _ _ ⟨str! "10", default, []⟩ _ _ _ _ _ ⟨by simp, 9, rfl⟩ (.number _)
    (.cons _ _ ⟨str! "1a", default, [' ']⟩ _ _ _ _ _ ⟨by simp, 9, rfl⟩ (.symbol _) (.nil _)))
example := C45_words exExt (exList [exSym (str! "%sort"), exList [exSym ['b'], exSym ['a'] [' ']]])
  _ [exSym ['b'], exSym ['a'] [' ']] [['b'], ['a']] _ _ _ exSt exSt (.mk _ _ _ _ _ rfl rfl) (plain_evals _ _ _ rfl)
  (freeNodes_sound _ rfl) (.cons ⟨_, .symbol _, rfl⟩ (.cons ⟨_, .symbol _, rfl⟩ .nil))
  (by
    intro x hx
    refine ⟨?_, fun _ => rfl⟩
    rintro ⟨z, hz⟩
    have := parseI64_iff.2 hz
    simp at hx
    rcases hx with rfl | rfl <;> exact absurd (this.symm.trans (by decide : _ = none)) (by simp))
example := C45_keys_false exExt (fun _ _ => ⟨rfl, rfl⟩)
example := C45_rejects exExt (exList [exSym (str! "%sort"), exSym ['a']]) _ [exSym ['a']] exSt exSt (.mk _ _ _ _ _ rfl rfl)
  (plain_evals _ _ _ rfl) (by rintro ⟨⟨_, _, _, _, h⟩, _⟩; simp [exSym, positional] at h)
example (e : Err) (h : Invokes exExt (str! "symbol") (exList [exSym (str! "%sort"), exList [exSym ['a'], exList [] [' ']],
    exAttr (str! "key") (exSym (str! "symbol"))]) [exList [] [' ']] exSt (.err e) exSt) := C45_key_fails exExt
  (exList [exSym (str! "%sort"), exList [exSym ['a'], exList [] [' ']], exAttr (str! "key") (exSym (str! "symbol"))])
  (exList [] [' ']) _ _ [exSym ['a']] [] default default [] none _ [(['a'], exSym ['a'])] exSt exSt exSt exSt _
  (.mk _ _ _ _ _ rfl rfl) (plain_evals _ _ _ rfl) rfl
  (one_namedArg _ _ _ rfl (.inr ⟨rfl, _, rfl⟩))
  (.absent rfl) (.literal _ _ rfl (.symbol _)) (.cons _ _ ⟨['a'], default, []⟩ _ _ _ _ _ ⟨by simp, 9, rfl⟩ (.symbol _) (.nil _)) h

/-! ## C46 -/

/-- C46: `%join` puts the separator exactly between consecutive items, and also at the end
for `:trailing true`. -/
theorem C46_join (ext : Ext) (c sep : PNode) (a : Node) (args vs items : List PNode) (xs : List Str) (trailing : Option Node)
    (s u : St) (hc : IsCall (str! "join") args c) (ha : Evals ext args s (.ok vs) u)
    (hp : positional vs = sep :: items) (hs : Literal sep a) (hx : Values items xs)
    (hn : NamedArgs (fun k v => k = str! "trailing" ∧ LiteralIn [str! "true", str! "false"] v) vs)
    (ho : Given (str! "trailing") vs trailing) :
    Evals ext [c] s (.ok [stringAt c (List.intercalate a.value xs ++
      if trailing.map (·.value) = some (str! "true") then a.value else [])]) u := evals_join hc ha hp hs hx hn ho

/-- C46: other arguments are an error. -/
theorem C46_join_rejects (ext : Ext) (c : PNode) (args vs : List PNode) (s u : St) (hc : IsCall (str! "join") args c)
    (ha : Evals ext args s (.ok vs) u)
    (hn : ¬ ((∃ sep items, positional vs = sep :: items ∧ ∀ n ∈ sep :: items, ∃ a, Literal n a) ∧
      NamedArgs (fun k v => k = str! "trailing" ∧ LiteralIn [str! "true", str! "false"] v) vs)) :
    ∃ e, Evals ext [c] s (.err e) u := join_rejects hc ha hn

/-- C46: `%concat` puts the values after one another. -/
theorem C46_concat (ext : Ext) (c : PNode) (args vs : List PNode) (xs : List Str) (s u : St)
    (hc : IsCall (str! "concat") args c) (ha : Evals ext args s (.ok vs) u) (hx : Values vs xs) :
    Evals ext [c] s (.ok [stringAt c xs.flatten]) u := evals_concat hc ha hx

/-- C46: other arguments are an error. -/
theorem C46_concat_rejects (ext : Ext) (c : PNode) (args vs : List PNode) (s u : St) (hc : IsCall (str! "concat") args c)
    (ha : Evals ext args s (.ok vs) u) (hn : ¬ ∀ n ∈ vs, ∃ a, Literal n a) :
    ∃ e, Evals ext [c] s (.err e) u := concat_rejects hc ha hn

/-- C46: `%concat` is `%join` with the empty separator. -/
theorem C46_concat_join (ext : Ext) (c j : PNode) (a : Node) (args vs out : List PNode) (s u t : St)
    (hc : IsCall (str! "concat") args c) (hj : IsCall (str! "join") (.string a :: args) j) (he : a.value = [])
    (hw : c.site = j.site ∧ c.lw = j.lw) (ha : Evals ext args s (.ok vs) u) (hl : ∀ n ∈ vs, ∃ a, Literal n a) :
    Evals ext [c] s (.ok out) t ↔ Evals ext [j] s (.ok out) t := by
  obtain ⟨xs, hx⟩ := values_of hl
  have hno := values_noNamed hx
  have ha' : Evals ext (.string a :: args) s (.ok (.string a :: vs)) u := (evals_string ext a s).cons ha
  have hp : positional (.string a :: vs) = .string a :: vs := by
    simp only [positional, (positional_noNamed hno).1]
  have h1 := evals_concat hc ha hx
  have hnam : ∀ k v s w, PNode.attr k v s w ∉ PNode.string a :: vs := fun k v s w hm => by
    rcases List.mem_cons.1 hm with h | h
    · cases h
    · have := hno _ h
      simp [PNode.attribute?] at this
  have h2 := evals_join hj ha' hp (.string a) hx (fun k v s w hm => absurd hm (hnam k v s w))
    (.absent (by simp only [lastNamed, (positional_noNamed hno).2]))
  have he' : (List.intercalate a.value xs ++ if (Option.map (·.value) (none : Option Node)) = some (str! "true") then a.value else []) =
      xs.flatten := by
    rw [he]
    simp [intercalate_nil]
  rw [he'] at h2
  have : stringAt c xs.flatten = stringAt j xs.flatten := by simp [stringAt, hw.1, hw.2]
  rw [← this] at h2
  constructor
  · intro h
    obtain ⟨h3, rfl⟩ := h1.unique h
    cases h3
    exact h2
  · intro h
    obtain ⟨h3, rfl⟩ := h2.unique h
    cases h3
    exact h1

/-- C46: `%string` also keeps the whitespace before the items; `%raw` does the same with a
raw node. -/
theorem C46_string (ext : Ext) (c : PNode) (args vs : List PNode) (as : List Node) (s u : St)
    (ha : Evals ext args s (.ok vs) u) (hl : Pairs Literal vs as) :
    (IsCall (str! "string") args c → Evals ext [c] s (.ok [.string ⟨as.flatMap fun a => a.lw ++ a.value, c.site, c.lw⟩]) u) ∧
    (IsCall (str! "raw") args c → Evals ext [c] s (.ok [.raw ⟨as.flatMap fun a => a.lw ++ a.value, c.site, c.lw⟩]) u) := by
  refine ⟨fun hc => (evals_string_macro hc).2 ⟨_, ha, ?_⟩, fun hc => (evals_raw_macro hc).2 ⟨_, ha, ?_⟩⟩
  · show _ = buildText vs >>= _
    rw [buildText_ok hl]
    rfl
  · show _ = buildText vs >>= _
    rw [buildText_ok hl]
    rfl

/-- C46: items that are not literals are an error. -/
theorem C46_string_rejects (ext : Ext) (c : PNode) (args vs : List PNode) (s u : St)
    (hc : IsCall (str! "string") args c ∨ IsCall (str! "raw") args c)
    (ha : Evals ext args s (.ok vs) u) (hl : ¬ ∀ n ∈ vs, ∃ a, Literal n a) : ∃ e, Evals ext [c] s (.err e) u := by
  obtain ⟨e, he⟩ := buildText_err hl
  rcases hc with hc | hc
  · refine ⟨e, (evals_string_macro hc).2 ⟨_, ha, ?_⟩⟩
    show _ = buildText vs >>= _
    rw [he]
    rfl
  · refine ⟨e, (evals_raw_macro hc).2 ⟨_, ha, ?_⟩⟩
    show _ = buildText vs >>= _
    rw [he]
    rfl

/-- `(%join ", " a b c)`, `(%join ", " a b :trailing true)`, `(%concat a b)`, `(%string a  b)`. -/
example : ∃ t, Evals exExt [exList [exSym (str! "%join"), exStr (str! ", "), exSym ['a'], exSym ['b'], exSym ['c']],
    exList [exSym (str! "%join"), exStr (str! ", "), exSym ['a'], exSym ['b'], exAttr (str! "trailing") (exSym (str! "true"))],
    exList [exSym (str! "%concat"), exSym ['a'], exSym ['b']],
    exList [exSym (str! "%string"), exSym ['a'], exSym ['b'] [' ', ' ']]] exSt
    (.ok [exStr (str! "a, b, c"), exStr (str! "a, b, "), exStr (str! "ab"), exStr (str! "a  b")]) t :=
  evals_ok_at 10 (by decide +kernel)
example : IsCall (str! "join") [exStr (str! ", "), exSym ['a'], exAttr (str! "trailing") (exSym (str! "true"))]
    (exList [exSym (str! "%join"), exStr (str! ", "), exSym ['a'], exAttr (str! "trailing") (exSym (str! "true"))]) :=
  .mk _ _ _ _ _ rfl rfl
example : ∃ a, Given (str! "trailing") [exStr (str! ", "), exAttr (str! "trailing") (exSym (str! "true"))] (some a) ∧
    a.value = str! "true" := ⟨_, .literal _ _ rfl (.symbol _), rfl⟩

/-- The theorems on `(%join ", " a b :trailing true)`, `(%join () a)`, `(%concat a b)`, `(%concat ())`, `(%string a  b)`
and `(%string ())`. -/
example : Evals exExt [exList [exSym (str! "%join"), exStr (str! ", "), exSym ['a'], exSym ['b'],
    exAttr (str! "trailing") (exSym (str! "true"))]] exSt (.ok [exStr (str! "a, b, ")]) exSt :=
  C46_join exExt (exList [exSym (str! "%join"), exStr (str! ", "), exSym ['a'], exSym ['b'],
    exAttr (str! "trailing") (exSym (str! "true"))]) (exStr (str! ", ")) _ _ _ [exSym ['a'], exSym ['b']] [['a'], ['b']] _ exSt exSt (.mk _ _ _ _ _ rfl rfl)
    (plain_evals _ _ _ rfl) rfl (.string _) (.cons ⟨_, .symbol _, rfl⟩ (.cons ⟨_, .symbol _, rfl⟩ .nil))
    (one_namedArg _ _ _ rfl ⟨rfl, _, .symbol _, by simp⟩)
    (.literal _ _ rfl (.symbol _))
example := C46_join_rejects exExt (exList [exSym (str! "%join"), exList [], exSym ['a']]) _ [exList [], exSym ['a']] exSt exSt
  (.mk _ _ _ _ _ rfl rfl) (plain_evals _ _ _ rfl) (by
    rintro ⟨⟨sep, items, h, hl⟩, _⟩
    simp [exSym, exList, positional] at h
    obtain ⟨a, ha⟩ := hl sep (by simp)
    rw [← h.1] at ha
    cases ha)
example : Evals exExt [exList [exSym (str! "%concat"), exSym ['a'], exSym ['b'] [' ']]] exSt (.ok [exStr (str! "ab")]) exSt :=
  C46_concat exExt _ _ _ [['a'], ['b']] exSt exSt (.mk _ _ _ _ _ rfl rfl) (plain_evals _ _ _ rfl)
    (.cons ⟨_, .symbol _, rfl⟩ (.cons ⟨_, .symbol _, rfl⟩ .nil))
example := C46_concat_rejects exExt (exList [exSym (str! "%concat"), exList []]) _ [exList []] exSt exSt
  (.mk _ _ _ _ _ rfl rfl) (plain_evals _ _ _ rfl) (by
    intro h
    obtain ⟨_, ha⟩ := h _ (List.mem_cons_self ..)
    cases ha)
example (out : List PNode) := C46_concat_join exExt (exList [exSym (str! "%concat"), exSym ['a'], exSym ['b'] [' ']])
  (exList [exSym (str! "%join"), exStr [], exSym ['a'], exSym ['b'] [' ']]) _ _ [exSym ['a'], exSym ['b'] [' ']] out exSt exSt exSt
  (.mk _ _ _ _ _ rfl rfl) (.mk _ _ _ _ _ rfl rfl) rfl ⟨rfl, rfl⟩ (plain_evals _ _ _ rfl) (by
    intro n hn
    simp at hn
    rcases hn with rfl | rfl <;> exact ⟨_, .symbol _⟩)
example : Evals exExt [exList [exSym (str! "%string"), exSym ['a'], exSym ['b'] [' ', ' ']]] exSt (.ok [exStr (str! "a  b")]) exSt :=
  (C46_string exExt _ [exSym ['a'], exSym ['b'] [' ', ' ']] _ _ exSt exSt (plain_evals _ _ _ rfl)
    (.cons (.symbol _) (.cons (.symbol _) .nil))).1 (.mk _ _ _ _ _ rfl rfl)
example := C46_string_rejects exExt (exList [exSym (str! "%raw"), exList []]) _ [exList []] exSt exSt
  (.inr (.mk _ _ _ _ _ rfl rfl)) (plain_evals _ _ _ rfl) (by
    intro h
    obtain ⟨_, ha⟩ := h _ (List.mem_cons_self ..)
    cases ha)

/-! ## C51 -/

/-- C51: `(%list args...)` is the list of what the arguments expand to. -/
theorem C51_list (ext : Ext) (args ns vs : List PNode) (si : Site) (e : Token) (w : Str) (s u : St)
    (hc : IsCall (str! "list") args (.list ns si e w)) (ha : Evals ext args s (.ok vs) u) :
    Evals ext [.list ns si e w] s (.ok [.list vs si e w]) u := (evals_list_macro hc).2 ⟨_, ha, rfl⟩

/-- C51: `%splat` replaces every list among its arguments by the elements of that list,
the first of which takes the place (leading whitespace) of the list. -/
theorem C51_splat (ext : Ext) (c : PNode) (args vs : List PNode) (s u : St) (hc : IsCall (str! "splat") args c)
    (ha : Evals ext args s (.ok vs) u) : Evals ext [c] s (.ok (vs.flatMap spliced)) u :=
  (evals_splat hc).2 ⟨_, ha, rfl⟩

/-- C51: `(%splat (%list args...))` has the outcome of `args...`, except that the first node
has the leading whitespace of `(%list args...)`. -/
theorem C51_splat_list (ext : Ext) (c l : PNode) (args : List PNode) (s t : St) (r : Res (List PNode))
    (hc : IsCall (str! "splat") [l] c) (hl : IsCall (str! "list") args l) :
    Evals ext [c] s r t ↔ ∃ r0, Evals ext args s r0 t ∧ r = spacedRes l.lw r0 := by
  rw [evals_splat hc]
  have hl' := hl
  obtain ⟨h, tl, si, e, w, _, _⟩ := hl'
  simp only [evals_list_macro hl]
  constructor
  · rintro ⟨_, ⟨r0, h1, rfl⟩, rfl⟩
    refine ⟨r0, h1, ?_⟩
    cases r0 with
    | ok vs => exact congrArg Res.ok (List.append_nil _)
    | _ => rfl
  · rintro ⟨r0, h1, rfl⟩
    refine ⟨_, ⟨r0, h1, rfl⟩, ?_⟩
    cases r0 with
    | ok vs => exact congrArg Res.ok (List.append_nil _).symm
    | _ => rfl

/-- C51: `(%do args...)` has the outcome of `args...`. -/
theorem C51_do (ext : Ext) (c : PNode) (args : List PNode) (s t : St) (r : Res (List PNode)) (hc : IsCall (str! "do") args c) :
    Evals ext [c] s r t ↔ Evals ext args s r t := evals_do hc

/-- C51: `(%strip args...)` has the outcome of `args...` without the leading whitespace of
the first node. -/
theorem C51_strip (ext : Ext) (c : PNode) (args : List PNode) (s t : St) (r : Res (List PNode))
    (hc : IsCall (str! "strip") args c) :
    Evals ext [c] s r t ↔ ∃ r0, Evals ext args s r0 t ∧ r = spacedRes [] r0 := by
  rw [evals_strip hc]
  constructor
  · rintro ⟨r0, h1, rfl⟩
    exact ⟨r0, h1, by cases r0 <;> rfl⟩
  · rintro ⟨r0, h1, rfl⟩
    exact ⟨r0, h1, by cases r0 <;> rfl⟩

/-- C51: none of these changes anything but leading whitespace. -/
theorem C51_same_nodes (w : Str) (vs : List PNode) :
    (firstSpaced w vs).map bare = vs.map bare ∧
    (vs.flatMap spliced).map bare = vs.flatMap fun v => match v with
      | .list ns _ _ _ => ns.map bare
      | v => [bare v] := by
  have key : ∀ w vs, (firstSpaced w vs).map bare = vs.map bare := fun w vs => by
    cases vs with
    | nil => rfl
    | cons v vs => simp [firstSpaced, bare_setLw]
  refine ⟨key w vs, ?_⟩
  rw [List.map_flatMap]
  congr 1
  funext v
  cases v <;> simp [spliced, key]

/-- `(%splat (%list a (%do b c)) (x y))`, `(%strip  a b)`. -/
example : ∃ t, Evals exExt [exList [exSym (str! "%splat"),
      exList [exSym (str! "%list"), exSym ['a'], exList [exSym (str! "%do"), exSym ['b'], exSym ['c']]],
      exList [exSym ['x'], exSym ['y']]],
    exList [exSym (str! "%strip"), exSym ['a'] ['\n'], exSym ['b']]] exSt
    (.ok [exSym ['a'], exSym ['b'], exSym ['c'], exSym ['x'], exSym ['y'], exSym ['a'], exSym ['b']]) t :=
  evals_ok_at 10 (by decide +kernel)
example : IsCall (str! "splat") [exList [exSym (str! "%list"), exSym ['a']]]
    (exList [exSym (str! "%splat"), exList [exSym (str! "%list"), exSym ['a']]]) := .mk _ _ _ _ _ rfl rfl

/-- The theorems on `(%list a b)` and `(%splat (a b) c)`. -/
example : Evals exExt [exList [exSym (str! "%list"), exSym ['a'], exSym ['b'] [' ']]] exSt
    (.ok [exList [exSym ['a'], exSym ['b'] [' ']]]) exSt :=
  C51_list exExt _ _ _ _ _ _ exSt exSt (.mk _ _ _ _ _ rfl rfl) (plain_evals _ _ _ rfl)
example : Evals exExt [exList [exSym (str! "%splat"), exList [exSym ['a'], exSym ['b'] [' ']], exSym ['c']]] exSt
    (.ok [exSym ['a'], exSym ['b'] [' '], exSym ['c']]) exSt :=
  C51_splat exExt _ _ [exList [exSym ['a'], exSym ['b'] [' ']], exSym ['c']] exSt exSt (.mk _ _ _ _ _ rfl rfl) (plain_evals _ _ _ rfl)

end Seam
