import Verif.Lemmas.Laws

/-!
# Laws of the list macros (C96)
-/

namespace Seam
open Spec

/-! ## `%sort` -/

/-- C96: a list whose elements are in order already is not changed by `%sort`. -/
theorem C96_sort_ordered (ext : Ext) (c : PNode) (args vs ns : List PNode) (si : Site) (e : Token) (w : Str)
    (order key : Option Node) (items : List (Str × PNode)) (s u t : St)
    (hc : IsCall (str! "sort") args c) (ha : Evals ext args s (.ok vs) u)
    (hp : positional vs = [.list ns si e w]) (hn : NamedArgs SortOption vs)
    (ho : Given (str! "order") vs order) (hk : Given (str! "key") vs key)
    (hi : Keyed ext ((key.map (·.value)).getD (str! "do")) c ns u items t)
    (hcmp : Comparable ext (items.map (·.1)))
    (hord : items.Pairwise fun a b =>
      if order.map (·.value) = some (str! "descending") then KeyLe ext b.1 a.1 else KeyLe ext a.1 b.1) :
    Evals ext [c] s (.ok [.list ns si e c.lw]) t := by
  obtain ⟨ms, sorted, h1, h2, h3, h4, _, h6⟩ := C45_sorts_partial ext c args vs ns si e w order key items s u t hc ha hp hn ho hk hi hcmp
  have h7 : sorted = items := sublist_eq (h6 items (List.Sublist.refl _) hord) h4
  have h8 : ms = ns := nodes_eq (by
    rw [h2, h7, ← keyed_items hi, List.map_map]; rfl) h3
  rw [← h8]
  exact h1

/-- C96: sorting twice is sorting once. -/
theorem C96_sort_twice (ext : Ext) (c c' : PNode) (args ns : List PNode) (xs : List Str) (si : Site) (e : Token) (w : Str)
    (s u : St) (hc : IsCall (str! "sort") args c) (hc' : IsCall (str! "sort") [c] c')
    (ha : Evals ext args s (.ok [.list ns si e w]) u) (hm : MacrosFree ns) (hx : Values ns xs) (hcmp : Comparable ext xs) :
    ∃ ms, Evals ext [c] s (.ok [.list ms si e c.lw]) u ∧ Evals ext [c'] s (.ok [.list ms si e c'.lw]) u := by
  obtain ⟨ms, ys, h1, h2, h3, h4, h5, h6⟩ := sort_values hc ha rfl (by intro k v s w h; simp at h) (.absent rfl) (.absent rfl) hm hx hcmp
  have hlen : ys.length = ms.length := values_length h2
  have hxs : (ys.zip ms).map (·.1) = ys := List.map_fst_zip (by omega)
  refine ⟨ms, h1, ?_⟩
  refine C96_sort_ordered ext c' [c] _ ms si e c.lw none none (ys.zip ms) s u u hc' h1 rfl (by intro k v s w h; simp at h)
    (.absent rfl) (.absent rfl) (keyed_plain u (macrosFree_perm h4 hm) h2) ?_ ?_
  · rw [hxs]
    exact ⟨fun a ha b hb => hcmp.total a (h5.mem_iff.1 ha) b (h5.mem_iff.1 hb),
      fun a ha b hb d hd => hcmp.trans a (h5.mem_iff.1 ha) b (h5.mem_iff.1 hb) d (h5.mem_iff.1 hd)⟩
  · have := h6
    rw [← hxs, List.pairwise_map] at this
    exact this

/-- C96: if no two different values rank the same, the order in which the values are given does
not matter to the result of `%sort`. -/
theorem C96_sort_any_order (ext : Ext) (c d : PNode) (args brgs ns ms : List PNode) (xs ys : List Str) (si sj : Site)
    (e f : Token) (w v : Str) (s t u r : St) (hc : IsCall (str! "sort") args c) (hd : IsCall (str! "sort") brgs d)
    (ha : Evals ext args s (.ok [.list ns si e w]) t) (hb : Evals ext brgs u (.ok [.list ms sj f v]) r)
    (hn : MacrosFree ns) (hm : MacrosFree ms) (hx : Values ns xs) (hy : Values ms ys) (hp : xs.Perm ys)
    (hcmp : Comparable ext xs) (hanti : ∀ a ∈ xs, ∀ b ∈ xs, KeyLe ext a b → KeyLe ext b a → a = b) :
    ∃ ks ls zs, Evals ext [c] s (.ok [.list ks si e c.lw]) t ∧ Evals ext [d] u (.ok [.list ls sj f d.lw]) r ∧
      Values ks zs ∧ Values ls zs := by
  have hcmp' : Comparable ext ys :=
    ⟨fun a ha b hb => hcmp.total a (hp.mem_iff.2 ha) b (hp.mem_iff.2 hb),
      fun a ha b hb d hd => hcmp.trans a (hp.mem_iff.2 ha) b (hp.mem_iff.2 hb) d (hp.mem_iff.2 hd)⟩
  obtain ⟨ks, zs, h1, h2, _, _, h5, h6⟩ := sort_values hc ha rfl (by intro k v s w h; simp at h) (.absent rfl) (.absent rfl) hn hx hcmp
  obtain ⟨ls, zs', g1, g2, _, _, g5, g6⟩ := sort_values hd hb rfl (by intro k v s w h; simp at h) (.absent rfl) (.absent rfl) hm hy hcmp'
  simp only [Option.map_none, reduceCtorEq, if_false] at h6 g6
  have : zs = zs' := arranged_unique (h5.trans (hp.trans g5.symm))
    (fun a ha b hb => hanti a (h5.mem_iff.1 ha) b (h5.mem_iff.1 hb)) h6 g6
  exact ⟨ks, ls, zs, h1, g1, h2, this ▸ g2⟩

/-- C96: then `:order descending` gives the values of the ascending order backwards. -/
theorem C96_sort_descending (ext : Ext) (c d : PNode) (args brgs vs ns : List PNode) (xs : List Str) (o : Node) (si : Site)
    (e : Token) (w : Str) (s t u r : St) (hc : IsCall (str! "sort") args c) (hd : IsCall (str! "sort") brgs d)
    (ha : Evals ext args s (.ok [.list ns si e w]) t) (hb : Evals ext brgs u (.ok vs) r)
    (hv : positional vs = [.list ns si e w]) (hno : NamedArgs SortOption vs) (ho : Given (str! "order") vs (some o))
    (hod : o.value = str! "descending") (hk : Given (str! "key") vs none) (hn : MacrosFree ns) (hx : Values ns xs)
    (hcmp : Comparable ext xs) (hanti : ∀ a ∈ xs, ∀ b ∈ xs, KeyLe ext a b → KeyLe ext b a → a = b) :
    ∃ ks ls zs, Evals ext [c] s (.ok [.list ks si e c.lw]) t ∧ Evals ext [d] u (.ok [.list ls si e d.lw]) r ∧
      Values ks zs ∧ Values ls zs.reverse := by
  obtain ⟨ks, zs, h1, h2, _, _, h5, h6⟩ := sort_values hc ha rfl (by intro k v s w h; simp at h) (.absent rfl) (.absent rfl) hn hx hcmp
  obtain ⟨ls, zs', g1, g2, _, _, g5, g6⟩ := sort_values hd hb hv hno ho hk hn hx hcmp
  simp only [Option.map_none, reduceCtorEq, if_false] at h6
  simp only [Option.map_some, hod, if_true] at g6
  have : zs.reverse = zs' := arranged_unique (R := fun x y => KeyLe ext y x) ((List.reverse_perm zs).trans (h5.trans g5.symm))
    (fun a ha b hb h h' => hanti a (h5.mem_iff.1 (by simpa using ha)) b (h5.mem_iff.1 (by simpa using hb)) h' h)
    (List.pairwise_reverse.2 h6) g6
  exact ⟨ks, ls, zs, h1, g1, h2, this ▸ g2⟩

/-! ## `%reverse` and `%get` -/

/-- C96: counted from the end: the element with number `i` of `(%reverse l)` is the element with
number `n - 1 - i` of a list `l` of `n` elements, up to the whitespace in front. -/
theorem C96_get_reverse (ext : Ext) (c d r l : PNode) (a b : Node) (ns : List PNode) (i j : Nat) (si : Site) (e : Token) (w : Str)
    (s u : St) (hc : IsCall (str! "get") [.string a, r] c) (hr : IsCall (str! "reverse") [l] r)
    (hd : IsCall (str! "get") [.string b, l] d) (hl : Evals ext [l] s (.ok [.list ns si e w]) u)
    (ha : Numeral a.value i) (hb : Numeral b.value j) (hij : i + j + 1 = ns.length) :
    ∃ n m, Evals ext [c] s (.ok [n]) u ∧ Evals ext [d] s (.ok [m]) u ∧ bare n = bare m := by
  obtain ⟨ms, h1, h2, h3⟩ := C44_reverse ext r [l] ns si e w s u hr hl
  have hlen : ms.length = ns.length := by
    have := congrArg List.length h2
    simpa using this
  have hi : i < ms.length := by omega
  have hj : j < ns.length := by omega
  refine ⟨ms[i], ns[j], ?_, ?_, ?_⟩
  · rw [get_two hc h1 (by simp)]
    rw [(gets_iff (by simp)).1 (Gets.last a.value _ _ (numeral_no_slash ha)
      (.index ms si e w i rfl ha (List.getElem?_eq_getElem hi)))]
    exact ⟨rfl, rfl⟩
  · rw [get_two hd hl (by simp)]
    rw [(gets_iff (by simp)).1 (Gets.last b.value _ _ (numeral_no_slash hb)
      (.index ns si e w j rfl hb (List.getElem?_eq_getElem hj)))]
    exact ⟨rfl, rfl⟩
  · have h4 : (ms.map bare)[i]'(by simpa using hi) = ((ns.map bare).reverse)[i]'(by simp; omega) := by simp only [h2]
    rw [List.getElem_map, List.getElem_reverse, List.getElem_map] at h4
    rw [h4]
    congr 1
    simp only [List.length_map]
    congr 1
    omega

/-! ## `%concat` and `%join` -/

/-- C96: `(%concat (%concat as...) bs...)` is `(%concat as... bs...)`. -/
theorem C96_concat_nested (ext : Ext) (c c' d : PNode) (as bs vs ws : List PNode) (xs ys : List Str) (s t u : St)
    (hc : IsCall (str! "concat") (d :: bs) c) (hd : IsCall (str! "concat") as d) (hc' : IsCall (str! "concat") (as ++ bs) c')
    (ha : Evals ext as s (.ok vs) t) (hb : Evals ext bs t (.ok ws) u) (hx : Values vs xs) (hy : Values ws ys) :
    Evals ext [c] s (.ok [stringAt c (xs ++ ys).flatten]) u ∧ Evals ext [c'] s (.ok [stringAt c' (xs ++ ys).flatten]) u := by
  constructor
  · have h1 := C46_concat ext d as vs xs s t hd ha hx
    have h2 : Values (stringAt d xs.flatten :: ws) (xs.flatten :: ys) := .cons ⟨_, .string _, rfl⟩ hy
    have := C46_concat ext c (d :: bs) _ _ s u hc (h1.cons hb) h2
    simpa using this
  · exact C46_concat ext c' (as ++ bs) _ _ s u hc' (ha.append hb) (pairs_append hx hy)

/-- C96: `(%join sep (%join sep as...) bs...)` is `(%join sep as... bs...)`, if there is something
in `as`. -/
theorem C96_join_nested (ext : Ext) (c c' d : PNode) (p : Node) (as bs vs ws : List PNode) (xs ys : List Str) (s t u : St)
    (hc : IsCall (str! "join") (.string p :: d :: bs) c) (hd : IsCall (str! "join") (.string p :: as) d)
    (hc' : IsCall (str! "join") (.string p :: (as ++ bs)) c') (ha : Evals ext as s (.ok vs) t)
    (hb : Evals ext bs t (.ok ws) u) (hx : Values vs xs) (hy : Values ws ys) (hne : xs ≠ []) :
    Evals ext [c] s (.ok [stringAt c (p.value.intercalate (xs ++ ys))]) u ∧
    Evals ext [c'] s (.ok [stringAt c' (p.value.intercalate (xs ++ ys))]) u := by
  have key : ∀ {f : PNode} {args ws : List PNode} {zs : List Str} {s u : St}, IsCall (str! "join") (.string p :: args) f →
      Evals ext args s (.ok ws) u → Values ws zs → Evals ext [f] s (.ok [stringAt f (p.value.intercalate zs)]) u := by
    intro f args ws zs s u hf hw hz
    have hno := values_noNamed hz
    have h := C46_join ext f (.string p) p (.string p :: args) (.string p :: ws) ws zs none s u hf ((evals_string ext p s).cons hw)
      (by simp only [positional, (positional_noNamed hno).1]) (.string p) hz
      (fun k v s w hm => by
        rcases List.mem_cons.1 hm with h | h
        · cases h
        · have := hno _ h
          simp [PNode.attribute?] at this)
      (.absent (by simp only [lastNamed, (positional_noNamed hno).2]))
    simpa using h
  constructor
  · have h1 := key hd ha hx
    have h2 : Values (stringAt d (p.value.intercalate xs) :: ws) (p.value.intercalate xs :: ys) := .cons ⟨_, .string _, rfl⟩ hy
    have h3 := key hc (h1.cons hb) h2
    have : p.value.intercalate (p.value.intercalate xs :: ys) = p.value.intercalate (xs ++ ys) := by
      rw [intercalate_cons]
      cases ys with
      | nil => simp
      | cons y ys => rw [if_neg (by simp), intercalate_append _ _ _ hne (by simp)]
    rwa [this] at h3
  · exact key hc' (ha.append hb) (pairs_append hx hy)

/-! ## `%list`, `%splat`, `%strip`, `%do` -/

/-- C96: `(%list (%splat l))` has the elements of the list `l`. -/
theorem C96_list_splat (ext : Ext) (d l : PNode) (ns ks : List PNode) (si sj : Site) (e f : Token) (w v : Str) (s u : St)
    (hc : IsCall (str! "list") [d] (.list ks sj f v)) (hd : IsCall (str! "splat") [l] d)
    (hl : Evals ext [l] s (.ok [.list ns si e w]) u) :
    Evals ext [.list ks sj f v] s (.ok [.list (firstSpaced w ns) sj f v]) u := by
  have h := C51_splat ext d [l] _ s u hd hl
  simp only [List.flatMap_cons, List.flatMap_nil, List.append_nil, spliced] at h
  exact C51_list ext [d] ks _ sj f v s u hc h

/-- C96: `(%strip (%strip args...))` is `(%strip args...)`. -/
theorem C96_strip_twice (ext : Ext) (c d : PNode) (args : List PNode) (s t : St) (r : Res (List PNode))
    (hc : IsCall (str! "strip") [d] c) (hd : IsCall (str! "strip") args d) :
    Evals ext [c] s r t ↔ Evals ext [d] s r t := by
  have h : ∀ r : Res (List PNode), spacedRes [] (spacedRes [] r) = spacedRes [] r := by
    intro r
    cases r with
    | ok ns =>
      cases ns with
      | nil => rfl
      | cons n ns =>
        show Res.ok (_ :: _) = Res.ok (_ :: _)
        cases n <;> rfl
    | _ => rfl
  rw [C51_strip ext c [d] s t r hc]
  simp only [C51_strip ext d args s t _ hd]
  constructor
  · rintro ⟨_, ⟨r0, h1, rfl⟩, rfl⟩
    exact ⟨r0, h1, h r0⟩
  · rintro ⟨r0, h1, rfl⟩
    exact ⟨_, ⟨r0, h1, rfl⟩, (h r0).symm⟩

/-! ## `%for` and `%map` -/

/-- C96: for a template, `(%for x in (ys...) template...)` and `(%map (%lambda x template...) ys...)`
give the same nodes. -/
theorem C96_for_map (ext : Ext) (c m l : PNode) (a b : Node) (args ys rest largs lrest : List PNode)
    (chunks : List (List PNode)) (si : Site) (e : Token) (w : Str) (s : St) (hf : Fair s.order)
    (hc : IsCall (str! "for") args c) (hp : positional args = .symbol a :: .symbol b :: .list ys si e w :: rest)
    (hb : b.value = str! "in") (hm : IsCall (str! "map") (l :: ys) m) (hl : IsCall (str! "lambda") largs l)
    (hlp : positional largs = .symbol a :: lrest) (hbody : dropPositional 1 largs = dropPositional 3 args)
    (ha : ∀ r, a.value ≠ '&' :: r) (hy : MacrosFree ys) (hyn : NoNamed ys)
    (hnew : s.scope (str! "__lambda" ++ ext.uuid l.site) = none)
    (ho : Pairs (fun y chunk => FillsAll (GivenArgs s.scope [a.value] [y]) (dropPositional 3 args) chunk) ys chunks) :
    ∃ t u, Evals ext [c] s (.ok chunks.flatten) t ∧ Evals ext [m] s (.ok chunks.flatten) u ∧
      SameEffects s t ∧ SameEffects s u ∧ t.scope = s.scope ∧
      ∀ y, y ≠ str! "__lambda" ++ ext.uuid l.site → u.scope y = s.scope y := by
  obtain ⟨t, h1, h2, h3⟩ := C85_for ext c a b args ys rest chunks si e w s hc hf hp hb hy ho
  have hpl : NameParams [.symbol a] [a.value] := .cons _ _ _ ha .nil
  have hr := nameParams_plain hpl
  obtain ⟨f, v, h4, h5, h6, h7, _, h8, h9⟩ := C50_lambda ext l (.symbol a) largs lrest [.symbol a] s hl hlp (.one a)
    (by simp [hr.2.1]) (by simp [hr.2.2.1])
  have heff : SameEffects s v := by rw [h9]; exact ⟨rfl, rfl, rfl⟩
  have hnv : ∀ x given, Stands s.scope x given → Stands v.scope x given := fun x given hx => by
    refine ⟨(h8 x fun hxf => ?_).trans hx.1, hx.2⟩
    have := hx.1
    rw [hxf, h7, hnew] at this
    cases this
  have hvs : Evals ext (l :: ys) s (.ok (.symbol f :: ys)) v := h4.cons (macrosFree_evals ext ys hy v)
  rw [hbody] at h5
  obtain ⟨u, g1, g2, g3⟩ := fills_calls ext (c := m) h6 ha v hy hyn (by rw [heff.2.2]; exact hf) h5
    (pairs_weaken (fun y chunk h => fillsAll_weaken (fun x given hg => by
      rcases hg with hg | ⟨hg, hg'⟩
      · exact .inl hg
      · exact .inr ⟨hg, hnv x given hg'⟩) h) ho)
  refine ⟨t, u, h1, ?_, h3, ⟨g3.1.trans heff.1, g3.2.1.trans heff.2.1, g3.2.2.trans heff.2.2⟩, h2, fun y hy' => ?_⟩
  · refine (C50_map ext m (l :: ys) (.symbol f :: ys) (positional ys) f s v u _ hm hvs rfl).2 ⟨.ok chunks, ?_, rfl⟩
    rw [dropPositional_symbol]
    exact g1
  · rw [g2]
    exact h8 y (by rw [h7]; exact hy')

/-- `(%for x in (1 2) (%ifdef q %x (%define q 0)))`: a body that defines something. -/
def exLawBody : PNode := exList [exSym (str! "%ifdef"), exSym ['q'], exSym (str! "%x"), exList [exSym (str! "%define"), exSym ['q'], exNum ['0']]]
def exLawFor : PNode := exList [exSym (str! "%for"), exSym ['x'], exSym (str! "in"), exList [exNum ['1'], exNum ['2']], exLawBody]
/-- `(%map (%lambda x (%ifdef q %x (%define q 0))) 1 2)`. -/
def exLawMap : PNode := exList [exSym (str! "%map"), exList [exSym (str! "%lambda"), exSym ['x'], exLawBody], exNum ['1'], exNum ['2']]

/-- C96: with a body that defines something they may differ: what the body defines is still
there for the next item of `%for`, but not in the next call of `%map`. -/
theorem C96_for_map_false : (∃ t, Evals exExt [exLawFor] exSt (.ok [exNum ['2']]) t) ∧
    ∃ t, Evals exExt [exLawMap] exSt (.ok []) t :=
  ⟨evals_ok_at 20 (by decide +kernel), evals_ok_at 20 (by decide +kernel)⟩

/-! ## Examples -/

/-- Values `10 9 8` are comparable, and no two of them rank the same. -/
example : Comparable exExt [str! "10", ['9'], ['8']] ∧
    ∀ a ∈ [str! "10", ['9'], ['8']], ∀ b ∈ [str! "10", ['9'], ['8']], KeyLe exExt a b → KeyLe exExt b a → a = b := by
  refine ⟨comparable_integers fun x hx => ?_, ?_⟩
  · simp at hx
    rcases hx with rfl | rfl | rfl
    · exact ⟨10, parseI64_iff.1 (by decide)⟩
    · exact ⟨9, parseI64_iff.1 (by decide)⟩
    · exact ⟨8, parseI64_iff.1 (by decide)⟩
  · have h : ∀ a ∈ [str! "10", ['9'], ['8']], ∀ b ∈ [str! "10", ['9'], ['8']],
        keyCmp exExt a b ≠ .gt → keyCmp exExt b a ≠ .gt → a = b := by decide +kernel
    intro a ha b hb h1 h2
    rw [keyLe_iff] at h1 h2
    exact h a ha b hb h1 h2

/-- `(%sort (%sort (10 9 8)))`, and `10 9 8` without macros. -/
example : IsCall (str! "sort") [exSort] (exList [exSym (str! "%sort"), exSort]) := .mk _ _ _ _ _ rfl rfl
example : MacrosFree [exNum (str! "10"), exNum ['9'], exNum ['8']] ∧ Values [exNum (str! "10"), exNum ['9'], exNum ['8']] [str! "10", ['9'], ['8']] :=
  ⟨.cons _ _ (.number _) (.cons _ _ (.number _) (.cons _ _ (.number _) .nil)),
    .cons ⟨_, .number _, rfl⟩ (.cons ⟨_, .number _, rfl⟩ (.cons ⟨_, .number _, rfl⟩ .nil))⟩

/-- `(%sort (10 9) :order descending)`. -/
example : Given (str! "order") [exList [exNum (str! "10"), exNum ['9']], exAttr (str! "order") (exSym (str! "descending"))]
    (some ⟨str! "descending", (exSym (str! "descending")).site, []⟩) := .literal _ _ rfl (.symbol _)

/-- `(%get "0" (%reverse (a b c)))` is `(%get "2" (a b c))`. -/
def exLawList : PNode := exList [exSym ['a'], exSym ['b'] [' '], exSym ['c'] [' ']]
example : ∃ n m, Evals exExt [exList [exSym (str! "%get"), exStr ['0'], exList [exSym (str! "%reverse"), exLawList]]] exSt (.ok [n]) exSt ∧
    Evals exExt [exList [exSym (str! "%get"), exStr ['2'], exLawList]] exSt (.ok [m]) exSt ∧ bare n = bare m :=
  C96_get_reverse exExt _ _ _ exLawList _ _ _ 0 2 _ _ _ exSt exSt (.mk _ _ _ _ _ rfl rfl) (.mk _ _ _ _ _ rfl rfl)
    (.mk _ _ _ _ _ rfl rfl)
    (macrosFree_evals exExt [exLawList] (.cons _ _ (.list _ _ _ _ (.cons _ _ (.symbol _ (fun _ => by simp))
      (.cons _ _ (.symbol _ (fun _ => by simp)) (.cons _ _ (.symbol _ (fun _ => by simp)) .nil)))) .nil) exSt)
    ⟨['0'], .inl rfl, by simp, by decide, rfl, by decide⟩ ⟨['2'], .inl rfl, by simp, by decide, rfl, by decide⟩ rfl

/-- `(%join ", " (%join ", " a b) c)` is `a, b, c`. -/
example : ∃ t, Evals exExt [exList [exSym (str! "%join"), exStr (str! ", "),
    exList [exSym (str! "%join"), exStr (str! ", "), exSym ['a'], exSym ['b']], exSym ['c']]] exSt (.ok [exStr (str! "a, b, c")]) t :=
  evals_ok_at 10 (by decide +kernel)
/-- But `(%join ", " (%join ", ") c)` is `, c`. -/
example : ∃ t, Evals exExt [exList [exSym (str! "%join"), exStr (str! ", "),
    exList [exSym (str! "%join"), exStr (str! ", ")], exSym ['c']]] exSt (.ok [exStr (str! ", c")]) t :=
  evals_ok_at 10 (by decide +kernel)

/-- `(%for x in (a b) (li %x))` and `(%map (%lambda x (li %x)) a b)`. -/
def exLawMap' : PNode := exList [exSym (str! "%map"), exList [exSym (str! "%lambda"), exSym ['x'],
  exList [exSym (str! "li"), exSym (str! "%x") [' ']]], exSym ['a'], exSym ['b']]
example : ∃ t u, Evals exExt [exFor] exSt (.ok [exList [exSym (str! "li"), exSym ['a'] [' ']], exList [exSym (str! "li"), exSym ['b'] [' ']]]) t ∧
    Evals exExt [exLawMap'] exSt (.ok [exList [exSym (str! "li"), exSym ['a'] [' ']], exList [exSym (str! "li"), exSym ['b'] [' ']]]) u ∧
    t.scope = exSt.scope := by
  obtain ⟨t, u, h1, h2, _, _, h3, _⟩ := C96_for_map exExt exFor exLawMap' _ ⟨['x'], _, _⟩ ⟨str! "in", _, _⟩ _ [exSym ['a'], exSym ['b']] _ _ _
    [[exList [exSym (str! "li"), exSym ['a'] [' ']]], [exList [exSym (str! "li"), exSym ['b'] [' ']]]] _ _ _ exSt exSt_fair
    (.mk _ _ _ _ _ rfl rfl) rfl rfl (.mk _ _ _ _ _ rfl rfl) (.mk _ _ _ _ _ rfl rfl) rfl rfl (fun _ => by simp)
    (.cons _ _ (.symbol _ (fun _ => by simp)) (.cons _ _ (.symbol _ (fun _ => by simp)) .nil))
    (fun v hv => by simp at hv; rcases hv with rfl | rfl <;> rfl) rfl
    (.cons (.cons _ _ [_] _ (.list _ _ _ _ _ (fun a t x h => by cases h; simp)
      (.cons _ _ [_] _ (.symbol _ (fun _ => by simp)) (.cons _ _ [_] _ (.var _ ['x'] [exSym ['a']] rfl (.inl ⟨0, _, rfl, rfl, rfl⟩)) .nil))) .nil)
    (.cons (.cons _ _ [_] _ (.list _ _ _ _ _ (fun a t x h => by cases h; simp)
      (.cons _ _ [_] _ (.symbol _ (fun _ => by simp)) (.cons _ _ [_] _ (.var _ ['x'] [exSym ['b']] rfl (.inl ⟨0, _, rfl, rfl, rfl⟩)) .nil))) .nil) .nil))
  exact ⟨t, u, h1, h2, h3⟩

end Seam
