import Verif.Spec.Sheet
import Verif.Lemmas.Css

/-! The CSS generator writes the text of `Spec.SheetText`. -/

namespace Seam
open Spec

theorem space_iff (c : Char) : isUniWs c = true ↔ Space c := by
  unfold isUniWs Space whiteSpace
  simp only [Bool.or_eq_true, Bool.and_eq_true, decide_eq_true_eq, beq_iff_eq, List.mem_cons, List.not_mem_nil, or_false]
  omega

theorem space_false (c : Char) : isUniWs c = false ↔ ¬ Space c := by
  rw [← space_iff, Bool.eq_false_iff]

theorem dropWhile_all {p : Char → Bool} : ∀ {a : Str} (b : Str), (∀ c ∈ a, p c = true) →
    (a ++ b).dropWhile p = b.dropWhile p
  | [], _, _ => rfl
  | c :: a, b, h => by
    rw [List.cons_append, List.dropWhile_cons, h c (by simp), if_pos rfl, dropWhile_all b (fun d hd => h d (by simp [hd]))]

theorem dropWhile_head {p : Char → Bool} {s : Str} (h : ∀ c ∈ s.head?, p c = false) : s.dropWhile p = s := by
  cases s with
  | nil => rfl
  | cons c s => rw [List.dropWhile_cons, h c (by simp)]; rfl

theorem dropWhile_stops {p : Char → Bool} : ∀ (s : Str), ∀ c ∈ (s.dropWhile p).head?, p c = false
  | [], c, h => by simp at h
  | d :: s, c, h => by
    rw [List.dropWhile_cons] at h
    split at h
    · exact dropWhile_stops s c h
    · simp at h; subst h; rename_i hp; simpa using hp

theorem trimmed_trim (s : Str) : Trimmed s (trim s) := by
  refine ⟨s.takeWhile isUniWs, ((s.dropWhile isUniWs).reverse.takeWhile isUniWs).reverse, ?_, ?_, ?_, ?_, ?_⟩
  · have h1 : trim s ++ ((s.dropWhile isUniWs).reverse.takeWhile isUniWs).reverse = s.dropWhile isUniWs := by
      unfold trim trimEnd trimStart
      rw [← List.reverse_append, List.takeWhile_append_dropWhile, List.reverse_reverse]
    rw [List.append_assoc, h1, List.takeWhile_append_dropWhile]
  · intro c hc
    exact (space_iff c).1 (mem_takeWhile hc)
  · intro c hc
    exact (space_iff c).1 (mem_takeWhile (List.mem_reverse.1 hc))
  · intro c hc
    rw [← space_false]
    have hd := dropWhile_stops (p := isUniWs) s
    unfold trim trimEnd trimStart at hc
    -- the first character survives trimming at the end
    cases hs : s.dropWhile isUniWs with
    | nil => rw [hs] at hc; simp at hc
    | cons d r =>
      rw [hs] at hc hd
      have hdd : isUniWs d = false := hd d (by simp)
      have : ((d :: r).reverse.dropWhile isUniWs).reverse.head? = some d := by
        rw [List.reverse_cons]
        have key : ∀ l : Str, ((l ++ [d]).dropWhile isUniWs).reverse.head? = some d := by
          intro l
          induction l with
          | nil => simp [hdd]
          | cons x l ih =>
            rw [List.cons_append, List.dropWhile_cons]
            split
            · exact ih
            · simp
        exact key _
      rw [this] at hc
      simp at hc
      subst hc
      exact hdd
  · intro c hc
    rw [← space_false]
    unfold trim trimEnd at hc
    rw [List.getLast?_reverse] at hc
    exact dropWhile_stops _ c hc

theorem trim_trimmed {s t : Str} (h : Trimmed s t) : trim s = t := by
  obtain ⟨a, b, rfl, ha, hb, hh, hl⟩ := h
  have ha' : ∀ c ∈ a, isUniWs c = true := fun c hc => (space_iff c).2 (ha c hc)
  have hb' : ∀ c ∈ b, isUniWs c = true := fun c hc => (space_iff c).2 (hb c hc)
  unfold trim trimStart trimEnd
  rw [List.append_assoc, dropWhile_all _ ha']
  cases t with
  | nil =>
    have : b.dropWhile isUniWs = [] := by
      have := dropWhile_all [] hb'
      simpa using this
    simp [this]
  | cons d t =>
    rw [dropWhile_head (s := d :: t ++ b) (by intro c hc; rw [space_false]; exact hh c (by simpa using hc)),
      List.reverse_append, dropWhile_all _ (fun c hc => hb' c (List.mem_reverse.1 hc)),
      dropWhile_head (by intro c hc; rw [space_false]; exact hl c (by rwa [List.head?_reverse] at hc)),
      List.reverse_reverse]

theorem joined_join (sep : Str) : ∀ l : List Str, Joined sep l (joinStr sep l)
  | [] => .nil
  | [s] => .one s
  | s :: t :: ss => .more s t _ ss (joined_join sep (t :: ss))

theorem join_joined {sep : Str} {l : List Str} {t : Str} (h : Joined sep l t) : joinStr sep l = t := by
  induction h with
  | nil => rfl
  | one => rfl
  | more s u t ts _ ih => rw [joinStr, ih]

theorem callNames_functions : cssFunctions = callNames := rfl

theorem ops_not_calls : ∀ f ∈ [str! "+", str! "-", str! "*", str! "/"], f ∉ callNames := by decide +kernel

theorem comma_calls {f : Str} (h : f = str! "rgba" ∨ f = str! "hsla") : f ∈ callNames := by
  rcases h with rfl | rfl <;> decide +kernel

theorem callText_apply (f : Str) (args : List Str) : CallText f args (cssApply f args) := by
  have hbin : cssBinaryOperators = [str! "+", str! "-", str! "*", str! "/"] := rfl
  unfold cssApply
  simp only []
  by_cases hc : f = str! "rgba" ∨ f = str! "hsla"
  · have h1 : cssCommaDelim.contains f = true := by simpa [cssCommaDelim] using hc
    have h2 : cssFunctions.contains f = true := by
      rw [callNames_functions]; simpa using comma_calls hc
    rw [h1, h2]
    have := CallText.comma (f := f) (args := args) _ _ hc (joined_join _ _) (trimmed_trim _)
    simpa using this
  · have h1 : cssCommaDelim.contains f = false := by
      rw [Bool.eq_false_iff]; simpa [cssCommaDelim] using hc
    rw [h1]
    simp only [Bool.false_eq_true, if_false]
    by_cases hf : f ∈ callNames
    · have h2 : cssFunctions.contains f = true := by
        rw [callNames_functions]; simpa using hf
      rw [h2]
      have := CallText.blank (f := f) (args := args) _ _ hf (fun h => hc (Or.inl h)) (fun h => hc (Or.inr h))
        (joined_join _ _) (trimmed_trim _)
      simpa using this
    · have h2 : cssFunctions.contains f = false := by
        rw [callNames_functions, Bool.eq_false_iff]; simpa using hf
      rw [h2]
      simp only [Bool.false_eq_true, if_false]
      by_cases ho : f ∈ [str! "+", str! "-", str! "*", str! "/"]
      · have h3 : cssBinaryOperators.contains f = true := by rw [hbin]; exact List.contains_iff_mem.2 ho
        rw [h3]
        have := CallText.infix (f := f) (args := args) _ ho (joined_join _ _)
        simpa using this
      · have h3 : cssBinaryOperators.contains f = false := by
          rw [hbin, Bool.eq_false_iff, Ne, List.contains_iff_mem]; exact ho
        rw [h3]
        have := CallText.plain (f := f) (args := args) _ _ hf ho (joined_join _ _) (trimmed_trim _)
        simpa using this

theorem callText_unique {f : Str} {args : List Str} {t u : Str} (h : CallText f args t) (h' : CallText f args u) : t = u := by
  have hj : ∀ {sep a b : Str}, Joined sep args a → Joined sep args b → a = b := fun ha hb => by
    rw [← join_joined ha, ← join_joined hb]
  have ht : ∀ {s a b : Str}, Trimmed s a → Trimmed s b → a = b := fun ha hb => by
    rw [← trim_trimmed ha, ← trim_trimmed hb]
  cases h with
  | comma j t h1 h2 h3 =>
    cases h' with
    | comma j' t' h1' h2' h3' => cases hj h2 h2'; cases ht h3 h3'; rfl
    | blank j' t' h1' h4 h5 h2' h3' => rcases h1 with h1 | h1 <;> contradiction
    | «infix» j' ho h2' => exact absurd (comma_calls h1) (ops_not_calls _ ho)
    | plain j' t' hn ho h2' h3' => exact absurd (comma_calls h1) hn
  | blank j t hf h4 h5 h2 h3 =>
    cases h' with
    | comma j' t' h1' h2' h3' => rcases h1' with h1 | h1 <;> contradiction
    | blank j' t' hf' _ _ h2' h3' => cases hj h2 h2'; cases ht h3 h3'; rfl
    | «infix» j' ho h2' => exact absurd hf (ops_not_calls _ ho)
    | plain j' t' hn ho h2' h3' => exact absurd hf hn
  | «infix» j ho h2 =>
    cases h' with
    | comma j' t' h1' h2' h3' => exact absurd (comma_calls h1') (ops_not_calls _ ho)
    | blank j' t' hf' _ _ h2' h3' => exact absurd hf' (ops_not_calls _ ho)
    | «infix» j' ho' h2' => cases hj h2 h2'; rfl
    | plain j' t' hn ho' h2' h3' => exact absurd ho ho'
  | plain j t hn ho h2 h3 =>
    cases h' with
    | comma j' t' h1' h2' h3' => exact absurd (comma_calls h1') hn
    | blank j' t' hf' _ _ h2' h3' => exact absurd hf' hn
    | «infix» j' ho' h2' => exact absurd ho' ho
    | plain j' t' _ _ h2' h3' => cases hj h2 h2'; cases ht h3 h3'; rfl

theorem apply_callText {f : Str} {args : List Str} {t : Str} (h : CallText f args t) : cssApply f args = t :=
  callText_unique (callText_apply f args) h

theorem leafText (dbg : Str → Str) (n : PNode) (a : Node) (hn : n = .symbol a ∨ n = .number a ∨ n = .string a) (t : Str)
    (h : (if a.value.any isUniWs then dbg a.value else a.value) = t) : ValueText dbg n t := by
  subst h
  by_cases hw : a.value.any isUniWs = true
  · rw [if_pos hw]
    obtain ⟨c, hc, hs⟩ := List.any_eq_true.1 hw
    exact .quoted n a hn ⟨c, hc, (space_iff c).1 hs⟩
  · rw [if_neg hw]
    refine .word n a hn fun c hc hs => hw (List.any_eq_true.2 ⟨c, hc, (space_iff c).2 hs⟩)

mutual
theorem cssValue_text (dbg : Str → Str) : ∀ (n : PNode) (t : Str), cssValue dbg n = .ok t → ValueText dbg n t
  | .list [] s e w, t, h => by simp only [cssValue, Res.ok.injEq] at h; subst h; exact .empty s e w
  | .list (m :: ns) s e w, t, h => by
    simp only [cssValue, Res.bind_eq_ok, Res.ok.injEq] at h
    obtain ⟨f, hf, args, ha, rfl⟩ := h
    exact .call _ _ _ _ _ _ _ _ (cssValue_text dbg m f hf) (cssValues_text dbg ns args ha) (callText_apply _ _)
  | .number a, t, h => by
    simp only [cssValue, Res.ok.injEq] at h
    exact leafText dbg _ a (by simp) t h
  | .symbol a, t, h => by
    simp only [cssValue, Res.ok.injEq] at h
    exact leafText dbg _ a (by simp) t h
  | .string a, t, h => by
    simp only [cssValue, Res.ok.injEq] at h
    exact leafText dbg _ a (by simp) t h
  | .raw a, t, h => by simp only [cssValue, Res.ok.injEq] at h; subst h; exact .raw a
  | .attr _ _ _ _, t, h => by simp [cssValue] at h
theorem cssValues_text (dbg : Str → Str) : ∀ (ns : List PNode) (ts : List Str), cssValues dbg ns = .ok ts → ValueTexts dbg ns ts
  | [], ts, h => by simp only [cssValues, Res.ok.injEq] at h; subst h; exact .nil
  | n :: ns, ts, h => by
    simp only [cssValues, Res.bind_eq_ok, Res.ok.injEq] at h
    obtain ⟨f, hf, args, ha, rfl⟩ := h
    exact .cons _ _ _ _ (cssValue_text dbg n f hf) (cssValues_text dbg ns args ha)
end

mutual
theorem text_cssValue (dbg : Str → Str) : ∀ {n : PNode} {t : Str}, ValueText dbg n t → cssValue dbg n = .ok t
  | _, _, .word n a hn hw => by
    have : a.value.any isUniWs = false := by
      rw [List.any_eq_false]
      intro c hc
      rw [space_iff]
      exact hw c hc
    rcases hn with rfl | rfl | rfl <;> simp [cssValue, this]
  | _, _, .quoted n a hn hw => by
    have : a.value.any isUniWs = true := by
      obtain ⟨c, hc, hs⟩ := hw
      exact List.any_eq_true.2 ⟨c, hc, (space_iff c).2 hs⟩
    rcases hn with rfl | rfl | rfl <;> simp [cssValue, this]
  | _, _, .raw a => by simp [cssValue]
  | _, _, .empty s e w => by simp [cssValue]
  | _, _, .call m ns s e w f args t hf ha hc => by
    rw [cssValue, text_cssValue dbg hf, text_cssValues dbg ha, Res.ok_bind, Res.ok_bind, apply_callText hc]
theorem text_cssValues (dbg : Str → Str) : ∀ {ns : List PNode} {ts : List Str}, ValueTexts dbg ns ts → cssValues dbg ns = .ok ts
  | _, _, .nil => rfl
  | _, _, .cons n ns t ts h hs => by
    rw [cssValues, text_cssValue dbg h, text_cssValues dbg hs]
    rfl
end

theorem cssOneline_text (dbg : Str → Str) : ∀ (ns : List PNode) (t : Str), cssOneline dbg ns = .ok t →
    ∃ ts, Pairs (ArgText dbg) ns ts ∧ t = ts.flatten
  | [], t, h => by simp only [cssOneline, Res.ok.injEq] at h; subst h; exact ⟨[], .nil, rfl⟩
  | n :: ns, t, h => by
    cases n with
    | attr k m s w =>
      simp only [cssOneline, Res.bind_eq_ok, Res.ok.injEq] at h
      obtain ⟨v, hv, r, hr, rfl⟩ := h
      obtain ⟨ts, hts, rfl⟩ := cssOneline_text dbg ns r hr
      exact ⟨_, .cons (.attr k m s w v (cssValue_text dbg _ _ hv)) hts, by simp⟩
    | _ =>
      simp only [cssOneline, Res.bind_eq_ok, Res.ok.injEq] at h
      obtain ⟨v, hv, r, hr, rfl⟩ := h
      obtain ⟨ts, hts, rfl⟩ := cssOneline_text dbg ns r hr
      exact ⟨_, .cons (.value _ v (by intros; simp) (cssValue_text dbg _ _ hv)) hts, by simp⟩

theorem text_cssOneline (dbg : Str → Str) : ∀ {ns : List PNode} {ts : List Str}, Pairs (ArgText dbg) ns ts →
    cssOneline dbg ns = .ok ts.flatten
  | _, _, .nil => rfl
  | _, _, .cons h hs => by
    have ih := text_cssOneline dbg hs
    cases h with
    | attr k m s w v hv =>
      rw [cssOneline, text_cssValue dbg hv, ih]
      simp
    | value _ v hn hv =>
      rename_i n _ _
      cases n with
      | attr k m s w => exact absurd rfl (hn _ _ _ _)
      | _ => simp [cssOneline, text_cssValue dbg hv, ih]

theorem cssProps_text (dbg : Str → Str) : ∀ (ns : List PNode) (t : Str), cssProps dbg ns = .ok t →
    ∃ ts, Pairs (PropText dbg) ns ts ∧ t = ts.flatten
  | [], t, h => by simp only [cssProps, Res.ok.injEq] at h; subst h; exact ⟨[], .nil, rfl⟩
  | n :: ns, t, h => by
    cases n with
    | attr k m s w =>
      simp only [cssProps, Res.bind_eq_ok, Res.ok.injEq] at h
      obtain ⟨v, hv, r, hr, rfl⟩ := h
      obtain ⟨ts, hts, rfl⟩ := cssProps_text dbg ns r hr
      exact ⟨_, .cons (.mk k m s w v (cssValue_text dbg _ _ hv)) hts, by simp⟩
    | _ => simp [cssProps] at h

theorem text_cssProps (dbg : Str → Str) : ∀ {ns : List PNode} {ts : List Str}, Pairs (PropText dbg) ns ts →
    cssProps dbg ns = .ok ts.flatten
  | _, _, .nil => rfl
  | _, _, .cons h hs => by
    have ih := text_cssProps dbg hs
    cases h with
    | mk k m s w v hv =>
      rw [cssProps, text_cssValue dbg hv, ih]
      simp

theorem selText_text : ∀ (ns : List PNode), (∀ n ∈ ns, n.isAtomic = true) →
    ∃ ss, Pairs SelText ns ss ∧ cssSelectorText ns = ss.flatten
  | [], _ => ⟨[], .nil, rfl⟩
  | n :: ns, h => by
    obtain ⟨ss, hs, ht⟩ := selText_text ns fun m hm => h m (by simp [hm])
    have hn := h n (by simp)
    unfold PNode.isAtomic at hn
    obtain ⟨a, ha⟩ := Option.isSome_iff_exists.1 hn
    exact ⟨_, .cons (.mk n a (isAtom_iff.1 ha)) hs, by rw [cssSelectorText, ha, ht]; simp⟩

theorem text_selText : ∀ {ns : List PNode} {ss : List Str}, Pairs SelText ns ss →
    cssSelectorText ns = ss.flatten ∧ ∀ n ∈ ns, n.isAtomic = true
  | _, _, .nil => ⟨rfl, by simp⟩
  | _, _, .cons (.mk n a ha) hs => by
    obtain ⟨h1, h2⟩ := text_selText hs
    refine ⟨by rw [cssSelectorText, isAtom_iff.2 ha, h1]; simp, ?_⟩
    intro m hm
    rcases List.mem_cons.1 hm with rfl | hm
    · simp [PNode.isAtomic, isAtom_iff.2 ha]
    · exact h2 m hm

theorem properties_split (ns : List PNode) (h : cssSelectors ns ≠ ns) : ns = cssSelectors ns ++ cssProperties ns ∧
    cssProperties ns ≠ [] := by
  have hk : (cssSelectors ns).length < ns.length := by
    unfold cssSelectors at h ⊢
    have h1 : ns.takeWhile PNode.isAtomic ++ ns.dropWhile PNode.isAtomic = ns := List.takeWhile_append_dropWhile
    have h2 := congrArg List.length h1
    rw [List.length_append] at h2
    cases hd : ns.dropWhile PNode.isAtomic with
    | nil => rw [hd, List.append_nil] at h1; exact absurd h1 h
    | cons a l => rw [hd] at h2; simp at h2; omega
  have hp : cssProperties ns = ns.drop (cssSelectors ns).length := by
    unfold cssProperties
    dsimp only
    rw [if_pos hk, Nat.add_sub_cancel]
  rw [hp]
  constructor
  · have h1 : cssSelectors ns = ns.take (cssSelectors ns).length := by
      have h1 : cssSelectors ns ++ ns.dropWhile PNode.isAtomic = ns := List.takeWhile_append_dropWhile
      conv => rhs; arg 2; rw [← h1]
      rw [List.take_left]
    conv => lhs; rw [← List.take_append_drop (cssSelectors ns).length ns]
    rw [← h1]
  · intro h0
    rw [List.drop_eq_nil_iff] at h0
    omega

theorem text_properties {sels props : List PNode} (hs : ∀ n ∈ sels, n.isAtomic = true) (hp : props ≠ [])
    (ha : ∀ n ∈ props.head?, n.isAtomic = false) :
    cssSelectors (sels ++ props) = sels ∧ cssProperties (sels ++ props) = props := by
  have h1 : cssSelectors (sels ++ props) = sels := by
    unfold cssSelectors
    induction sels with
    | nil =>
      cases props with
      | nil => rfl
      | cons n ns => simp [ha n (by simp)]
    | cons n ns ih =>
      rw [List.cons_append, List.takeWhile_cons, hs n (by simp), if_pos rfl, ih fun m hm => hs m (by simp [hm])]
  refine ⟨h1, ?_⟩
  unfold cssProperties
  dsimp only
  rw [h1, List.length_append, if_pos (by have := List.length_pos_iff.2 hp; omega), Nat.add_sub_cancel,
    List.drop_left]

mutual
theorem cssRule_text (dbg : Str → Str) : ∀ (ns : List PNode) (t : Str), cssRule dbg ns = .ok t → RuleText dbg ns t
  | [], t, h => by simp [cssRule] at h
  | m :: rest, t, h => by
    rw [cssRule] at h
    cases ha : m.atomic? with
    | none => rw [ha] at h; simp at h
    | some a =>
      rw [ha] at h
      simp only [] at h
      have hat := isAtom_iff.1 ha
      by_cases hsp : cssIsSpecial a.value = true
      · rw [if_pos hsp] at h
        by_cases hol : cssOnelineRules.contains a.value = true
        · rw [if_pos hol] at h
          simp only [Res.bind_eq_ok, Res.ok.injEq] at h
          obtain ⟨r, hr, rfl⟩ := h
          obtain ⟨ts, hts, rfl⟩ := cssOneline_text dbg rest r hr
          have := RuleText.line (quote := dbg) m a rest ts hat ((oneline_iff _).1 ⟨hsp, hol⟩) hts
          simpa using this
        · rw [if_neg hol] at h
          simp only [Res.bind_eq_ok, Res.ok.injEq] at h
          obtain ⟨r, hr, rfl⟩ := h
          have hb := (special_iff _).1 ⟨hsp, by simpa using hol⟩
          obtain ⟨args, rules, ts, u, hrest, hna, hts, hu, hr'⟩ := cssNested_text dbg rest r hr
          subst hrest
          by_cases hne : rules = []
          · subst hne
            rw [if_pos rfl] at hr'
            subst hr'
            have := RuleText.bare (quote := dbg) m a args ts hat hb hna hts
            simpa using this
          · rw [if_neg hne] at hr'
            subst hr'
            have := RuleText.block (quote := dbg) m a args rules ts u hat hb hna hts hne hu
            simpa using this
      · rw [if_neg hsp] at h
        simp only [Res.bind_eq_ok, Res.ok.injEq] at h
        obtain ⟨ps, hps, rfl⟩ := h
        rw [special_split, not_or] at hsp
        obtain ⟨pt, hpt, rfl⟩ := cssProps_text dbg _ ps hps
        have hmat : m.isAtomic = true := by simp [PNode.isAtomic, ha]
        have hsel : cssSelectors (m :: rest) = m :: cssSelectors rest := by
          unfold cssSelectors; rw [List.takeWhile_cons, hmat, if_pos rfl]
        by_cases hall : cssSelectors (m :: rest) = m :: rest
        · exfalso
          have hlast : ∃ n l, cssProperties (m :: rest) = n :: l ∧ n ∈ m :: rest := by
            unfold cssProperties
            dsimp only
            rw [hall, if_neg (Nat.lt_irrefl _)]
            cases hd : (m :: rest).drop ((m :: rest).length - 1) with
            | nil => rw [List.drop_eq_nil_iff] at hd; simp only [List.length_cons] at hd; omega
            | cons n l => exact ⟨n, l, rfl, List.mem_of_mem_drop (i := (m :: rest).length - 1) (by rw [hd]; simp)⟩
          obtain ⟨n, l, hl, hn⟩ := hlast
          rw [hl] at hpt
          rw [← hall] at hn
          have hna := mem_takeWhile hn
          cases hpt with
          | cons h _ => cases h with | mk k v s w t _ => simp [PNode.isAtomic, PNode.atomic?] at hna
        · obtain ⟨hsplit, hne⟩ := properties_split _ hall
          obtain ⟨ss, hss, htt⟩ := selText_text (cssSelectors rest) fun n hn => mem_takeWhile hn
          have := RuleText.plain (quote := dbg) m a (cssSelectors rest) (cssProperties (m :: rest)) ss pt hat hsp.1 hsp.2
            hss hne hpt
          rw [← hsel, ← hsplit] at this
          rw [hsel, cssSelectorText, ha, htt]
          simpa using this
theorem cssNested_text (dbg : Str → Str) : ∀ (ns : List PNode) (t : Str), cssNested dbg false ns = .ok t →
    ∃ args rules ts u, ns = args ++ rules ∧ (∀ n ∈ args, ∀ ns s e w, n ≠ .list ns s e w) ∧ Pairs (ArgText dbg) args ts ∧
      SheetText dbg rules u ∧ t = ts.flatten ++ if rules = [] then [] else str! "{\n" ++ u
  | [], t, h => by
    simp only [cssNested, Res.ok.injEq] at h
    subst h
    exact ⟨[], [], [], [], rfl, by simp, .nil, .nil, rfl⟩
  | n :: rest, t, h => by
    cases n with
    | list rule s e w =>
      simp only [cssNested, Res.bind_eq_ok, Res.ok.injEq] at h
      obtain ⟨a, ha, r, hr, rfl⟩ := h
      exact ⟨[], .list rule s e w :: rest, [], w ++ a ++ r, rfl, by simp, .nil,
        .cons _ _ _ _ _ _ _ (cssRule_text dbg rule a ha) (cssRules_text dbg rest r hr), by simp⟩
    | attr k v s w =>
      simp only [cssNested, Bool.false_eq_true, if_false, Res.bind_eq_ok, Res.ok.injEq] at h
      obtain ⟨v', hv, r, hr, rfl⟩ := h
      obtain ⟨args, rules, ts, u, rfl, hna, hts, hu, rfl⟩ := cssNested_text dbg rest r hr
      refine ⟨.attr k v s w :: args, rules, _ :: ts, u, rfl, ?_, .cons (.attr k v s w v' (cssValue_text dbg _ _ hv)) hts, hu, by simp⟩
      intro m hm
      rcases List.mem_cons.1 hm with rfl | hm
      · intros; simp
      · exact hna m hm
    | _ =>
      simp only [cssNested, Bool.false_eq_true, if_false, Res.bind_eq_ok, Res.ok.injEq] at h
      obtain ⟨v', hv, r, hr, rfl⟩ := h
      obtain ⟨args, rules, ts, u, rfl, hna, hts, hu, rfl⟩ := cssNested_text dbg rest r hr
      refine ⟨_ :: args, rules, _ :: ts, u, rfl, ?_, .cons (.value _ v' (by intros; simp) (cssValue_text dbg _ _ hv)) hts, hu, by simp⟩
      intro m hm
      rcases List.mem_cons.1 hm with rfl | hm
      · intros; simp
      · exact hna m hm
theorem cssRules_text (dbg : Str → Str) : ∀ (ns : List PNode) (t : Str), cssNested dbg true ns = .ok t → SheetText dbg ns t
  | [], t, h => by simp only [cssNested, Res.ok.injEq] at h; subst h; exact .nil
  | n :: rest, t, h => by
    cases n with
    | list rule s e w =>
      simp only [cssNested, Res.bind_eq_ok, Res.ok.injEq] at h
      obtain ⟨a, ha, r, hr, rfl⟩ := h
      have := SheetText.cons _ s e w rest _ _ (cssRule_text dbg rule a ha) (cssRules_text dbg rest r hr)
      simpa using this
    | _ => simp [cssNested] at h
end

theorem cssGenerate_text (dbg : Str → Str) : ∀ (ns : List PNode) (t : Str), cssGenerate dbg ns = .ok t → SheetText dbg ns t
  | [], t, h => by simp only [cssGenerate, Res.ok.injEq] at h; subst h; exact .nil
  | n :: rest, t, h => by
    cases n with
    | list rule s e w =>
      simp only [cssGenerate, Res.bind_eq_ok, Res.ok.injEq] at h
      obtain ⟨a, ha, r, hr, rfl⟩ := h
      exact .cons _ s e w rest _ _ (cssRule_text dbg rule a ha) (cssGenerate_text dbg rest r hr)
    | _ => simp [cssGenerate] at h

theorem text_cssNested_args (dbg : Str → Str) {rules : List PNode} {r : Str} (hr : cssNested dbg false rules = .ok r) :
    ∀ {args : List PNode} {ts : List Str}, (∀ n ∈ args, ∀ ns s e w, n ≠ .list ns s e w) → Pairs (ArgText dbg) args ts →
    cssNested dbg false (args ++ rules) = .ok (ts.flatten ++ r)
  | _, _, _, .nil => by simpa using hr
  | _, _, hna, .cons h hs => by
    have ih := text_cssNested_args dbg hr (fun n hn => hna n (by simp [hn])) hs
    cases h with
    | attr k m s w v hv => simp [cssNested, text_cssValue dbg hv, ih]
    | value _ v hn hv =>
      rename_i n _ _
      cases n with
      | attr k m s w => exact absurd rfl (hn _ _ _ _)
      | list ns s e w => exact absurd rfl (hna (.list ns s e w) (by simp) ns s e w)
      | _ => simp [cssNested, text_cssValue dbg hv, ih]

mutual
theorem text_cssRule (dbg : Str → Str) : ∀ {ns : List PNode} {t : Str}, RuleText dbg ns t → cssRule dbg ns = .ok t
  | _, _, .plain m a sels props ss ps hat hnb hnl hss hne hps => by
    have hsp : cssIsSpecial a.value = false := by
      rw [Bool.eq_false_iff, Ne, special_split, not_or]; exact ⟨hnb, hnl⟩
    obtain ⟨h1, h2⟩ := text_selText (.cons (.mk m a hat) hss)
    have h3 := text_properties h2 hne (by
      intro n hn
      cases hps with
      | nil => exact absurd rfl hne
      | cons h _ => cases h with | mk => simp at hn; subst hn; rfl)
    rw [List.cons_append, cssRule, isAtom_iff.2 hat]
    simp only [hsp, Bool.false_eq_true, if_false]
    rw [← List.cons_append, h3.1, h3.2, text_cssProps dbg hps, h1]
    simp
  | _, _, .line m a args ts hat hl hts => by
    obtain ⟨hsp, hol⟩ := (oneline_iff _).2 hl
    rw [cssRule, isAtom_iff.2 hat]
    simp only [hsp, hol, if_true]
    rw [text_cssOneline dbg hts]
    simp
  | _, _, .block m a args rules ts t hat hb hna hts hne hu => by
    obtain ⟨hsp, hol⟩ := (special_iff _).2 hb
    have hn := text_cssRules dbg hu hne
    rw [List.cons_append, cssRule, isAtom_iff.2 hat]
    simp only [hsp, hol, Bool.false_eq_true, if_true, if_false]
    rw [text_cssNested_args dbg hn hna hts]
    simp
  | _, _, .bare m a args ts hat hb hna hts => by
    obtain ⟨hsp, hol⟩ := (special_iff _).2 hb
    have := text_cssNested_args dbg (rules := []) (r := []) (by simp [cssNested]) hna hts
    rw [List.append_nil] at this
    rw [cssRule, isAtom_iff.2 hat]
    simp only [hsp, hol, Bool.false_eq_true, if_true, if_false]
    rw [this]
    simp
theorem text_cssRules (dbg : Str → Str) : ∀ {ns : List PNode} {t : Str}, SheetText dbg ns t → ns ≠ [] →
    cssNested dbg false ns = .ok (str! "{\n" ++ t)
  | _, _, .nil, h => absurd rfl h
  | _, _, .cons ns s e w rest t u hr hs, _ => by
    have h1 := text_cssRule dbg hr
    have h2 := text_cssMore dbg hs
    simp [cssNested, h1, h2]
theorem text_cssMore (dbg : Str → Str) : ∀ {ns : List PNode} {t : Str}, SheetText dbg ns t →
    cssNested dbg true ns = .ok t
  | _, _, .nil => by simp [cssNested]
  | _, _, .cons ns s e w rest t u hr hs => by
    have h1 := text_cssRule dbg hr
    have h2 := text_cssMore dbg hs
    simp [cssNested, h1, h2]
end

theorem text_cssGenerate (dbg : Str → Str) : ∀ {ns : List PNode} {t : Str}, SheetText dbg ns t →
    cssGenerate dbg ns = .ok t
  | _, _, .nil => rfl
  | _, _, .cons ns s e w rest t u hr hs => by
    rw [cssGenerate, text_cssRule dbg hr, text_cssGenerate dbg hs]
    rfl

theorem cssGenerate_iff (dbg : Str → Str) (ns : List PNode) (t : Str) : cssGenerate dbg ns = .ok t ↔ SheetText dbg ns t :=
  ⟨cssGenerate_text dbg ns t, text_cssGenerate dbg⟩

end Seam
