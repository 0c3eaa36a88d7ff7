import Verif.Lemmas.Css
import Verif.Lemmas.Braces
import Verif.Lemmas.Check

/-!
# Properties of CSS output (C29–C31)

`cssGenerate dbg tree` is `CSSFormatter::generate`, `cssDocument` is `document`;
`dbg` is Rust's `{:?}` on strings.
-/

namespace Seam
open Spec

/-! ## C29 -/

theorem cssProps_list (dbg : Str → Str) : ∀ (ps : List (Str × PNode × Site × Str)) (vs : List Str),
    Pairs (fun p v => cssValue dbg p.2.1 = .ok v) ps vs →
    cssProps dbg (ps.map fun p => .attr p.1 p.2.1 p.2.2.1 p.2.2.2) =
      .ok ((List.zip ps vs).flatMap fun q => str! "  " ++ q.1.1 ++ str! ": " ++ q.2 ++ str! ";\n")
  | [], _, .nil => rfl
  | (k, n, s, w) :: ps, _, .cons (b := v) (bs := vs) h hs => by
    have ih := cssProps_list dbg ps vs hs
    rw [List.map_cons, cssProps]
    simp only [] at h
    rw [h, ih]
    simp

theorem selectorText_list : ∀ (sels : List PNode) (as : List Node), Pairs IsAtom sels as →
    cssSelectorText sels = as.flatMap fun a => a.value ++ [' ']
  | [], _, .nil => rfl
  | n :: ns, _, .cons (b := a) (bs := as) h hs => by
    rw [cssSelectorText, isAtom_iff.2 h, selectorText_list ns as hs]
    simp

theorem takeWhile_atoms : ∀ (sels : List PNode) (as : List Node) (rest : List PNode), Pairs IsAtom sels as →
    (∀ n ∈ rest.head?, n.isAtomic = false) → (sels ++ rest).takeWhile PNode.isAtomic = sels
  | [], _, rest, .nil, h => by
    cases rest with
    | nil => rfl
    | cons n rest => simp [h n (by simp)]
  | n :: ns, _, rest, .cons (b := a) (bs := as) h hs, hr => by
    have : n.isAtomic = true := by simp [PNode.isAtomic, isAtom_iff.2 h]
    rw [List.cons_append, List.takeWhile_cons, this, if_pos rfl, takeWhile_atoms ns as rest hs hr]

/-- C29: a rule of selectors and then properties is printed as the selectors, an
opening brace, one line per property in order, and a closing brace.  (The first
selector is not one of the `@` rules that are printed differently; the values `vs`
are the texts of the property values, see `C29_word_value` and
`C29_call_value`.) -/
theorem C29_rule_shape (dbg : Str → Str) (sels : List PNode) (as : List Node) (ps : List (Str × PNode × Site × Str))
    (vs : List Str) (s : Site) (e : Token) (w : Str) (hsel : Pairs IsAtom sels as)
    (hne : as ≠ []) (hps : ps ≠ [])
    (hhead : ∀ a ∈ as.head?, a.value ∉ blockRules ∧ a.value ∉ lineRules)
    (hvs : Pairs (fun p v => cssValue dbg p.2.1 = .ok v) ps vs) :
    cssGenerate dbg [.list (sels ++ ps.map fun p => .attr p.1 p.2.1 p.2.2.1 p.2.2.2) s e w] =
      .ok (w ++ (as.flatMap fun a => a.value ++ [' ']) ++ str! "{\n" ++
        ((List.zip ps vs).flatMap fun q => str! "  " ++ q.1.1 ++ str! ": " ++ q.2 ++ str! ";\n") ++ ['}']) := by
  obtain ⟨p, ps', rfl⟩ : ∃ p ps', ps = p :: ps' := by
    cases ps with
    | nil => exact absurd rfl hps
    | cons p ps' => exact ⟨p, ps', rfl⟩
  have htw := takeWhile_atoms sels as ((p :: ps').map fun p => .attr p.1 p.2.1 p.2.2.1 p.2.2.2) hsel
    (by intro n hn; simp at hn; subst hn; rfl)
  have hprops : cssProperties (sels ++ (p :: ps').map fun p => .attr p.1 p.2.1 p.2.2.1 p.2.2.2) =
      (p :: ps').map fun p => PNode.attr p.1 p.2.1 p.2.2.1 p.2.2.2 := by
    unfold cssProperties cssSelectors
    rw [htw]
    simp
  cases hsel with
  | nil => exact absurd rfl hne
  | @cons m a ms as h hs =>
    have hh := hhead a (by simp)
    have hsp : cssIsSpecial a.value = false := by
      rw [Bool.eq_false_iff, Ne, special_split]
      rintro (h | h)
      · exact hh.1 h
      · exact hh.2 h
    rw [cssGenerate, List.cons_append, cssRule, isAtom_iff.2 h]
    simp only [hsp, Bool.false_eq_true, if_false]
    rw [← List.cons_append, hprops, cssProps_list dbg _ vs hvs]
    have : cssSelectors ((m :: ms) ++ (p :: ps').map fun p => .attr p.1 p.2.1 p.2.2.1 p.2.2.2) = m :: ms := htw
    rw [this, selectorText_list _ (a :: as) (.cons h hs)]
    simp [cssGenerate]

/-- C29: a rule without properties is an error, not an empty block. -/
theorem C29_no_properties (dbg : Str → Str) (sels : List PNode) (as : List Node) (s : Site) (e : Token) (w : Str)
    (hsel : Pairs IsAtom sels as) (hne : as ≠ [])
    (hhead : ∀ a ∈ as.head?, a.value ∉ blockRules ∧ a.value ∉ lineRules) :
    ∃ x, cssGenerate dbg [.list sels s e w] = .err x := by
  have htw := takeWhile_atoms sels as [] hsel (by simp)
  rw [List.append_nil] at htw
  have hatoms : ∀ n ∈ sels, ∃ a, IsAtom n a := by
    clear htw hhead hne
    induction hsel with
    | nil => simp
    | @cons m a ms as h _ ih =>
      intro n hn
      rcases List.mem_cons.1 hn with rfl | hn
      · exact ⟨a, h⟩
      · exact ih n hn
  have hlast : ∃ n rest a, cssProperties sels = n :: rest ∧ IsAtom n a := by
    unfold cssProperties cssSelectors
    rw [htw]
    simp only [Nat.lt_irrefl, if_false]
    cases hd : sels.drop (sels.length - 1) with
    | nil =>
      rw [List.drop_eq_nil_iff] at hd
      cases hsel with
      | nil => exact absurd rfl hne
      | cons => simp only [List.length_cons] at hd; omega
    | cons n rest =>
      obtain ⟨a, ha⟩ := hatoms n (List.mem_of_mem_drop (i := sels.length - 1) (by rw [hd]; simp))
      exact ⟨n, rest, a, rfl, ha⟩
  obtain ⟨n, rest, b, hp, hb⟩ := hlast
  cases hsel with
  | nil => exact absurd rfl hne
  | @cons m a ms as h hs =>
    have hh := hhead a (by simp)
    have hsp : cssIsSpecial a.value = false := by
      rw [Bool.eq_false_iff, Ne, special_split]
      rintro (h | h)
      · exact hh.1 h
      · exact hh.2 h
    refine ⟨genErr "CSS property-value pairs must be in the form of attributes." n.site, ?_⟩
    rw [cssGenerate, cssRule, isAtom_iff.2 h]
    simp only [hsp, Bool.false_eq_true, if_false]
    rw [hp]
    rcases hb with rfl | rfl | rfl | rfl <;> rfl

/-- C29: a value without whitespace is printed as it is. -/
theorem C29_word_value (dbg : Str → Str) (n : PNode) (a : Node) (h : IsAtom n a)
    (hw : ∀ c ∈ a.value, isUniWs c = false) : cssValue dbg n = .ok a.value := by
  have : a.value.any isUniWs = false := by
    rw [List.any_eq_false]
    intro c hc
    simp [hw c hc]
  rcases h with rfl | rfl | rfl | rfl <;> simp [cssValue, this]

theorem cssValues_words (dbg : Str → Str) : ∀ (ns : List PNode) (as : List Node), Pairs IsAtom ns as →
    (∀ a ∈ as, ∀ c ∈ a.value, isUniWs c = false) → cssValues dbg ns = .ok (as.map Node.value)
  | [], _, .nil, _ => rfl
  | n :: ns, _, .cons (b := a) (bs := as) h hs, hw => by
    rw [cssValues, C29_word_value dbg n a h (hw a (by simp)),
      cssValues_words dbg ns as hs (fun b hb => hw b (by simp [hb]))]
    rfl

theorem dropWhile_none {s : Str} (h : ∀ c ∈ s.head?, isUniWs c = false) : s.dropWhile isUniWs = s := by
  cases s with
  | nil => rfl
  | cons c s => rw [List.dropWhile_cons, h c (by simp)]; rfl

theorem trim_words {sep : Str} : ∀ {l : List Str}, l ≠ [] → (∀ s ∈ l, s ≠ [] ∧ ∀ c ∈ s, isUniWs c = false) →
    trim (joinStr sep l) = joinStr sep l := by
  intro l hl h
  have hfirst : ∀ c ∈ (joinStr sep l).head?, isUniWs c = false := by
    cases l with
    | nil => exact absurd rfl hl
    | cons s l =>
      obtain ⟨h0, h1⟩ := h s (by simp)
      cases s with
      | nil => exact absurd rfl h0
      | cons d s =>
        intro c hc
        have : (joinStr sep ((d :: s) :: l)).head? = some d := by cases l <;> rfl
        rw [this] at hc
        simp at hc
        subst hc
        exact h1 d (by simp)
  have hlast : ∀ {l : List Str}, l ≠ [] → (∀ s ∈ l, s ≠ [] ∧ ∀ c ∈ s, isUniWs c = false) →
      ∀ c ∈ (joinStr sep l).reverse.head?, isUniWs c = false := by
    intro l hl
    induction l with
    | nil => exact absurd rfl hl
    | cons s l ih =>
      intro h
      cases l with
      | nil =>
        intro c hc
        refine (h s (by simp)).2 c ?_
        have := List.mem_of_mem_head? hc
        simpa [joinStr] using this
      | cons t l =>
        have ih := ih (by simp) (fun x hx => h x (by simp [hx]))
        intro c hc
        refine ih c ?_
        rw [joinStr, List.reverse_append, List.reverse_append] at hc
        have hne : (joinStr sep (t :: l)).reverse ≠ [] := by
          obtain ⟨h0, _⟩ := h t (by simp)
          cases t with
          | nil => exact absurd rfl h0
          | cons d t => cases l <;> simp [joinStr]
        cases hr : (joinStr sep (t :: l)).reverse with
        | nil => exact absurd hr hne
        | cons d r => rw [hr] at hc; simpa using hc
  unfold trim trimStart trimEnd
  rw [dropWhile_none hfirst, dropWhile_none (hlast hl h), List.reverse_reverse]

/-- C29: a call of a known function of words is printed as `name(args)`, the
arguments separated by blanks (`rgba` and `hsla`: by commas). -/
theorem C29_call_value (dbg : Str → Str) (h : PNode) (f : Node) (ns : List PNode) (as : List Node) (s : Site)
    (e : Token) (w : Str) (hh : IsAtom h f) (hf : f.value ∈ cssFunctions) (hns : Pairs IsAtom ns as) (hne : as ≠ [])
    (hw : ∀ a ∈ f :: as, a.value ≠ [] ∧ ∀ c ∈ a.value, isUniWs c = false) :
    cssValue dbg (.list (h :: ns) s e w) = .ok (f.value ++ '(' ::
      joinStr (if f.value = str! "rgba" ∨ f.value = str! "hsla" then str! ", " else str! " ") (as.map Node.value)
      ++ [')']) := by
  rw [cssValue, C29_word_value dbg h f hh (hw f (by simp)).2, cssValues_words dbg ns as hns (fun a ha => (hw a (by simp [ha])).2)]
  simp only [Res.ok_bind, Res.ok.injEq]
  unfold cssApply
  simp only []
  rw [if_pos (by simpa using hf), trim_words]
  · by_cases hc : f.value = str! "rgba" ∨ f.value = str! "hsla"
    · rw [if_pos hc, if_pos (by simpa [cssCommaDelim] using hc)]
    · rw [if_neg hc, if_neg (by simpa [cssCommaDelim] using hc)]
  · cases as with
    | nil => exact absurd rfl hne
    | cons => simp
  · intro t ht
    obtain ⟨a, ha, rfl⟩ := List.mem_map.1 ht
    exact hw a (by simp [ha])

/-- `(p em :color red :margin 0)`. -/
example : cssGenerate id [.list [.symbol ⟨str! "p", default, []⟩, .symbol ⟨str! "em", default, [' ']⟩,
      .attr (str! "color") (.symbol ⟨str! "red", default, [' ']⟩) default [' '],
      .attr (str! "margin") (.number ⟨['0'], default, [' ']⟩) default [' ']] default default []] =
    .ok (str! "p em {\n  color: red;\n  margin: 0;\n}") :=
  C29_rule_shape id [.symbol ⟨str! "p", default, []⟩, .symbol ⟨str! "em", default, [' ']⟩]
    [⟨str! "p", default, []⟩, ⟨str! "em", default, [' ']⟩]
    [(str! "color", .symbol ⟨str! "red", default, [' ']⟩, default, [' ']),
     (str! "margin", .number ⟨['0'], default, [' ']⟩, default, [' '])] [str! "red", ['0']] default default []
    (.cons (Or.inl rfl) (.cons (Or.inl rfl) .nil)) (by simp) (by simp) (by simp; decide)
    (.cons (C29_word_value _ _ _ (Or.inl rfl) (by decide)) (.cons (C29_word_value _ _ _ (Or.inr (Or.inl rfl)) (by decide)) .nil))

/-- `(rgba 1 2)`. -/
example : cssValue id (.list [.symbol ⟨str! "rgba", default, []⟩, .number ⟨['1'], default, []⟩,
    .number ⟨['2'], default, []⟩] default default []) = .ok (str! "rgba(1, 2)") :=
  C29_call_value id _ ⟨str! "rgba", default, []⟩ [.number ⟨['1'], default, []⟩, .number ⟨['2'], default, []⟩]
    [⟨['1'], default, []⟩, ⟨['2'], default, []⟩] _ _ _ (Or.inl rfl) (by decide)
    (.cons (Or.inr (Or.inl rfl)) (.cons (Or.inr (Or.inl rfl)) .nil)) (by simp) (by decide)

/-- `(p em)`. -/
example : ∃ x, cssGenerate id [.list [.symbol ⟨str! "p", default, []⟩, .symbol ⟨str! "em", default, [' ']⟩] default default []] =
    .err x :=
  C29_no_properties id _ [⟨str! "p", default, []⟩, ⟨str! "em", default, [' ']⟩] _ _ _
    (.cons (Or.inl rfl) (.cons (Or.inl rfl) .nil)) (by simp) (by simp; decide)

/-! ## C30 -/

/-- C30 is false: `(@media screen)` is printed as `@media screen }`. -/
theorem C30_balanced_false : ∃ (b : Buf) (ns : List PNode) (out : Str), parse some b = .ok ns ∧ NoBrace b.code ∧
    cssGenerate id ns = .ok out ∧ ¬ Balanced out := by
  obtain ⟨ns, h1, h2⟩ := Res.okP_elim (r := parse some { path := [], id := 1, code := str! "(@media screen)" })
    (p := fun ns => (cssGenerate id ns).okP fun out => decide (out = str! "@media screen }")) (by decide +kernel)
  obtain ⟨out, h3, h4⟩ := Res.okP_elim h2
  refine ⟨_, ns, out, h1, by unfold NoBrace; decide, h3, ?_⟩
  simp only [decide_eq_true_eq] at h4
  subst h4
  unfold Balanced
  decide

/-- C30 as far as it holds: braces are balanced if no text in the tree has a brace
and every rule with nested rules has at least one (`SheetOk true`).  The
assumption on `dbg` holds of Rust's `{:?}`, which only adds `\u{..}`.  Missing: `@media`
and the like without a nested rule. -/
theorem C30_balanced_partial (dbg : Str → Str) (hd : ∀ s, NoBrace s → Balanced (dbg s)) (tree : List PNode) (out : Str)
    (hs : SheetOk true tree) (ht : ∀ t ∈ textss tree, NoBrace t) (h : cssDocument dbg tree = .ok out) : Balanced out := by
  unfold cssDocument at h
  split at h
  · cases h; unfold Balanced; decide
  · refine neutral_iff.1 (cssGenerate_neutral hd (fun ks s e w hm => ?_) ht h)
    obtain ⟨ns, s', e', w', heq, hr⟩ := hs _ hm
    cases heq
    exact hr

/-- C30, exactly: the braces of a style sheet without braces in its texts are balanced if and
only if every rule with nested rules has at least one.  A sheet never opens more braces than it
closes. -/
theorem C30_balanced_exactly (dbg : Str → Str) (hd : ∀ s, NoBrace s → Balanced (dbg s)) (tree : List PNode) (out : Str)
    (ht : ∀ t ∈ textss tree, NoBrace t) (h : cssDocument dbg tree = .ok out) :
    (Balanced out ↔ SheetOk true tree) ∧ out.count '{' ≤ out.count '}' := by
  have hx : out.count '{' ≤ out.count '}' ∧ (out.count '{' = out.count '}' → SheetOk true tree) := by
    unfold cssDocument at h
    split at h
    · rename_i he
      rw [List.isEmpty_iff] at he
      subst he
      cases h
      exact ⟨by decide, fun _ n hn => by simp at hn⟩
    · exact sheet_excess hd (cssGenerate_text dbg _ _ h) ht
  refine ⟨⟨fun hb => ?_, fun hs => C30_balanced_partial dbg hd tree out hs ht h⟩, hx.1⟩
  exact hx.2 (neutral_count (neutral_iff.2 hb))

/-- `(@media screen (p :color red))`. -/
def mediaTree : List PNode :=
  [.list [.symbol ⟨str! "@media", default, []⟩, .symbol ⟨str! "screen", default, [' ']⟩,
    .list [.symbol ⟨['p'], default, []⟩, .attr (str! "color") (.symbol ⟨str! "red", default, [' ']⟩) default [' ']]
      default default [' ']] default default []]

theorem mediaTree_ok (body : Bool) : SheetOk body mediaTree := by
  intro n hn
  simp [mediaTree] at hn
  refine ⟨_, _, _, _, hn, .mk _ _ _ (Or.inl rfl) (fun _ _ => ⟨_, _, _, _, List.mem_cons_of_mem _ List.mem_cons_self⟩) (fun _ => ?_)⟩
  intro ns s e w hm
  simp at hm
  obtain ⟨rfl, _⟩ := hm
  exact .mk _ _ _ (Or.inl rfl) (fun h => absurd h (by decide)) (fun h => absurd h (by decide))

example : ∃ out, SheetOk true mediaTree ∧ (∀ t ∈ textss mediaTree, NoBrace t) ∧ cssDocument id mediaTree = .ok out ∧
    out = str! "@media screen {\n p {\n  color: red;\n}}" :=
  ⟨_, mediaTree_ok true, by simp only [NoBrace]; decide, by decide +kernel, rfl⟩

/-- The theorems at `mediaTree`; and at `(@media screen)`, which has one brace too many. -/
example : Balanced (str! "@media screen {\n p {\n  color: red;\n}}") :=
  C30_balanced_partial (fun _ => []) (fun _ _ => rfl) mediaTree _ (mediaTree_ok true) (by simp only [NoBrace]; decide)
    (by decide +kernel)
example : ¬ SheetOk true [.list [.symbol ⟨str! "@media", default, []⟩, .symbol ⟨str! "screen", default, [' ']⟩] default default []] := by
  intro h
  have h := (C30_balanced_exactly (fun _ => []) (fun _ _ => rfl) _ (str! "@media screen }") (by simp only [NoBrace]; decide)
    (by decide +kernel)).1.2 h
  exact absurd h (by simp only [Balanced]; decide)

/-! ## C31 -/

/-- C31 is false: CSS generation panics on `()` and on `((a) :b c)`. -/
theorem C31_never_panics_false :
    (∃ b ns, parse some b = .ok ns ∧ b.code = str! "()" ∧ cssGenerate id ns = .panic) ∧
    (∃ b ns, parse some b = .ok ns ∧ b.code = str! "((a) :b c)" ∧ cssGenerate id ns = .panic) := by
  constructor
  · obtain ⟨ns, h1, h2⟩ := Res.okP_elim (r := parse some { path := [], id := 1, code := str! "()" })
      (p := fun ns => (cssGenerate id ns).isPanic) (by decide +kernel)
    exact ⟨_, ns, h1, rfl, Res.isPanic_elim h2⟩
  · obtain ⟨ns, h1, h2⟩ := Res.okP_elim (r := parse some { path := [], id := 1, code := str! "((a) :b c)" })
      (p := fun ns => (cssGenerate id ns).isPanic) (by decide +kernel)
    exact ⟨_, ns, h1, rfl, Res.isPanic_elim h2⟩

/-- C31 as far as it holds: generation returns text or an error if every list in
the place of a rule starts with an atom.  Missing: lists that are empty or start
with a list or attribute. -/
theorem C31_never_panics_partial (dbg : Str → Str) (tree : List PNode)
    (hs : ∀ ns s e w, PNode.list ns s e w ∈ tree → RuleOk false ns) :
    (∃ out, cssDocument dbg tree = .ok out) ∨ ∃ x, cssDocument dbg tree = .err x := by
  unfold cssDocument
  split
  · exact Or.inl ⟨_, rfl⟩
  · have := cssGenerate_notFails dbg hs
    cases h : cssGenerate dbg tree with
    | ok out => exact Or.inl ⟨out, rfl⟩
    | err x => exact Or.inr ⟨x, rfl⟩
    | panic => exact absurd (Or.inl h) this
    | diverge => exact absurd (Or.inr h) this

example : ∀ ns s e w, PNode.list ns s e w ∈ mediaTree → RuleOk false ns := by
  intro ns s e w hm
  obtain ⟨ns', s', e', w', heq, hr⟩ := mediaTree_ok false _ hm
  cases heq
  exact hr

example : (∃ out, cssDocument id mediaTree = .ok out) ∨ ∃ x, cssDocument id mediaTree = .err x :=
  C31_never_panics_partial id mediaTree fun ns s e w hm => by
    obtain ⟨_, _, _, _, heq, hr⟩ := mediaTree_ok false _ hm
    cases heq
    exact hr

end Seam
