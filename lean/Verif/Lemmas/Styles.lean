import Verif.Lemmas.Sheet
import Verif.Spec.Styles

/-! # Reading a style sheet -/

namespace Seam
open Spec

/-! ## Scanning -/

theorem scansCss_append : ∀ (a b : Str) (m : CssMode) (ks : List Char),
    scansCss m ks (a ++ b) = (scansCss m ks a).bind fun p => scansCss p.1 p.2 b
  | [], b, m, ks => rfl
  | c :: a, b, m, ks => by
    rw [List.cons_append, scansCss, scansCss]
    rcases scanCss m ks c with _ | ⟨m', ks'⟩
    · rfl
    · exact scansCss_append a b m' ks'

/-- Scanning goes the same way inside of more brackets. -/
theorem scanCss_frame {m m' : CssMode} {ks ks' : List Char} {c : Char} (d : List Char) (h : scanCss m ks c = some (m', ks')) :
    scanCss m (ks ++ d) c = some (m', ks' ++ d) := by
  have key : ∀ m : CssMode, m.soft = true → scanCss m ks c = some (m', ks') → scanCss m (ks ++ d) c = some (m', ks' ++ d) := by
    intro m hm h
    have hs : ∀ ks : List Char, scanCss m ks c =
        if (c = '*' ∧ m = .slash) ∨ c = '\\' then none
        else if c = '"' then some (.quoted false, ks)
        else if c = '\'' then some (.quoted true, ks)
        else if c = '(' then some (.plain, ')' :: ks)
        else if c = '[' then some (.plain, ']' :: ks)
        else if c = '{' then if ks = [] then none else some (.plain, '}' :: ks)
        else if c = ')' ∨ c = ']' ∨ c = '}' then if ks.head? = some c then some (.plain, ks.tail) else none
        else if c = ';' ∧ ks = [] then none
        else some (if c = '/' then .slash else .plain, ks) := by
      intro ks
      cases m <;> first | rfl | cases hm
    rw [hs] at h ⊢
    by_cases h1 : (c = '*' ∧ m = .slash) ∨ c = '\\'
    · rw [if_pos h1] at h; cases h
    rw [if_neg h1] at h ⊢
    by_cases h2 : c = '"'
    · rw [if_pos h2] at h ⊢; cases h; rfl
    rw [if_neg h2] at h ⊢
    by_cases h3 : c = '\''
    · rw [if_pos h3] at h ⊢; cases h; rfl
    rw [if_neg h3] at h ⊢
    by_cases h4 : c = '('
    · rw [if_pos h4] at h ⊢; cases h; rfl
    rw [if_neg h4] at h ⊢
    by_cases h5 : c = '['
    · rw [if_pos h5] at h ⊢; cases h; rfl
    rw [if_neg h5] at h ⊢
    by_cases h6 : c = '{'
    · rw [if_pos h6] at h ⊢
      by_cases hk : ks = []
      · rw [if_pos hk] at h; cases h
      · rw [if_neg hk] at h
        rw [if_neg (by simp [hk])]
        cases h; rfl
    rw [if_neg h6] at h ⊢
    by_cases h7 : c = ')' ∨ c = ']' ∨ c = '}'
    · rw [if_pos h7] at h ⊢
      cases ks with
      | nil => simp at h
      | cons k ks =>
        by_cases hk : (k :: ks).head? = some c
        · rw [if_pos hk] at h
          rw [if_pos (by simpa using hk)]
          cases h; rfl
        · rw [if_neg hk] at h; cases h
    rw [if_neg h7] at h ⊢
    by_cases h8 : c = ';' ∧ ks = []
    · rw [if_pos h8] at h; cases h
    rw [if_neg h8] at h
    have h9 : ¬ (c = ';' ∧ ks ++ d = []) := by
      rintro ⟨ha, hb⟩
      exact h8 ⟨ha, (List.append_eq_nil_iff.1 hb).1⟩
    rw [if_neg h9]
    cases h; rfl
  cases m with
  | plain => exact key _ rfl h
  | slash => exact key _ rfl h
  | escaped q => cases h; rfl
  | quoted q =>
    simp only [scanCss] at h ⊢
    generalize (if q = true then '\'' else '"') = k at h ⊢
    by_cases h1 : c = k
    · rw [if_pos h1] at h ⊢; cases h; rfl
    rw [if_neg h1] at h ⊢
    by_cases h2 : c = '\\'
    · rw [if_pos h2] at h ⊢; cases h; rfl
    rw [if_neg h2] at h ⊢
    by_cases h3 : c = '\n'
    · rw [if_pos h3] at h; cases h
    rw [if_neg h3] at h ⊢
    cases h; rfl

theorem scansCss_frame (d : List Char) : ∀ {s : Str} {m m' : CssMode} {ks ks' : List Char},
    scansCss m ks s = some (m', ks') → scansCss m (ks ++ d) s = some (m', ks' ++ d)
  | [], _, _, _, _, h => by cases h; rfl
  | c :: s, m, m', ks, ks', h => by
    rw [scansCss] at h ⊢
    rcases h1 : scanCss m ks c with _ | ⟨m1, ks1⟩
    · rw [h1] at h; cases h
    · rw [h1] at h
      rw [scanCss_frame d h1]
      exact scansCss_frame d h

/-- The text leads from one place to the other, in any brackets. -/
def Goes (m : CssMode) (s : Str) (m' : CssMode) : Prop := ∀ ks, scansCss m ks s = some (m', ks)

theorem Goes.nil (m : CssMode) : Goes m [] m := fun _ => rfl

theorem Goes.append {a b c : CssMode} {s t : Str} (h : Goes a s b) (h' : Goes b t c) : Goes a (s ++ t) c := fun ks => by
  rw [scansCss_append, h]; exact h' ks

theorem sealed_goes {t : Str} : Sealed t ↔ ∃ m, m.soft = true ∧ Goes .plain t m := by
  constructor
  · rintro ⟨m, h1, h2⟩
    exact ⟨m, h1, fun ks => by simpa using scansCss_frame ks h2⟩
  · rintro ⟨m, h1, h2⟩
    exact ⟨m, h1, h2 []⟩

/-- Blanks, commas and colons. -/
theorem goes_gap {m : CssMode} (hm : m.soft = true) {c : Char} (hc : c ∉ cssMarks) (hs : c ≠ '*') : Goes m [c] .plain := fun ks => by
  simp only [cssMarks, List.mem_cons, List.not_mem_nil, or_false, not_or] at hc
  obtain ⟨h1, h2, h3, h4, h5, h6, h7, h8, h9, h10, h11⟩ := hc
  have : scanCss m ks c = some (.plain, ks) := by
    cases m with
    | plain => simp [scanCss, h1, h2, h3, h4, h5, h6, h7, h8, h9, h10, h11]
    | slash => simp [scanCss, h1, h2, h3, h4, h5, h6, h7, h8, h9, h10, h11, hs]
    | _ => cases hm
  rw [scansCss, this]; rfl

theorem space_marks {c : Char} (h : Space c) : c ∉ cssMarks ∧ c ≠ '*' ∧ c ≠ '@' ∧ c ≠ ':' := by
  have key : ∀ d ∈ '*' :: '@' :: ':' :: cssMarks, ¬ Space d := by unfold Space; decide
  refine ⟨fun hm => key c (by simp [hm]) h, ?_, ?_, ?_⟩ <;> rintro rfl <;> exact key _ (by simp) h

theorem goes_spaces {m : CssMode} (hm : m.soft = true) : ∀ {s : Str}, (∀ c ∈ s, Space c) → ∃ m', m'.soft = true ∧ Goes m s m'
  | [], _ => ⟨m, hm, .nil m⟩
  | c :: s, h => by
    obtain ⟨h1, h2, _⟩ := space_marks (h c (by simp))
    obtain ⟨m', h3, h4⟩ := goes_spaces (m := .plain) rfl (s := s) fun d hd => h d (by simp [hd])
    exact ⟨m', h3, Goes.append (goes_gap hm h1 h2) h4⟩

theorem goes_spaces_plain {s : Str} (h : ∀ c ∈ s, Space c) : Goes .plain s .plain := by
  induction s with
  | nil => exact .nil _
  | cons c s ih =>
    obtain ⟨h1, h2, _⟩ := space_marks (h c (by simp))
    exact Goes.append (goes_gap rfl h1 h2) (ih fun d hd => h d (by simp [hd]))

theorem goes_parens {m m' : CssMode} (hm : m.soft = true) (hm' : m'.soft = true) {t : Str} (h : Goes .plain t m') :
    Goes m (str! "(" ++ t ++ str! ")") .plain := fun ks => by
  have h1 : scansCss m ks (str! "(") = some (.plain, ')' :: ks) := by cases m <;> first | rfl | cases hm
  have h2 : scansCss m' (')' :: ks) (str! ")") = some (.plain, ks) := by cases m' <;> first | rfl | cases hm'
  rw [scansCss_append, scansCss_append, h1]
  show Option.bind (Option.bind _ _) _ = _
  rw [Option.bind_some]
  show (scansCss .plain (')' :: ks) t).bind _ = _
  rw [h]
  exact h2

theorem sealed_nil : Sealed [] := ⟨.plain, rfl, rfl⟩

theorem sealed_gap {a b g : Str} (ha : Sealed a) (hb : Sealed b) (hg : ∀ m : CssMode, m.soft = true → Goes m g .plain) :
    Sealed (a ++ g ++ b) := by
  obtain ⟨m, h1, h2⟩ := sealed_goes.1 ha
  obtain ⟨m', h3, h4⟩ := sealed_goes.1 hb
  exact sealed_goes.2 ⟨m', h3, (h2.append (hg m h1)).append h4⟩

theorem goes_blank {m : CssMode} (hm : m.soft = true) : Goes m (str! " ") .plain := goes_gap hm (by decide) (by decide)

theorem sealed_joined {sep : Str} (hg : ∀ m : CssMode, m.soft = true → Goes m sep .plain) {ts : List Str} {j : Str}
    (h : Joined sep ts j) (ht : ∀ t ∈ ts, Sealed t) : Sealed j := by
  induction h with
  | nil => exact sealed_nil
  | one s => exact ht s (by simp)
  | more s u t ts _ ih => exact sealed_gap (ht s (by simp)) (ih fun x hx => ht x (by simp [hx])) hg

/-- Behind white space the reader is outside of quotes only if it was before. -/
theorem scanCss_space {m m' : CssMode} {ks ks' : List Char} {c : Char} (hc : Space c) (h : scanCss m ks c = some (m', ks'))
    (hm : m'.soft = true) : m.soft = true ∧ ks' = ks := by
  obtain ⟨h1, h2, _⟩ := space_marks hc
  cases m with
  | plain =>
    have := goes_gap (m := .plain) rfl h1 h2 ks
    rw [scansCss, h] at this
    cases this
    exact ⟨rfl, rfl⟩
  | slash =>
    have := goes_gap (m := .slash) rfl h1 h2 ks
    rw [scansCss, h] at this
    cases this
    exact ⟨rfl, rfl⟩
  | escaped q => cases h; cases hm
  | quoted q =>
    simp only [cssMarks, List.mem_cons, List.not_mem_nil, or_false, not_or] at h1
    simp only [scanCss] at h
    have hq : c ≠ (if q = true then '\'' else '"') := by
      cases q
      · exact h1.1
      · exact h1.2.1
    rw [if_neg hq, if_neg h1.2.2.1] at h
    split at h
    · cases h
    · cases h; cases hm

theorem scansCss_space : ∀ {s : Str} {m m' : CssMode} {ks ks' : List Char}, (∀ c ∈ s, Space c) → scansCss m ks s = some (m', ks') →
    m'.soft = true → m.soft = true ∧ ks' = ks
  | [], _, _, _, _, _, h, hm => by cases h; exact ⟨hm, rfl⟩
  | c :: s, m, m', ks, ks', hs, h, hm => by
    rw [scansCss] at h
    rcases h1 : scanCss m ks c with _ | ⟨m1, ks1⟩
    · rw [h1] at h; cases h
    · rw [h1] at h
      obtain ⟨h2, rfl⟩ := scansCss_space (fun d hd => hs d (by simp [hd])) h hm
      obtain ⟨h3, rfl⟩ := scanCss_space (hs c (by simp)) h1 h2
      exact ⟨h3, rfl⟩

theorem sealed_trimmed {s t : Str} (h : Trimmed s t) (hs : Sealed s) : Sealed t := by
  obtain ⟨a, b, rfl, ha, hb, _⟩ := h
  obtain ⟨m, h1, h2⟩ := hs
  rw [List.append_assoc, scansCss_append, goes_spaces_plain ha, Option.bind_some, scansCss_append] at h2
  rcases h3 : scansCss .plain [] t with _ | ⟨m', ks⟩
  · simp only [h3] at h2; cases h2
  · simp only [h3, Option.bind_some] at h2
    obtain ⟨h4, rfl⟩ := scansCss_space hb h2 h1
    exact ⟨m', h4, h3⟩

theorem sealed_parens {t : Str} (h : Sealed t) {m : CssMode} (hm : m.soft = true) : Goes m (str! "(" ++ t ++ str! ")") .plain := by
  obtain ⟨m', h1, h2⟩ := sealed_goes.1 h
  exact goes_parens hm h1 h2

theorem sealed_call {f t : Str} (hf : Sealed f) (ht : Sealed t) : Sealed (f ++ str! "(" ++ t ++ str! ")") := by
  obtain ⟨m, h1, h2⟩ := sealed_goes.1 hf
  have := h2.append (sealed_parens ht h1)
  exact sealed_goes.2 ⟨.plain, rfl, by simpa using this⟩

theorem sealed_callText {f : Str} {args : List Str} {t : Str} (h : CallText f args t) (hf : Sealed f) (ha : ∀ t ∈ args, Sealed t) :
    Sealed t := by
  have hb : ∀ m : CssMode, m.soft = true → Goes m (str! " ") .plain := fun _ => goes_blank
  cases h with
  | comma j t _ h1 h2 =>
    refine sealed_call hf (sealed_trimmed h2 (sealed_joined (fun m hm => ?_) h1 ha))
    exact Goes.append (s := [',']) (goes_gap hm (by decide) (by decide)) (goes_blank rfl)
  | blank j t _ _ _ h1 h2 => exact sealed_call hf (sealed_trimmed h2 (sealed_joined hb h1 ha))
  | «infix» j h1 h2 =>
    refine sealed_goes.2 ⟨.plain, rfl, sealed_parens (sealed_joined (fun m hm => ?_) h2 ha) rfl⟩
    obtain ⟨m', h3, h4⟩ := sealed_goes.1 hf
    exact ((goes_blank hm).append h4).append (goes_blank h3)
  | plain j t _ _ h1 h2 => exact sealed_gap hf (sealed_trimmed h2 (sealed_joined hb h1 ha)) hb

mutual
theorem valueText_sealed {quote : Str → Str} (hq : ∀ s, Sealed (quote s)) : ∀ {n : PNode} {t : Str}, ValueText quote n t →
    ValueSealed n → Sealed t
  | _, _, .word n a hn hs, h => by
    cases h with
    | word _ b hb h1 =>
      have : a = b := by rcases hn with rfl | rfl | rfl <;> rcases hb with h | h | h <;> cases h <;> rfl
      subst this; exact h1
    | quoted _ b hb h1 =>
      have : a = b := by rcases hn with rfl | rfl | rfl <;> rcases hb with h | h | h <;> cases h <;> rfl
      subst this
      obtain ⟨c, h2, h3⟩ := h1
      exact absurd h3 (hs c h2)
    | raw => rcases hn with h | h | h <;> cases h
    | list => rcases hn with h | h | h <;> cases h
  | _, _, .quoted n a hn _, _ => hq _
  | _, _, .raw a, h => by
    cases h with
    | word _ b hb => rcases hb with h | h | h <;> cases h
    | quoted _ b hb => rcases hb with h | h | h <;> cases h
    | raw _ h => exact h
  | _, _, .empty .., _ => sealed_nil
  | _, _, .call h ns s e w f args t h1 h2 h3, hv => by
    cases hv with
    | word _ b hb => rcases hb with h | h | h <;> cases h
    | quoted _ b hb => rcases hb with h | h | h <;> cases h
    | list _ _ _ _ hm =>
      exact sealed_callText h3 (valueText_sealed hq h1 (hm _ (by simp))) (valueTexts_sealed hq h2 fun n hn => hm n (by simp [hn]))
theorem valueTexts_sealed {quote : Str → Str} (hq : ∀ s, Sealed (quote s)) : ∀ {ns : List PNode} {ts : List Str}, ValueTexts quote ns ts →
    (∀ n ∈ ns, ValueSealed n) → ∀ t ∈ ts, Sealed t
  | _, _, .nil, _ => by simp
  | _, _, .cons n ns t ts h1 h2, h => by
    intro u hu
    rcases List.mem_cons.1 hu with rfl | hu
    · exact valueText_sealed hq h1 (h n (by simp))
    · exact valueTexts_sealed hq h2 (fun m hm => h m (by simp [hm])) u hu
end

/-- A text without marks is sealed. -/
theorem sealed_word {t : Str} (h : ∀ c ∈ t, c ∉ cssMarks) : Sealed t := by
  have : Goes .plain t .plain := by
    induction t with
    | nil => exact .nil _
    | cons c t ih =>
      refine Goes.append (s := [c]) (fun ks => ?_) (ih fun d hd => h d (by simp [hd]))
      have hc := h c (by simp)
      by_cases hs : c = '*'
      · subst hs; rfl
      · exact goes_gap rfl hc hs ks
  exact sealed_goes.2 ⟨_, rfl, this⟩

/-! ## White space around a text -/

theorem spaceChar_eq : spaceChar = isUniWs := by
  funext c
  rw [Bool.eq_iff_iff, space_iff]
  unfold spaceChar Space
  simp

theorem unspaced_trim (s : Str) : unspaced s = trim s := by
  unfold unspaced
  rw [spaceChar_eq]
  rfl

theorem unspaced_trimmed {s t : Str} (h : Trimmed s t) : unspaced s = t := by rw [unspaced_trim, trim_trimmed h]

theorem trimmed_pad {s t x y : Str} (h : Trimmed s t) (hx : ∀ c ∈ x, Space c) (hy : ∀ c ∈ y, Space c) : Trimmed (x ++ s ++ y) t := by
  obtain ⟨a, b, rfl, ha, hb, h1, h2⟩ := h
  refine ⟨x ++ a, b ++ y, by simp, ?_, ?_, h1, h2⟩
  · intro c hc
    rcases List.mem_append.1 hc with h | h
    · exact hx c h
    · exact ha c h
  · intro c hc
    rcases List.mem_append.1 hc with h | h
    · exact hb c h
    · exact hy c h

theorem unspaced_pad {s t x y : Str} (h : Trimmed s t) (hx : ∀ c ∈ x, Space c) (hy : ∀ c ∈ y, Space c) : unspaced (x ++ s ++ y) = t :=
  unspaced_trimmed (trimmed_pad h hx hy)

theorem unspaced_spaces {x : Str} (hx : ∀ c ∈ x, Space c) : unspaced x = [] :=
  unspaced_trimmed ⟨x, [], by simp, hx, by simp, by simp, by simp⟩

/-- White space is only taken away around the text: its first character stays. -/
theorem unspaced_head {x r : Str} {c : Char} (hx : ∀ c ∈ x, Space c) (hc : ¬ Space c) : (unspaced (x ++ c :: r)).head? = some c := by
  have h1 : spaceChar c = false := by rw [spaceChar_eq]; exact (space_false c).2 hc
  have h2 : (x ++ c :: r).dropWhile spaceChar = c :: r := by
    rw [dropWhile_all _ fun d hd => by rw [spaceChar_eq]; exact (space_iff d).2 (hx d hd), dropWhile_head]
    intro d hd
    cases hd
    exact h1
  unfold unspaced
  rw [h2, List.reverse_cons, List.dropWhile_append]
  split
  · simp [h1]
  · simp

/-! ## Reading -/

theorem steps_append : ∀ (a b : Str) (st : CssRead), st.steps (a ++ b) = (st.steps a).bind fun st => st.steps b
  | [], _, _ => rfl
  | c :: a, b, st => by
    rw [List.cons_append, CssRead.steps, CssRead.steps]
    rcases st.step c with _ | st'
    · rfl
    · exact steps_append a b st'

theorem steps_text : ∀ {t : Str} {m m' : CssMode} {ks ks' : List Char} (x : Str) (d : List CssItem) (s : List (Str × List CssItem)),
    scansCss m ks t = some (m', ks') → CssRead.steps ⟨m, ks, x, d, s⟩ t = some ⟨m', ks', x ++ t, d, s⟩
  | [], _, _, _, _, _, _, _, h => by cases h; simp [CssRead.steps]
  | c :: t, m, m', ks, ks', x, d, s, h => by
    rw [scansCss] at h
    rcases h1 : scanCss m ks c with _ | ⟨m1, ks1⟩
    · rw [h1] at h; cases h
    · rw [h1] at h
      have h2 : ¬ (m.soft = true ∧ ks = [] ∧ (c = ';' ∨ c = '{' ∨ c = '}')) := by
        rintro ⟨hm, rfl, rfl | rfl | rfl⟩ <;> cases m <;> first | (simp [CssMode.soft] at hm; done) | (simp [scanCss] at h1; done)
      rw [CssRead.steps, CssRead.step, if_neg h2]
      simp only [h1]
      rw [steps_text _ _ _ h]
      simp

theorem steps_goes {t : Str} {m m' : CssMode} {ks : List Char} (x : Str) (d : List CssItem) (s : List (Str × List CssItem))
    (h : Goes m t m') : CssRead.steps ⟨m, ks, x, d, s⟩ t = some ⟨m', ks, x ++ t, d, s⟩ := steps_text x d s (h ks)

/-- From the text the items are read, between statements. -/
def ReadsItems (t : Str) (is : List CssItem) : Prop :=
  ∀ (x : Str) (d : List CssItem) (s : List (Str × List CssItem)), (∀ c ∈ x, Space c) →
    ∃ y, (∀ c ∈ y, Space c) ∧ CssRead.steps ⟨.plain, [], x, d, s⟩ t = some ⟨.plain, [], y, d ++ is, s⟩

theorem readsItems_nil : ReadsItems [] [] := fun x d s hx => ⟨x, hx, by simp [CssRead.steps]⟩

theorem readsItems_append {t u : Str} {is js : List CssItem} (h : ReadsItems t is) (h' : ReadsItems u js) :
    ReadsItems (t ++ u) (is ++ js) := fun x d s hx => by
  obtain ⟨y, hy, h1⟩ := h x d s hx
  obtain ⟨z, hz, h2⟩ := h' y (d ++ is) s hy
  refine ⟨z, hz, ?_⟩
  rw [steps_append, h1, Option.bind_some, h2, List.append_assoc]

theorem readsItems_spaces {t : Str} (h : ∀ c ∈ t, Space c) : ReadsItems t [] := fun x d s hx => by
  refine ⟨x ++ t, ?_, by rw [steps_goes x d s (goes_spaces_plain h), List.append_nil]⟩
  intro c hc
  rcases List.mem_append.1 hc with h' | h'
  · exact hx c h'
  · exact h c h'

theorem newline_space : ∀ c ∈ str! "\n", Space c := by unfold Space; decide

theorem one_space : ∀ c ∈ str! " ", Space c := by unfold Space; decide

theorem semi_step {m : CssMode} (hm : m.soft = true) (x : Str) (d : List CssItem) (s : List (Str × List CssItem)) :
    CssRead.steps ⟨m, [], x, d, s⟩ (str! ";") = CssRead.stop ⟨m, [], x, d, s⟩ := by
  rw [CssRead.steps, CssRead.step, if_pos ⟨hm, rfl, Or.inl rfl⟩, if_pos rfl]
  rcases CssRead.stop ⟨m, [], x, d, s⟩ with _ | st <;> rfl

theorem open_step {m : CssMode} (hm : m.soft = true) (x : Str) (d : List CssItem) (s : List (Str × List CssItem)) :
    CssRead.steps ⟨m, [], x, d, s⟩ (str! "{") = some ⟨.plain, [], [], [], (unspaced x, d) :: s⟩ := by
  rw [CssRead.steps, CssRead.step, if_pos ⟨hm, rfl, Or.inr (Or.inl rfl)⟩, if_neg (by decide), if_pos rfl]
  rfl

theorem close_step {x : Str} (hx : ∀ c ∈ x, Space c) (d e : List CssItem) (t : Str) (s : List (Str × List CssItem)) :
    CssRead.steps ⟨.plain, [], x, d, (t, e) :: s⟩ (str! "}") = some ⟨.plain, [], [], e ++ [.block t d], s⟩ := by
  rw [CssRead.steps, CssRead.step, if_pos ⟨rfl, rfl, Or.inr (Or.inr rfl)⟩, if_neg (by decide), if_neg (by decide), CssRead.stop]
  simp only [unspaced_spaces hx, if_true]
  rfl

/-- A block of items. -/
theorem readsItems_block {h t j b : Str} {is : List CssItem} (hh : h = j ++ str! " ") (hj : Sealed j) (ht : Trimmed j t)
    (hb : ReadsItems b is) : ReadsItems (h ++ str! "{\n" ++ b ++ str! "}") [.block t is] := fun x d s hx => by
  subst hh
  obtain ⟨m, h1, h2⟩ := sealed_goes.1 hj
  obtain ⟨y, h3, h4⟩ := hb (str! "\n") [] ((unspaced (x ++ (j ++ str! " ")), d) :: s) newline_space
  refine ⟨[], by simp, ?_⟩
  rw [steps_append, steps_append, steps_append, steps_goes x d s (h2.append (goes_blank h1)), Option.bind_some,
    show str! "{\n" = str! "{" ++ str! "\n" from rfl, steps_append, open_step rfl, Option.bind_some,
    steps_goes _ _ _ (goes_spaces_plain newline_space), Option.bind_some]
  simp only [List.nil_append]
  rw [h4, Option.bind_some, close_step h3]
  rw [← List.append_assoc x, unspaced_pad ht hx one_space]
  rfl

theorem trimmed_self {t : Str} (h : ∀ c ∈ t, ¬ Space c) : Trimmed t t :=
  ⟨[], [], by simp, by simp, by simp, fun c hc => h c (List.mem_of_mem_head? hc), fun c hc => h c (List.mem_of_getLast? hc)⟩

theorem readsItems_prop {quote : Str → Str} {n : PNode} {i : CssItem} (h : PropItem quote n i) :
    ∃ t, PropText quote n t ∧ ReadsItems t [i] := by
  cases h with
  | mk k n s w v t h1 h2 h3 h4 h5 h6 h7 =>
    refine ⟨_, .mk k n s w v h1, fun x d st hx => ⟨str! "\n", newline_space, ?_⟩⟩
    obtain ⟨m, a1, a2⟩ := sealed_goes.1 h4
    obtain ⟨m', a3, a4⟩ := sealed_goes.1 h2
    have two : ∀ c ∈ str! "  ", Space c := by unfold Space; decide
    have hx' : ∀ c ∈ x ++ str! "  ", Space c := fun c hc => by
      rcases List.mem_append.1 hc with h | h
      · exact hx c h
      · exact two c h
    have colon : Goes m (str! ": ") .plain := Goes.append (s := [':']) (goes_gap a1 (by decide) (by decide)) (goes_blank rfl)
    have hgo := (((goes_spaces_plain two).append a2).append colon).append a4
    rw [show str! ";\n" = str! ";" ++ str! "\n" from rfl, ← List.append_assoc, steps_append, steps_append, steps_goes x d st hgo,
      Option.bind_some, semi_step a3]
    obtain ⟨c, k', rfl⟩ : ∃ c k', k = c :: k' := by cases k with
      | nil => exact absurd rfl h5
      | cons c k' => exact ⟨c, k', rfl⟩
    have hhead : (unspaced (x ++ (str! "  " ++ (c :: k') ++ str! ": " ++ v))).head? = some c := by
      have := unspaced_head (x := x ++ str! "  ") (r := k' ++ str! ": " ++ v) hx' (h6 c (by simp)).1
      simpa using this
    have hne : unspaced (x ++ (str! "  " ++ (c :: k') ++ str! ": " ++ v)) ≠ [] := by
      intro h; rw [h] at hhead; cases hhead
    have hat : (unspaced (x ++ (str! "  " ++ (c :: k') ++ str! ": " ++ v))).head? ≠ some '@' := by
      rw [hhead]; exact h7
    have htw : (x ++ (str! "  " ++ (c :: k') ++ str! ": " ++ v)).takeWhile (fun c => decide (c ≠ ':')) = x ++ str! "  " ++ (c :: k') := by
      have : x ++ (str! "  " ++ (c :: k') ++ str! ": " ++ v) = (x ++ str! "  " ++ (c :: k')) ++ ':' :: (' ' :: v) := by simp
      rw [this, List.takeWhile_append_of_pos]
      · simp
      · intro e he
        rcases List.mem_append.1 he with he | he
        · simpa using (space_marks (hx' e he)).2.2.2
        · simpa using (h6 e he).2
    have hdrop : (x ++ (str! "  " ++ (c :: k') ++ str! ": " ++ v)).drop ((x ++ str! "  " ++ (c :: k')).length + 1) = str! " " ++ v := by
      have : x ++ (str! "  " ++ (c :: k') ++ str! ": " ++ v) = (x ++ str! "  " ++ (c :: k') ++ [':']) ++ (' ' :: v) := by simp
      rw [this, List.drop_left' (by simp only [List.length_append, List.length_cons, List.length_nil])]
      rfl
    have hmem : ':' ∈ x ++ (str! "  " ++ (c :: k') ++ str! ": " ++ v) := by simp
    unfold CssRead.stop
    dsimp only
    rw [if_neg hne, if_neg hat, if_pos hmem, Option.bind_some, steps_goes _ _ _ (goes_spaces_plain newline_space)]
    rw [htw, hdrop]
    have e1 : unspaced (x ++ str! "  " ++ (c :: k')) = c :: k' := by
      have := unspaced_pad (trimmed_self fun e he => (h6 e he).1) hx' (y := []) (by simp)
      simpa using this
    have e2 : unspaced (str! " " ++ v) = t := by
      have := unspaced_pad h3 one_space (y := []) (by simp)
      simpa using this
    rw [e1, e2]
    rfl

theorem readsItems_props {quote : Str → Str} : ∀ {ns : List PNode} {is : List CssItem}, Pairs (PropItem quote) ns is →
    ∃ ts, Pairs (PropText quote) ns ts ∧ ReadsItems ts.flatten is
  | [], _, h => by cases h; exact ⟨[], .nil, readsItems_nil⟩
  | n :: ns, _, h => by
    cases h with
    | cons h hs =>
      obtain ⟨t, h1, h2⟩ := readsItems_prop h
      obtain ⟨ts, h3, h4⟩ := readsItems_props hs
      exact ⟨t :: ts, .cons h1 h3, readsItems_append h2 h4⟩

theorem joined_blanks : ∀ {w : Str} {ws : List Str} {j : Str}, Joined (str! " ") (w :: ws) j →
    w ++ str! " " ++ (ws.map (· ++ str! " ")).flatten = j ++ str! " "
  | w, [], _, h => by cases h; simp
  | w, u :: ws, _, h => by
    cases h with
    | more _ _ t _ h =>
      have := joined_blanks h
      simp only [List.map_cons, List.flatten_cons] at this ⊢
      rw [List.append_assoc (w ++ _), ← this]

theorem selWords_texts {ns : List PNode} {ws : List Str} (h : Pairs SelWord ns ws) :
    Pairs SelText ns (ws.map (· ++ str! " ")) ∧ ∀ w ∈ ws, Sealed w := by
  induction h with
  | nil => exact ⟨.nil, by simp⟩
  | cons h _ ih =>
    cases h with
    | mk a h1 h2 =>
      refine ⟨.cons (.mk _ a h1) ih.1, ?_⟩
      intro w hw
      rcases List.mem_cons.1 hw with rfl | hw
      · exact h2
      · exact ih.2 w hw

theorem argWord_text {quote : Str → Str} {n : PNode} {w : Str} (h : ArgWord quote n w) :
    ArgText quote n (w ++ str! " ") ∧ Sealed w := by
  cases h with
  | attr k n s w v h1 h2 h3 =>
    constructor
    · have := ArgText.attr (quote := quote) k n s w v h1
      simpa using this
    · refine sealed_goes.2 ⟨.plain, rfl, ?_⟩
      have := sealed_parens (sealed_gap h2 h3 (g := str! ": ") fun m hm =>
        Goes.append (s := [':']) (goes_gap hm (by decide) (by decide)) (goes_blank rfl)) (m := .plain) rfl
      simpa using this
  | value n v h1 h2 h3 => exact ⟨.value n w h1 h2, h3⟩

theorem argWords_texts {quote : Str → Str} {ns : List PNode} {ws : List Str} (h : Pairs (ArgWord quote) ns ws) :
    Pairs (ArgText quote) ns (ws.map (· ++ str! " ")) ∧ ∀ w ∈ ws, Sealed w := by
  induction h with
  | nil => exact ⟨.nil, by simp⟩
  | cons h _ ih =>
    refine ⟨.cons (argWord_text h).1 ih.1, ?_⟩
    intro w hw
    rcases List.mem_cons.1 hw with rfl | hw
    · exact (argWord_text h).2
    · exact ih.2 w hw

theorem atRules_words : ∀ a ∈ blockRules ++ lineRules, (∀ c ∈ a, c ∉ cssMarks) ∧ a.head? = some '@' := by decide +kernel

theorem sealed_head {a : Str} {ws : List Str} {j : Str} (ha : Sealed a) (hw : ∀ w ∈ ws, Sealed w) (h : Joined (str! " ") (a :: ws) j) :
    Sealed j := by
  refine sealed_joined (fun m hm => goes_blank hm) h ?_
  intro t ht
  rcases List.mem_cons.1 ht with rfl | ht
  · exact ha
  · exact hw t ht

theorem readsItems_line {a : Str} {ws : List Str} {j t : Str} (hj : Joined (str! " ") (a :: ws) j) (hs : Sealed j) (ht : Trimmed j t)
    (ha : a.head? = some '@') :
    ReadsItems (a ++ str! " " ++ (ws.map (· ++ str! " ")).flatten ++ str! ";\n") [.line t] := fun x d s hx => by
  obtain ⟨m, h1, h2⟩ := sealed_goes.1 hs
  refine ⟨str! "\n", newline_space, ?_⟩
  have hhead : t.head? = some '@' := by
    obtain ⟨a', rfl⟩ : ∃ a', a = '@' :: a' := by
      cases a with
      | nil => cases ha
      | cons c a' => cases ha; exact ⟨a', rfl⟩
    obtain ⟨r, hr⟩ : ∃ r, j = '@' :: r := by
      cases hj with
      | one => exact ⟨_, rfl⟩
      | more _ _ _ _ _ => exact ⟨_, rfl⟩
    have := unspaced_head (x := []) (r := r) (c := '@') (by simp) (by unfold Space; decide)
    rw [List.nil_append, ← hr, unspaced_trimmed ht] at this
    exact this
  have hne : t ≠ [] := by rintro rfl; cases hhead
  rw [joined_blanks hj, show str! ";\n" = str! ";" ++ str! "\n" from rfl, ← List.append_assoc, steps_append, steps_append,
    steps_goes x d s (h2.append (goes_blank h1)), Option.bind_some, semi_step rfl]
  unfold CssRead.stop
  dsimp only
  rw [← List.append_assoc x, unspaced_pad ht hx one_space, if_neg hne, if_pos hhead, Option.bind_some,
    steps_goes _ _ _ (goes_spaces_plain newline_space)]
  rfl

mutual
theorem ruleItem_reads {quote : Str → Str} : ∀ {ns : List PNode} {i : CssItem}, RuleItem quote ns i →
    ∃ t, RuleText quote ns t ∧ ReadsItems t [i]
  | _, _, .plain h a sels props ws j t ds h1 h2 h3 h4 h5 h6 h7 h8 h9 => by
    obtain ⟨ps, h10, h11⟩ := readsItems_props h9
    obtain ⟨h12, h13⟩ := selWords_texts h5
    refine ⟨_, .plain h a sels props _ _ h1 h3 h4 h12 h6 h10, ?_⟩
    exact readsItems_block (joined_blanks h7) (sealed_head h2 h13 h7) h8 h11
  | _, _, .line h a args ws j t h1 h2 h3 h4 h5 => by
    obtain ⟨h6, h7⟩ := argWords_texts h3
    obtain ⟨h8, h9⟩ := atRules_words a.value (by simp [h2])
    exact ⟨_, .line h a args _ h1 h2 h6, readsItems_line h4 (sealed_head (sealed_word h8) h7 h4) h5 h9⟩
  | _, _, .block h a args rules ws j t is h1 h2 h3 h4 h5 h6 h7 h8 => by
    obtain ⟨h9, h10⟩ := argWords_texts h4
    obtain ⟨h11, _⟩ := atRules_words a.value (by simp [h2])
    obtain ⟨u, h12, h13⟩ := sheetItems_reads h8
    refine ⟨_, .block h a args rules _ _ h1 h2 h3 h9 h7 h12, ?_⟩
    exact readsItems_block (joined_blanks h5) (sealed_head (sealed_word h11) h10 h5) h6 h13
theorem sheetItems_reads {quote : Str → Str} : ∀ {ns : List PNode} {is : List CssItem}, SheetItems quote ns is →
    ∃ t, SheetText quote ns t ∧ ReadsItems t is
  | _, _, .nil => ⟨[], .nil, readsItems_nil⟩
  | _, _, .cons ns s e w rest i is h1 h2 h3 => by
    obtain ⟨t, h4, h5⟩ := ruleItem_reads h2
    obtain ⟨u, h6, h7⟩ := sheetItems_reads h3
    exact ⟨_, .cons ns s e w rest t u h4 h6, readsItems_append (readsItems_append (readsItems_spaces h1) h5) h7⟩
end

theorem readsItems_read {t : Str} {is : List CssItem} (h : ReadsItems t is) : readCss t = some is := by
  obtain ⟨y, hy, h⟩ := h [] [] [] (by simp)
  unfold readCss
  rw [h]
  simp only [unspaced_spaces hy, CssMode.soft, and_self, if_true]
  rfl

/-- Quotes around the text, and a backslash before each quote, backslash and (as `\a`) line break in it. -/
def exQuoteCss (s : Str) : Str := '"' :: (s.flatMap fun c => if c = '"' ∨ c = '\\' then ['\\', c] else if c = '\n' then str! "\\a " else [c]) ++ ['"']

theorem exQuoteCss_sealed : ∀ s, Sealed (exQuoteCss s) := by
  intro s
  refine ⟨.plain, rfl, ?_⟩
  show scansCss (.quoted false) [] (_ ++ ['"']) = _
  rw [scansCss_append]
  have : scansCss (.quoted false) [] (s.flatMap fun c => if c = '"' ∨ c = '\\' then ['\\', c] else if c = '\n' then str! "\\a " else [c]) =
      some (.quoted false, []) := by
    induction s with
    | nil => rfl
    | cons c s ih =>
      rw [List.flatMap_cons, scansCss_append]
      have : scansCss (.quoted false) [] (if c = '"' ∨ c = '\\' then ['\\', c] else if c = '\n' then str! "\\a " else [c]) =
          some (.quoted false, []) := by
        by_cases h : c = '"' ∨ c = '\\'
        · rw [if_pos h]; rfl
        · rw [if_neg h]
          by_cases h2 : c = '\n'
          · rw [if_pos h2]; rfl
          · rw [if_neg h2]
            simp only [not_or] at h
            simp [scansCss, scanCss, h, h2]
      rw [this]
      exact ih
  rw [this]
  rfl

end Seam
