import Verif.Spec.Markup
import Verif.Model.Assemble

namespace Seam
open Spec

/-! ## Escaping -/

theorem escapeXmlChar_cases (c : Char) :
    (∃ e, (c, e) ∈ entities ∧ escapeXmlChar c = e) ∨ ((∀ e ∈ entities, c ≠ e.1) ∧ escapeXmlChar c = [c]) := by
  by_cases h1 : c = '<'
  · left; subst h1; exact ⟨str! "&lt;", by simp [entities], rfl⟩
  by_cases h2 : c = '>'
  · left; subst h2; exact ⟨str! "&gt;", by simp [entities], rfl⟩
  by_cases h3 : c = '"'
  · left; subst h3; exact ⟨str! "&quot;", by simp [entities], rfl⟩
  by_cases h4 : c = '\''
  · left; subst h4; exact ⟨str! "&apos;", by simp [entities], rfl⟩
  by_cases h5 : c = '&'
  · left; subst h5; exact ⟨str! "&amp;", by simp [entities], rfl⟩
  right
  refine ⟨?_, by simp [escapeXmlChar, h1, h2, h3, h4, h5]⟩
  intro e he
  simp [entities] at he
  rcases he with rfl | rfl | rfl | rfl | rfl <;> assumption

theorem escapeXml_escText : ∀ v : Str, EscText (escapeXml v) v
  | [] => .nil
  | c :: v => by
    rw [escapeXml]
    rcases escapeXmlChar_cases c with ⟨e, h1, h2⟩ | ⟨h1, h2⟩
    · rw [h2]; exact .entity c e _ _ h1 (escapeXml_escText v)
    · rw [h2]; exact .plain c _ _ h1 (escapeXml_escText v)

theorem entity_head {c : Char} {e : Str} (h : (c, e) ∈ entities) : ∃ e', e = '&' :: e' := by
  simp [entities] at h
  rcases h with ⟨_, rfl⟩ | ⟨_, rfl⟩ | ⟨_, rfl⟩ | ⟨_, rfl⟩ | ⟨_, rfl⟩ <;> exact ⟨_, rfl⟩

theorem entity_unique {c c' : Char} {e e' t t' : Str} (h : (c, e) ∈ entities) (h' : (c', e') ∈ entities)
    (he : e ++ t = e' ++ t') : c = c' ∧ t = t' := by
  simp [entities] at h h'
  rcases h with ⟨rfl, rfl⟩ | ⟨rfl, rfl⟩ | ⟨rfl, rfl⟩ | ⟨rfl, rfl⟩ | ⟨rfl, rfl⟩ <;>
    rcases h' with ⟨rfl, rfl⟩ | ⟨rfl, rfl⟩ | ⟨rfl, rfl⟩ | ⟨rfl, rfl⟩ | ⟨rfl, rfl⟩ <;>
    simp at he ⊢ <;> assumption

theorem escText_unique {t v : Str} (h : EscText t v) : ∀ {v' : Str}, EscText t v' → v = v' := by
  induction h with
  | nil =>
    intro v' h'
    generalize ht : ([] : Str) = t at h'
    cases h' with
    | nil => rfl
    | plain => simp at ht
    | entity c e t v he _ => obtain ⟨e', rfl⟩ := entity_head he; simp at ht
  | plain c t v hc _ ih =>
    intro v' h'
    generalize ht : c :: t = s at h'
    cases h' with
    | nil => simp at ht
    | plain c' t' v' _ h' =>
      simp only [List.cons.injEq] at ht
      obtain ⟨rfl, rfl⟩ := ht
      rw [ih h']
    | entity c' e t' v' he _ =>
      obtain ⟨e', rfl⟩ := entity_head he
      simp only [List.cons_append, List.cons.injEq] at ht
      exact absurd ht.1 (hc ('&', str! "&amp;") (by simp [entities]))
  | entity c e t v he _ ih =>
    intro v' h'
    generalize ht : e ++ t = s at h'
    cases h' with
    | nil => obtain ⟨e', rfl⟩ := entity_head he; simp at ht
    | plain c' t' v' hc' h' =>
      obtain ⟨e', rfl⟩ := entity_head he
      simp only [List.cons_append, List.cons.injEq] at ht
      exact absurd ht.1.symm (hc' ('&', str! "&amp;") (by simp [entities]))
    | entity c' e' t' v' he' h' =>
      obtain ⟨rfl, rfl⟩ := entity_unique he he' ht
      rw [ih h']

theorem escText_chars {t v : Str} (h : EscText t v) : ∀ c ∈ t, c ≠ '<' ∧ c ≠ '>' ∧ c ≠ '"' ∧ c ≠ '\'' := by
  induction h with
  | nil => simp
  | plain c t v hc _ ih =>
    intro d hd
    simp only [List.mem_cons] at hd
    rcases hd with rfl | hd
    · exact ⟨hc ('<', _) (by simp [entities]; rfl), hc ('>', _) (by simp [entities]; rfl),
        hc ('"', _) (by simp [entities]; rfl), hc ('\'', _) (by simp [entities]; rfl)⟩
    · exact ih d hd
  | entity c e t v he _ ih =>
    intro d hd
    simp only [List.mem_append] at hd
    rcases hd with hd | hd
    · simp [entities] at he
      rcases he with ⟨_, rfl⟩ | ⟨_, rfl⟩ | ⟨_, rfl⟩ | ⟨_, rfl⟩ | ⟨_, rfl⟩ <;> simp at hd <;>
        (repeat' (rcases hd with rfl | hd)) <;> first | decide | (subst hd; decide)
    · exact ih d hd

theorem escapeXml_append (a b : Str) : escapeXml (a ++ b) = escapeXml a ++ escapeXml b := by
  induction a with
  | nil => rfl
  | cons c a ih => simp [escapeXml, ih]

/-! ## Scanning -/

/-- The text `s` is scanned to the items `is` and leaves the scanner in text. -/
def Scans (s : Str) (is : List Item) : Prop := ∀ r, scan .text (s ++ r) = is ++ scan .text r

theorem scans_nil : Scans [] [] := fun _ => rfl

theorem scans_append {a b : Str} {is js : List Item} (h : Scans a is) (h' : Scans b js) : Scans (a ++ b) (is ++ js) := by
  intro r
  rw [List.append_assoc, h, h', List.append_assoc]

theorem scans_chars : ∀ {s : Str}, '<' ∉ s → Scans s (chars s)
  | [], _ => scans_nil
  | c :: s, h => by
    simp only [List.mem_cons, not_or] at h
    intro r
    have := scans_chars h.2 r
    simp [scan, Ne.symm h.1, chars] at this ⊢
    exact this

theorem blanks_no_lt {w : Str} (h : Blanks w) : '<' ∉ w := fun hm => absurd (h _ hm) (by decide)

theorem scans_blanks {w : Str} (h : Blanks w) : Scans w (chars w) := scans_chars (blanks_no_lt h)

theorem scans_esc {t v : Str} (h : EscText t v) : Scans t (chars t) :=
  scans_chars fun hm => (escText_chars h _ hm).1 rfl

/-- The text `s` inside a tag (outside quotes) is passed over. -/
def TagPart (s : Str) : Prop := ∀ b r, scan (.tag b) (s ++ r) = scan (.tag (b ++ s)) r

theorem tagPart_nil : TagPart [] := fun b r => by simp

theorem tagPart_append {a b : Str} (h : TagPart a) (h' : TagPart b) : TagPart (a ++ b) := by
  intro c r
  rw [List.append_assoc, h, h', List.append_assoc]

theorem tagPart_plain : ∀ {s : Str}, (∀ c ∈ s, c ≠ '>' ∧ c ≠ '"') → TagPart s
  | [], _ => tagPart_nil
  | c :: s, h => by
    intro b r
    have hc := h c (by simp)
    have := tagPart_plain (s := s) (fun d hd => h d (by simp [hd])) (b ++ [c]) r
    rw [List.cons_append, scan, if_neg hc.1, if_neg hc.2, this]
    simp

theorem quoted_skip : ∀ (s : Str), '"' ∉ s → ∀ b r, scan (.quoted b) (s ++ '"' :: r) = scan (.tag (b ++ s ++ ['"'])) r
  | [], _, b, r => by simp [scan]
  | c :: s, h, b, r => by
    simp only [List.mem_cons, not_or] at h
    have := quoted_skip s h.2 (b ++ [c]) r
    rw [List.cons_append, scan, if_neg (Ne.symm h.1), this]
    simp

theorem tagPart_quoted {s : Str} (h : '"' ∉ s) : TagPart ('"' :: s ++ ['"']) := by
  intro b r
  have := quoted_skip s h (b ++ ['"']) r
  simp only [List.cons_append, List.append_assoc, List.nil_append] at this ⊢
  rw [scan, if_neg (by decide), if_pos rfl, this]

theorem scans_tag {body : Str} (h : TagPart body) : Scans ('<' :: body ++ ['>']) [.tag body] := by
  intro r
  have := h [] ('>' :: r)
  simp only [List.cons_append, List.append_assoc, List.nil_append] at this ⊢
  rw [scan, if_pos rfl, this, scan, if_pos rfl]

/-! ## Attributes -/

theorem readAttrs_blanks : ∀ {w : Str}, Blanks w → ∀ r, readAttrs .gap (w ++ r) = readAttrs .gap r
  | [], _, r => rfl
  | c :: w, h, r => by
    rw [List.cons_append, readAttrs, if_pos (h c (by simp)), readAttrs_blanks (fun d hd => h d (by simp [hd]))]

theorem readAttrs_key : ∀ (k : Str), (∀ c ∈ k, c ≠ '=') → ∀ a r,
    readAttrs (.key a) (k ++ '=' :: r) = readAttrs (.eq (a ++ k)) r
  | [], _, a, r => by simp [readAttrs]
  | c :: k, h, a, r => by
    rw [List.cons_append, readAttrs, if_neg (h c (by simp)), readAttrs_key k (fun d hd => h d (by simp [hd]))]
    simp

theorem readAttrs_val : ∀ (v : Str), '"' ∉ v → ∀ k a r,
    readAttrs (.val k a) (v ++ '"' :: r) = (readAttrs .gap r).map ((k, a ++ v) :: ·)
  | [], _, k, a, r => by simp [readAttrs]
  | c :: v, h, k, a, r => by
    simp only [List.mem_cons, not_or] at h
    rw [List.cons_append, readAttrs, if_neg (Ne.symm h.1), readAttrs_val v h.2]
    simp

theorem nameChar_ne {c : Char} (h : nameChar c = true) : blank c = false ∧ c ≠ '<' ∧ c ≠ '>' ∧ c ≠ '"' ∧ c ≠ '=' ∧ c ≠ '/' ∧ c ≠ '!' ∧ c ≠ '?' := by
  simp [nameChar] at h
  simp [h]

/-- One attribute in front of the others. -/
theorem readAttrs_attr {w k v : Str} (hw : Blanks w) (hk : NameOk k) (hv : '"' ∉ v) (r : Str) :
    readAttrs .gap (w ++ k ++ str! "=\"" ++ v ++ ['"'] ++ r) = (readAttrs .gap r).map ((k, v) :: ·) := by
  obtain ⟨hk0, hk⟩ := hk
  cases k with
  | nil => exact absurd rfl hk0
  | cons c k =>
    have h1 := nameChar_ne (hk c (by simp))
    have := readAttrs_key k (fun d hd => (nameChar_ne (hk d (by simp [hd]))).2.2.2.2.1) [c] ('"' :: (v ++ '"' :: r))
    simp only [List.append_assoc, List.cons_append, List.nil_append] at this ⊢
    rw [readAttrs_blanks hw, readAttrs, if_neg (by simp [h1.1]), this, readAttrs, if_pos rfl, readAttrs_val v hv]
    simp

theorem tagPart_attr {w k v : Str} (hw : Blanks w) (hk : NameOk k) (hv : '"' ∉ v) :
    TagPart (w ++ k ++ str! "=\"" ++ v ++ ['"']) := by
  have h1 : TagPart w := tagPart_plain fun c hc => by
    have := hw c hc
    constructor <;> (rintro rfl; exact absurd this (by decide))
  have h2 : TagPart k := tagPart_plain fun c hc => ⟨(nameChar_ne (hk.2 c hc)).2.2.1, (nameChar_ne (hk.2 c hc)).2.2.2.1⟩
  have h3 : TagPart (str! "=") := tagPart_plain (by decide)
  have := tagPart_append (tagPart_append (tagPart_append h1 h2) h3) (tagPart_quoted hv)
  simpa using this

theorem takeWhile_name {name as : Str} (hn : NameOk name) (has : as = [] ∨ ∃ c t, as = c :: t ∧ blank c = true) :
    (name ++ as).takeWhile (!blank ·) = name ∧ (name ++ as).dropWhile (!blank ·) = as := by
  have h : ∀ c ∈ name, (!blank c) = true := fun c hc => by simp [(nameChar_ne (hn.2 c hc)).1]
  rw [List.takeWhile_append_of_pos h, List.dropWhile_append_of_pos h]
  rcases has with rfl | ⟨c, t, rfl, hc⟩ <;> simp [*]

theorem readTag_name {name as : Str} {l : List (Str × Str)} (hn : NameOk name)
    (has : as = [] ∨ ∃ c t, as = c :: t ∧ blank c = true) (hr : readAttrs .gap as = some l) :
    readTag (name ++ as) = some (name, l) := by
  obtain ⟨h1, h2⟩ := takeWhile_name hn has
  simp [readTag, h1, h2, hr]


/-! ## XML -/

theorem isAtom_iff {n : PNode} {a : Node} : n.atomic? = some a ↔ IsAtom n a := by
  cases n <;> simp [PNode.atomic?, IsAtom]

theorem firstLw_blanks {w : Str} (h : Blanks w) : Blanks (firstLw w) := by
  unfold firstLw; split
  · exact h
  · intro c hc; simp at hc

theorem closeWs_blanks {tag lw : Str} {e : Token} {b : Bool} (h : Blanks lw) (he : Blanks e.lw) :
    Blanks (closeWs tag lw e b) := by
  unfold closeWs
  split
  · split
    · exact h
    · intro c hc; simp at hc
  · exact he

theorem ordinary_lw {d : Dialect} {sp : Str → Bool} {n : PNode} (h : Ordinary d sp n) : Blanks n.lw := by
  cases h <;> assumption

theorem blank_space : blank ' ' = true := by decide

theorem xmlAttrs_shows {sp : Str → Bool} : ∀ {rest : List PNode} {t : Str}, Ordinaries d sp rest → xmlAttrs rest = .ok t →
    ∃ ans ks as, rest = ans ++ ks ∧ ks = kids rest ∧ GivesAttrs ans as ∧ TagPart t ∧ readAttrs .gap t = some as ∧
      (t = [] ∨ ∃ c r, t = c :: r ∧ blank c = true)
  | [], t, _, h => by
    simp [xmlAttrs] at h
    subst h
    exact ⟨[], [], [], rfl, rfl, .nil, tagPart_nil, rfl, Or.inl rfl⟩
  | n :: rest, t, ho, h => by
    cases ho with
    | cons _ _ hn hs =>
    cases n with
    | attr k v s w =>
      simp only [xmlAttrs, xmlAttr] at h
      cases hv : v.atomic? with
      | none => simp [hv] at h
      | some a =>
        simp only [hv, Res.ok_bind, Res.bind_eq_ok, Res.ok.injEq] at h
        obtain ⟨t', h1, rfl⟩ := h
        obtain ⟨ans, ks, as, rfl, h3, h4, h5, h6, h7⟩ := xmlAttrs_shows hs h1
        cases hn with
        | attr _ _ _ _ hw hk hq =>
          have hq := hq a (isAtom_iff.1 hv)
          have hb : Blanks [' '] := by intro c hc; simp at hc; subst hc; decide
          have g1 := tagPart_attr hb hk hq
          have g2 := readAttrs_attr hb hk hq t'
          refine ⟨_ :: ans, ks, (k, a.value) :: as, rfl, ?_, .cons _ _ _ _ _ _ _ (isAtom_iff.1 hv) h4, ?_, ?_,
            Or.inr ⟨' ', _, rfl, blank_space⟩⟩
          · have : ∀ l, kids (.attr k v s w :: l) = kids l := fun l => rfl
            rw [this]; exact h3
          · have := tagPart_append g1 h5
            simpa using this
          · rw [h6] at g2
            simpa using g2
    | _ =>
      simp [xmlAttrs] at h
      subst h
      exact ⟨[], _, [], rfl, by simp [kids, PNode.isAttr, PNode.attribute?], .nil, tagPart_nil, rfl, Or.inl rfl⟩

theorem declChars_tagPart {s : Str} (h : ∀ c ∈ s, declChar c = true) : TagPart s :=
  tagPart_plain fun c hc => by
    have := h c hc
    constructor <;> (rintro rfl; exact absurd this (by decide))

theorem xmlDecl_tagPart : ∀ {rest : List PNode} {t : Str},
    (∀ n ∈ rest, (∀ k v s w, n = .attr k v s w → NameOk k ∧ ∀ a, IsAtom v a → '"' ∉ a.value) ∧
        ∀ a, IsAtom n a → ∀ c ∈ a.value, declChar c = true) → xmlDecl rest = .ok t → TagPart t
  | [], t, _, h => by simp [xmlDecl] at h; subst h; exact tagPart_nil
  | n :: rest, t, ho, h => by
    have hn := ho n (by simp)
    have hs := fun m hm => ho m (List.mem_cons_of_mem _ hm)
    cases n with
    | symbol a =>
      simp only [xmlDecl, Res.bind_eq_ok, Res.ok.injEq] at h
      obtain ⟨t', h1, rfl⟩ := h
      exact tagPart_append (declChars_tagPart (hn.2 a (Or.inl rfl))) (xmlDecl_tagPart hs h1)
    | number a =>
      simp only [xmlDecl, Res.bind_eq_ok, Res.ok.injEq] at h
      obtain ⟨t', h1, rfl⟩ := h
      exact tagPart_append (declChars_tagPart (hn.2 a (Or.inr (Or.inl rfl)))) (xmlDecl_tagPart hs h1)
    | attr k v s w =>
      simp only [xmlDecl, xmlAttr] at h
      cases hv : v.atomic? with
      | none => simp [hv] at h
      | some a =>
        simp only [hv, Res.ok_bind, Res.bind_eq_ok, Res.ok.injEq] at h
        obtain ⟨t', h1, rfl⟩ := h
        have ⟨hk, hq⟩ := hn.1 k v s w rfl
        have hb : Blanks [' '] := by intro c hc; simp at hc; subst hc; decide
        have := tagPart_append (tagPart_attr hb hk (hq a (isAtom_iff.1 hv))) (xmlDecl_tagPart hs h1)
        simpa using this
    | string a => simp [xmlDecl] at h
    | raw a => simp [xmlDecl] at h
    | list a s e w => simp [xmlDecl] at h

theorem nameOk_front {s : Str} (h : NameOk s) : ∃ c t, s = c :: t ∧ nameChar c = true := by
  obtain ⟨h0, h⟩ := h
  cases s with
  | nil => exact absurd rfl h0
  | cons c t => exact ⟨c, t, rfl, h c (by simp)⟩

theorem name_tagPart {s : Str} (h : NameOk s) : TagPart s :=
  tagPart_plain fun c hc => ⟨(nameChar_ne (h.2 c hc)).2.2.1, (nameChar_ne (h.2 c hc)).2.2.2.1⟩

theorem slash_tagPart {s : Str} (h : TagPart s) : TagPart ('/' :: s) := by
  have : TagPart ['/'] := tagPart_plain (by decide)
  simpa using tagPart_append this h

mutual
theorem xml_shows {sp : Str → Bool} : ∀ {n : PNode} {lw out : Str}, Ordinary xmlDialect sp n → Blanks lw → xmlNode lw n = .ok out →
    ∃ is, Scans out is ∧ Shows xmlDialect n is
  | .symbol n, lw, out, _, hw, h => by
    simp [xmlNode] at h; subst h
    exact ⟨_, scans_append (scans_blanks hw) (scans_esc (escapeXml_escText n.value)), by
      simpa [chars] using Shows.symbol (d := xmlDialect) n lw _ hw (escapeXml_escText n.value)⟩
  | .number n, lw, out, _, hw, h => by
    simp [xmlNode] at h; subst h
    exact ⟨_, scans_append (scans_blanks hw) (scans_esc (escapeXml_escText n.value)), by
      simpa [chars] using Shows.number (d := xmlDialect) n lw _ hw (escapeXml_escText n.value)⟩
  | .string n, lw, out, _, hw, h => by
    simp [xmlNode] at h; subst h
    exact ⟨_, scans_append (scans_blanks hw) (scans_esc (escapeXml_escText n.value)), by
      simpa [chars] using Shows.string (d := xmlDialect) n lw _ hw (escapeXml_escText n.value)⟩
  | .raw n, lw, out, _, hw, h => by simp [xmlNode] at h
  | .attr k v s w, lw, out, _, hw, h => by simp [xmlNode] at h
  | .list [] s e w, lw, out, _, hw, h => by simp [xmlNode] at h
  | .list (.number _ :: _) s e w, lw, out, _, hw, h => by simp [xmlNode] at h
  | .list (.string _ :: _) s e w, lw, out, _, hw, h => by simp [xmlNode] at h
  | .list (.raw _ :: _) s e w, lw, out, _, hw, h => by simp [xmlNode] at h
  | .list (.list _ _ _ _ :: _) s e w, lw, out, _, hw, h => by simp [xmlNode] at h
  | .list (.attr _ _ _ _ :: _) s e w, lw, out, _, hw, h => by simp [xmlNode] at h
  | .list (.symbol hd :: rest) s e w, lw, out, ho, hw, h => by
    cases ho with
    | elem _ _ _ _ _ hlw he hname hsp hrest =>
      obtain ⟨c, t, hv, hc⟩ := nameOk_front hname
      have hc' := nameChar_ne hc
      rw [xmlNode, hv] at h
      simp only [hc'.2.2.2.2.2.2.1, hc'.2.2.2.2.2.2.2, beq_iff_eq, Bool.or_eq_true, or_self, if_false,
        Res.bind_eq_ok, Res.ok.injEq] at h
      obtain ⟨as, h1, cs, h2, rfl⟩ := h
      rw [← hv]
      obtain ⟨ans, ks, al, hr, hks, g1, g2, g3, g4⟩ := xmlAttrs_shows hrest h1
      obtain ⟨is, i1, i2⟩ := xmlKids_lead hrest h2
      rw [← hks] at i2
      refine ⟨_, scans_append (scans_append (scans_append (scans_append (scans_blanks hw)
        (scans_tag (tagPart_append (name_tagPart hname) g2))) i1) (scans_blanks (closeWs_blanks hw he)))
        (scans_tag (slash_tagPart (name_tagPart hname))) |> (fun h => by
          simp only [List.cons_append, List.append_assoc, List.nil_append] at h ⊢
          exact h), ?_⟩
      subst hr
      have := Shows.elem (d := xmlDialect) hd ans ks al s e w lw _ (closeWs hd.value lw e (firstOnNextLine (kids (ans ++ ks)))) is g1
        (readTag_name hname g4 g3) rfl hw (closeWs_blanks hw he) i2
      simpa [xmlDialect] using this
    | decl _ _ _ _ _ hlw hstart hdc hrest =>
      cases hv : hd.value with
      | nil => simp [hv, Starts] at hstart
      | cons c t =>
      simp only [hv, Starts, xmlDialect] at hstart
      rw [xmlNode, hv] at h
      simp only [hstart, if_true, Res.bind_eq_ok, Res.ok.injEq] at h
      obtain ⟨ds, h1, rfl⟩ := h
      have hend : ∃ x, TagPart x ∧ (if (c == '?') = true then str! " ?>" else str! ">") = x ++ ['>'] := by
        split
        · exact ⟨str! " ?", tagPart_plain (by decide), rfl⟩
        · exact ⟨[], tagPart_nil, rfl⟩
      obtain ⟨x, x1, x2⟩ := hend
      rw [x2]
      have hbody := tagPart_append (tagPart_append (declChars_tagPart hdc) (xmlDecl_tagPart hrest h1)) x1
      rw [hv] at hbody
      have := scans_append (scans_blanks hw) (scans_tag hbody)
      refine ⟨_, ?_, Shows.decl hd rest s e w lw (c :: t ++ ds ++ x) (by simp [hv, Starts, xmlDialect, hstart])
        ⟨ds ++ x, by rw [hv]; exact (List.append_assoc _ _ _).symm⟩ hw⟩
      simpa using this
theorem xmlKids_lead {sp : Str → Bool} : ∀ {ns : List PNode} {out : Str}, Ordinaries xmlDialect sp ns → xmlKids .lead ns = .ok out →
    ∃ is, Scans out is ∧ ShowsAll xmlDialect (kids ns) is
  | [], out, _, h => by
    simp [xmlKids] at h; subst h
    exact ⟨[], scans_nil, .nil⟩
  | n :: ns, out, ho, h => by
    cases ho with
    | cons _ _ hn hs =>
    rw [xmlKids] at h
    split at h
    · rename_i ha
      obtain ⟨is, h1, h2⟩ := xmlKids_lead hs h
      exact ⟨is, h1, by simpa [kids, ha] using h2⟩
    · rename_i ha
      simp only [Res.bind_eq_ok, Res.ok.injEq] at h
      obtain ⟨a, h1, b, h2, rfl⟩ := h
      obtain ⟨is, g1, g2⟩ := xml_shows hn (firstLw_blanks (ordinary_lw hn)) h1
      obtain ⟨js, k1, k2⟩ := xmlKids_shows hs h2
      exact ⟨is ++ js, scans_append g1 k1, by simpa [kids, ha] using ShowsAll.cons _ _ _ _ g2 k2⟩
theorem xmlKids_shows {sp : Str → Bool} : ∀ {ns : List PNode} {out : Str}, Ordinaries xmlDialect sp ns → xmlKids .rest ns = .ok out →
    ∃ is, Scans out is ∧ ShowsAll xmlDialect ns is
  | [], out, _, h => by
    simp [xmlKids] at h; subst h
    exact ⟨[], scans_nil, .nil⟩
  | n :: ns, out, ho, h => by
    cases ho with
    | cons _ _ hn hs =>
    simp only [xmlKids, Res.bind_eq_ok, Res.ok.injEq] at h
    obtain ⟨a, h1, b, h2, rfl⟩ := h
    obtain ⟨is, g1, g2⟩ := xml_shows hn (ordinary_lw hn) h1
    obtain ⟨js, k1, k2⟩ := xmlKids_shows hs h2
    exact ⟨is ++ js, scans_append g1 k1, .cons _ _ _ _ g2 k2⟩
end

end Seam
