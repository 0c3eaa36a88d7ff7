import Verif.Lemmas.Markup
import Verif.Lemmas.Void

namespace Seam
open Spec

theorem htmlAttrs_shows {d : Dialect} {sp : Str → Bool} : ∀ {rest : List PNode} {t : Str}, Ordinaries d sp rest → htmlAttrs rest = .ok t →
    ∃ ans ks as, rest = ans ++ ks ∧ ks = kids rest ∧ GivesAttrs ans as ∧ TagPart t ∧ readAttrs .gap t = some as ∧
      (t = [] ∨ ∃ c r, t = c :: r ∧ blank c = true)
  | [], t, _, h => by
    simp [htmlAttrs] at h
    subst h
    exact ⟨[], [], [], rfl, rfl, .nil, tagPart_nil, rfl, Or.inl rfl⟩
  | n :: rest, t, ho, h => by
    cases ho with
    | cons _ _ hn hs =>
    cases n with
    | attr k v s w =>
      simp only [htmlAttrs] at h
      cases hv : v.atomic? with
      | none => simp [hv] at h
      | some a =>
        simp only [hv, Res.bind_eq_ok, Res.ok.injEq] at h
        obtain ⟨t', h1, rfl⟩ := h
        obtain ⟨ans, ks, as, rfl, h3, h4, h5, h6, h7⟩ := htmlAttrs_shows hs h1
        cases hn with
        | attr _ _ _ _ hw hk hq =>
          have hq := hq a (isAtom_iff.1 hv)
          have hgap : ∃ c g, (if w.isEmpty then str! " " else w) = c :: g ∧ Blanks (c :: g) := by
            cases w with
            | nil => exact ⟨' ', [], rfl, by intro c hc; simp at hc; subst hc; decide⟩
            | cons c g => exact ⟨c, g, rfl, hw⟩
          obtain ⟨c, g, hg, hb⟩ := hgap
          rw [hg]
          have g1 := tagPart_attr hb hk hq
          have g2 := readAttrs_attr hb hk hq t'
          refine ⟨_ :: ans, ks, (k, a.value) :: as, rfl, ?_, .cons _ _ _ _ _ _ _ (isAtom_iff.1 hv) h4, ?_, ?_,
            Or.inr ⟨c, _, rfl, hb c (by simp)⟩⟩
          · have : ∀ l, kids (.attr k v s w :: l) = kids l := fun l => rfl
            rw [this]; exact h3
          · have := tagPart_append g1 h5
            simpa using this
          · rw [h6] at g2
            simpa using g2
    | _ =>
      simp [htmlAttrs] at h
      subst h
      exact ⟨[], _, [], rfl, by simp [kids, PNode.isAttr, PNode.attribute?], .nil, tagPart_nil, rfl, Or.inl rfl⟩

theorem htmlDecl_tagPart : ∀ {rest : List PNode} {t : Str},
    (∀ n ∈ rest, (∀ k v s w, n = .attr k v s w → NameOk k ∧ ∀ a, IsAtom v a → '"' ∉ a.value) ∧
        ∀ a, IsAtom n a → ∀ c ∈ a.value, declChar c = true) → htmlDecl rest = .ok t → TagPart t
  | [], t, _, h => by simp [htmlDecl] at h; subst h; exact tagPart_nil
  | n :: rest, t, ho, h => by
    have hn := ho n (by simp)
    have hs := fun m hm => ho m (List.mem_cons_of_mem _ hm)
    have hsp : TagPart [' '] := tagPart_plain (by decide)
    cases n with
    | symbol a =>
      simp only [htmlDecl, PNode.symbolic?, Res.bind_eq_ok, Res.ok.injEq] at h
      obtain ⟨t', h1, rfl⟩ := h
      have := tagPart_append (tagPart_append hsp (declChars_tagPart (hn.2 a (Or.inl rfl)))) (htmlDecl_tagPart hs h1)
      simpa using this
    | number a =>
      simp only [htmlDecl, PNode.symbolic?, Res.bind_eq_ok, Res.ok.injEq] at h
      obtain ⟨t', h1, rfl⟩ := h
      have := tagPart_append (tagPart_append hsp (declChars_tagPart (hn.2 a (Or.inr (Or.inl rfl))))) (htmlDecl_tagPart hs h1)
      simpa using this
    | attr k v s w => simp [htmlDecl, PNode.symbolic?] at h
    | string a => simp [htmlDecl, PNode.symbolic?] at h
    | raw a => simp [htmlDecl, PNode.symbolic?] at h
    | list a s e w => simp [htmlDecl, PNode.symbolic?] at h

theorem lowerChar_ascii (c : Char) : lowerChar c = c ∨ (65 ≤ c.toNat ∧ c.toNat ≤ 90 ∧ (lowerChar c).toNat = c.toNat + 32) := by
  unfold lowerChar
  split
  · rename_i h
    right
    have h1 : 65 ≤ c.toNat := h.1
    have h2 : c.toNat ≤ 90 := h.2
    refine ⟨h1, h2, ?_⟩
    have : (c.toNat + 32).isValidChar := Or.inl (by omega)
    unfold Char.ofNat
    rw [dif_pos this]
    rfl
  · exact Or.inl rfl

/-- Lower-casing a character does not produce or remove one that is not a letter. -/
theorem lowerChar_eq_iff {c d : Char} (hd : d.toNat < 65 ∨ (90 < d.toNat ∧ d.toNat < 97) ∨ 122 < d.toNat) :
    lowerChar c = d ↔ c = d := by
  rcases lowerChar_ascii c with h | ⟨h1, h2, h3⟩
  · rw [h]
  · constructor
    · intro h; rw [h] at h3; omega
    · rintro rfl; omega

theorem lower_name {s : Str} (h : NameOk s) : TagPart (lower s) := by
  refine tagPart_plain fun c hc => ?_
  simp only [lower, List.mem_map] at hc
  obtain ⟨d, hd, rfl⟩ := hc
  have := nameChar_ne (h.2 d hd)
  constructor
  · rw [Ne, lowerChar_eq_iff (by decide)]; exact this.2.2.1
  · rw [Ne, lowerChar_eq_iff (by decide)]; exact this.2.2.2.1

/-- The elements whose content is not ordinary markup, in any case. -/
def htmlSpecialName (s : Str) : Bool := htmlSpecial (lower s)

mutual
theorem html_shows {dbg : Str → Str} : ∀ {n : PNode} {lw out : Str}, Ordinary htmlDialect htmlSpecialName n →
    Blanks lw → htmlNode dbg lw n = .ok out → ∃ is, Scans out is ∧ Shows htmlDialect n is
  | .symbol n, lw, out, _, hw, h => by
    simp [htmlNode] at h; subst h
    exact ⟨_, scans_append (scans_blanks hw) (scans_esc (escapeXml_escText n.value)), by
      simpa [chars] using Shows.symbol (d := htmlDialect) n lw _ hw (escapeXml_escText n.value)⟩
  | .number n, lw, out, _, hw, h => by
    simp [htmlNode] at h; subst h
    exact ⟨_, scans_append (scans_blanks hw) (scans_esc (escapeXml_escText n.value)), by
      simpa [chars] using Shows.number (d := htmlDialect) n lw _ hw (escapeXml_escText n.value)⟩
  | .string n, lw, out, _, hw, h => by
    simp [htmlNode] at h; subst h
    exact ⟨_, scans_append (scans_blanks hw) (scans_esc (escapeXml_escText n.value)), by
      simpa [chars] using Shows.string (d := htmlDialect) n lw _ hw (escapeXml_escText n.value)⟩
  | .raw n, lw, out, ho, hw, h => by cases ho
  | .attr k v s w, lw, out, _, hw, h => by simp [htmlNode] at h
  | .list [] s e w, lw, out, _, hw, h => by simp [htmlNode] at h
  | .list (.number _ :: _) s e w, lw, out, _, hw, h => by simp [htmlNode] at h
  | .list (.string _ :: _) s e w, lw, out, _, hw, h => by simp [htmlNode] at h
  | .list (.raw _ :: _) s e w, lw, out, _, hw, h => by simp [htmlNode] at h
  | .list (.list _ _ _ _ :: _) s e w, lw, out, _, hw, h => by simp [htmlNode] at h
  | .list (.attr _ _ _ _ :: _) s e w, lw, out, _, hw, h => by simp [htmlNode] at h
  | .list (.symbol hd :: rest) s e w, lw, out, ho, hw, h => by
    cases ho with
    | elem _ _ _ _ _ hlw he hname hsp hrest =>
      obtain ⟨c, t, hv, hc⟩ := nameOk_front hname
      have hc' := nameChar_ne hc
      have hlow : lower hd.value = lowerChar c :: lower t := by rw [hv]; rfl
      have hbang : (lowerChar c == '!') = false := by
        rw [beq_eq_false_iff_ne, Ne, lowerChar_eq_iff (by decide)]; exact hc'.2.2.2.2.2.2.1
      rw [htmlNode] at h
      rw [hlow] at h
      simp only [hbang, Bool.false_eq_true, if_false] at h
      rw [← hlow] at h
      rw [Res.bind_eq_ok] at h
      obtain ⟨as, h1, h⟩ := h
      obtain ⟨ans, ks, al, hr, hks, g1, g2, g3, g4⟩ := htmlAttrs_shows hrest h1
      have hopen := scans_append (scans_blanks hw) (scans_tag (tagPart_append (name_tagPart hname) g2))
      have hvoid : binarySearch voidElements (lower hd.value) = htmlDialect.void hd.value := void_iff _
      rw [hvoid] at h
      cases hvd : htmlDialect.void hd.value with
      | true =>
        simp only [hvd, if_true] at h
        split at h
        · cases h
        · rename_i hk
          cases h
          rw [hk] at hks
          subst hks
          simp only [List.append_nil] at hr
          subst hr
          refine ⟨_, ?_, Shows.void hd rest al s e w lw _ g1 (readTag_name hname g4 g3) hvd hw⟩
          simpa using hopen
      | false =>
        have hspec : htmlSpecial (lower hd.value) = false := hsp
        simp only [hvd, hspec, Bool.false_eq_true, if_false, Res.bind_eq_ok, Res.ok.injEq] at h
        obtain ⟨cs, h2, rfl⟩ := h
        obtain ⟨is, i1, i2⟩ := htmlKids_lead hrest h2
        rw [← hks] at i2
        refine ⟨_, scans_append (scans_append (scans_append hopen i1) (scans_blanks (closeWs_blanks hw he)))
          (scans_tag (slash_tagPart (lower_name hname))) |> (fun h => by
            simp only [List.cons_append, List.append_assoc, List.nil_append] at h ⊢
            exact h), ?_⟩
        subst hr
        have := Shows.elem (d := htmlDialect) hd ans ks al s e w lw _
          (closeWs (lower hd.value) lw e (firstOnNextLine (kids (ans ++ ks)))) is g1
          (readTag_name hname g4 g3) hvd hw (closeWs_blanks hw he) i2
        simpa [htmlDialect, lower] using this
    | decl _ _ _ _ _ hlw hstart hdc hrest =>
      cases hv : hd.value with
      | nil => simp [hv, Starts] at hstart
      | cons c t =>
      simp only [hv, Starts, htmlDialect] at hstart
      have hlow : lower hd.value = lowerChar c :: lower t := by rw [hv]; rfl
      have hbang : (lowerChar c == '!') = true := by
        rw [beq_iff_eq] at hstart ⊢
        rw [lowerChar_eq_iff (by decide)]; exact hstart
      rw [htmlNode] at h
      rw [hlow] at h
      simp only [hbang, if_true, Res.bind_eq_ok, Res.ok.injEq] at h
      obtain ⟨ds, h1, rfl⟩ := h
      have hbody := tagPart_append (declChars_tagPart hdc) (htmlDecl_tagPart hrest h1)
      have := scans_append (scans_blanks hw) (scans_tag hbody)
      refine ⟨_, ?_, Shows.decl hd rest s e w lw (hd.value ++ ds) (by simp [hv, Starts, htmlDialect, hstart])
        ⟨ds, rfl⟩ hw⟩
      simpa using this
theorem htmlKids_lead {dbg : Str → Str} : ∀ {ns : List PNode} {out : Str},
    Ordinaries htmlDialect htmlSpecialName ns → htmlKids dbg .lead ns = .ok out →
    ∃ is, Scans out is ∧ ShowsAll htmlDialect (kids ns) is
  | [], out, _, h => by
    simp [htmlKids] at h; subst h
    exact ⟨[], scans_nil, .nil⟩
  | n :: ns, out, ho, h => by
    cases ho with
    | cons _ _ hn hs =>
    rw [htmlKids] at h
    split at h
    · rename_i ha
      obtain ⟨is, h1, h2⟩ := htmlKids_lead hs h
      exact ⟨is, h1, by simpa [kids, ha] using h2⟩
    · rename_i ha
      simp only [Res.bind_eq_ok, Res.ok.injEq] at h
      obtain ⟨a, h1, b, h2, rfl⟩ := h
      obtain ⟨is, g1, g2⟩ := html_shows hn (firstLw_blanks (ordinary_lw hn)) h1
      obtain ⟨js, k1, k2⟩ := htmlKids_shows hs h2
      exact ⟨is ++ js, scans_append g1 k1, by simpa [kids, ha] using ShowsAll.cons _ _ _ _ g2 k2⟩
theorem htmlKids_shows {dbg : Str → Str} : ∀ {ns : List PNode} {out : Str},
    Ordinaries htmlDialect htmlSpecialName ns → htmlKids dbg .rest ns = .ok out →
    ∃ is, Scans out is ∧ ShowsAll htmlDialect ns is
  | [], out, _, h => by
    simp [htmlKids] at h; subst h
    exact ⟨[], scans_nil, .nil⟩
  | n :: ns, out, ho, h => by
    cases ho with
    | cons _ _ hn hs =>
    simp only [htmlKids, Res.bind_eq_ok, Res.ok.injEq] at h
    obtain ⟨a, h1, b, h2, rfl⟩ := h
    obtain ⟨is, g1, g2⟩ := html_shows hn (ordinary_lw hn) h1
    obtain ⟨js, k1, k2⟩ := htmlKids_shows hs h2
    exact ⟨is ++ js, scans_append g1 k1, .cons _ _ _ _ g2 k2⟩
end

/-! ## Nesting -/

theorem tagsOf_append (a b : List Item) : tagsOf (a ++ b) = tagsOf a ++ tagsOf b := by
  simp [tagsOf]

theorem tagsOf_chars (s : Str) : tagsOf (chars s) = [] := by
  induction s with
  | nil => rfl
  | cons c s ih => simpa [tagsOf, chars] using ih

theorem tagsOf_tag (b : Str) (is : List Item) : tagsOf (.tag b :: is) = b :: tagsOf is := by
  simp [tagsOf]

theorem nested_append {d : Dialect} {a b : List Str} (h : Nested d a) (h' : Nested d b) : Nested d (a ++ b) := by
  induction h with
  | nil => exact h'
  | elem body name as inner rest h1 h2 h3 _ _ ih =>
    have := Nested.elem body name as inner _ h1 h2 h3 ih
    simpa using this
  | void body name as rest h1 h2 _ ih => exact .void body name as _ h1 h2 ih
  | decl body rest h1 _ ih => exact .decl body _ h1 ih

mutual
theorem nested_shows {d : Dialect} : ∀ {n : PNode} {is : List Item}, Shows d n is → Nested d (tagsOf is)
  | _, _, .symbol n w t _ _ => by rw [tagsOf_chars]; exact .nil
  | _, _, .number n w t _ _ => by rw [tagsOf_chars]; exact .nil
  | _, _, .string n w t _ _ => by rw [tagsOf_chars]; exact .nil
  | _, _, .elem h ans kids as s e w ws body ws' inner h1 h2 h3 h4 h5 h6 => by
    rw [tagsOf_append, tagsOf_chars, tagsOf_tag, tagsOf_append, tagsOf_append, tagsOf_chars]
    have := Nested.elem body h.value as (tagsOf inner) [] h2 h3 (nested_showsAll h6) .nil
    simpa [tagsOf] using this
  | _, _, .void h ans as s e w ws body h1 h2 h3 h4 => by
    rw [tagsOf_append, tagsOf_chars, tagsOf_tag]
    exact .void body h.value as [] h2 h3 .nil
  | _, _, .decl h rest s e w ws body h1 h2 h3 => by
    rw [tagsOf_append, tagsOf_chars, tagsOf_tag]
    refine .decl body [] ?_ .nil
    cases hv : h.value with
    | nil => simp [hv, Starts] at h1
    | cons c t =>
      obtain ⟨r, rfl⟩ := h2
      rw [hv] at h1 ⊢
      exact h1
theorem nested_showsAll {d : Dialect} : ∀ {ns : List PNode} {is : List Item}, ShowsAll d ns is → Nested d (tagsOf is)
  | _, _, .nil => .nil
  | _, _, .cons n ns is js h hs => by
    rw [tagsOf_append]; exact nested_append (nested_shows h) (nested_showsAll hs)
end

end Seam

namespace Seam
open Spec

theorem broken_not_chars (s : Str) : Item.broken ∉ chars s := by simp [chars]

mutual
theorem shows_whole {d : Dialect} : ∀ {n : PNode} {is : List Item}, Shows d n is → Item.broken ∉ is
  | _, _, .symbol n w t _ _ => broken_not_chars _
  | _, _, .number n w t _ _ => broken_not_chars _
  | _, _, .string n w t _ _ => broken_not_chars _
  | _, _, .elem h ans kids as s e w ws body ws' inner h1 h2 h3 h4 h5 h6 => by
    have := showsAll_whole h6
    simp [broken_not_chars, this]
  | _, _, .void h ans as s e w ws body h1 h2 h3 h4 => by simp [broken_not_chars]
  | _, _, .decl h rest s e w ws body h1 h2 h3 => by simp [broken_not_chars]
theorem showsAll_whole {d : Dialect} : ∀ {ns : List PNode} {is : List Item}, ShowsAll d ns is → Item.broken ∉ is
  | _, _, .nil => by simp
  | _, _, .cons n ns is js h hs => by
    simp [shows_whole h, showsAll_whole hs]
end

end Seam
