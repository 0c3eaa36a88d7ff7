import Verif.Lemmas.Attr
import Verif.Lemmas.Html
import Verif.Lemmas.Written
import Verif.Spec.Dom

/-! # Reading the output back -/

namespace Seam
open Spec

/-- Reading the items `is` adds `ds` to what has been read. -/
def Builds (d : Dialect) (is : List Item) (ds : List Dom) : Prop :=
  ∀ os acc js, build d os acc (withoutEntities 0 (is ++ js)) = build d os (acc ++ ds) (withoutEntities 0 js)

theorem builds_nil {d : Dialect} : Builds d [] [] := fun os acc js => by simp

theorem builds_append {d : Dialect} {is js : List Item} {ds es : List Dom} (h : Builds d is ds) (h' : Builds d js es) :
    Builds d (is ++ js) (ds ++ es) := fun os acc ks => by
  rw [List.append_assoc, h, h', List.append_assoc]

theorem build_char {d : Dialect} (os : List Opened) (acc : List Dom) (c : Char) (is : List Item) :
    build d os acc (.char c :: is) = build d os (acc ++ [.char c]) is := by
  cases os <;> rw [build]

theorem textAhead_chars (s : Str) (js : List Item) : textAhead (chars s ++ js) = s ++ textAhead js := by
  induction s with
  | nil => rfl
  | cons c s ih => simpa [chars, textAhead] using ih

theorem builds_char {d : Dialect} {c : Char} (h : c ≠ '&') : Builds d [.char c] [.char c] := fun os acc js => by
  have hf : entities.find? (fun e => e.2.isPrefixOf (c :: textAhead js)) = none := by
    rw [List.find?_eq_none]
    intro e he hp
    obtain ⟨e', he'⟩ := entity_head (c := e.1) (e := e.2) he
    rw [he'] at hp
    simp only [List.isPrefixOf, Bool.and_eq_true, beq_iff_eq] at hp
    exact h hp.1.symm
  rw [List.singleton_append, withoutEntities, hf]
  exact build_char os acc c _

theorem passOver (s : Str) (js : List Item) : ∀ n, n = s.length → withoutEntities n (chars s ++ js) = withoutEntities 0 js := by
  induction s with
  | nil => rintro _ rfl; rfl
  | cons c s ih =>
    rintro _ rfl
    rw [List.length_cons]
    show withoutEntities (s.length + 1) (.char c :: (chars s ++ js)) = _
    rw [withoutEntities]
    exact ih _ rfl

theorem find_entity {c : Char} {e : Str} (h : (c, e) ∈ entities) (t : Str) :
    entities.find? (fun x => x.2.isPrefixOf (e ++ t)) = some (c, e) := by
  simp only [entities, List.mem_cons, List.not_mem_nil, or_false, Prod.mk.injEq] at h
  rcases h with ⟨rfl, rfl⟩ | ⟨rfl, rfl⟩ | ⟨rfl, rfl⟩ | ⟨rfl, rfl⟩ | ⟨rfl, rfl⟩ <;> rfl

theorem builds_entity {d : Dialect} {c : Char} {e : Str} (h : (c, e) ∈ entities) : Builds d (chars e) [.char c] := fun os acc js => by
  obtain ⟨e', rfl⟩ := entity_head h
  show build d os acc (withoutEntities 0 (.char '&' :: (chars e' ++ js))) = _
  rw [withoutEntities, textAhead_chars]
  have := find_entity h (textAhead js)
  rw [List.cons_append] at this
  rw [this]
  simp only
  rw [passOver e' js _ (by simp)]
  exact build_char os acc c _

theorem builds_plain {d : Dialect} : ∀ {s : Str}, '&' ∉ s → Builds d (chars s) (Dom.text s)
  | [], _ => builds_nil
  | c :: s, h => by
    have h1 : c ≠ '&' := by rintro rfl; simp at h
    exact builds_append (builds_char h1) (builds_plain (s := s) (by intro h2; exact h (by simp [h2])))

theorem builds_blanks {d : Dialect} {w : Str} (h : Blanks w) : Builds d (chars w) (Dom.text w) :=
  builds_plain fun hm => absurd (h _ hm) (by decide)

theorem builds_esc {d : Dialect} {t v : Str} (h : EscText t v) : Builds d (chars t) (Dom.text v) := by
  induction h with
  | nil => exact builds_nil
  | plain c t v hc _ ih => exact builds_append (builds_char (hc _ (by decide : ('&', str! "&amp;") ∈ entities))) ih
  | entity c e t v he _ ih =>
    have : chars (e ++ t) = chars e ++ chars t := by simp [chars]
    rw [this]
    exact builds_append (builds_entity he) ih

theorem build_tag {d : Dialect} (os : List Opened) (acc : List Dom) (c : Char) (body : Str) (is : List Item) (hc : c ≠ '/') :
    build d os acc (.tag (c :: body) :: is) =
      if d.decl c then build d os (acc ++ [.decl (c :: body)]) is
      else match readTag (c :: body) with
        | none => none
        | some (name, raw) =>
          if d.void name then build d os (acc ++ [.elem name (raw.map fun p => (p.1, decoded 0 p.2)) []]) is
          else build d ({ name := name, attrs := raw.map fun p => (p.1, decoded 0 p.2), before := acc } :: os) [] is := by
  rw [build]
  · cases readTag (c :: body) <;> cases hd : d.decl c <;> simp [hd]
  · rintro _ _ h; exact hc (List.cons.inj h).1
  · rintro _ _ _ _ h; exact hc (List.cons.inj h).1

theorem keep_tag (b : Str) (is : List Item) : withoutEntities 0 (.tag b :: is) = .tag b :: withoutEntities 0 is := by
  rw [withoutEntities]
  intro c h; cases h

theorem builds_decl {d : Dialect} {c : Char} {body : Str} (hc : c ≠ '/') (hd : d.decl c = true) :
    Builds d [.tag (c :: body)] [.decl (c :: body)] := fun os acc js => by
  rw [List.singleton_append, keep_tag, build_tag os acc c body _ hc, if_pos hd]

theorem builds_void {d : Dialect} {c : Char} {body name : Str} {raw : List (Str × Str)} (hc : c ≠ '/') (hd : d.decl c = false)
    (hr : readTag (c :: body) = some (name, raw)) (hv : d.void name = true) :
    Builds d [.tag (c :: body)] [.elem name (raw.map fun p => (p.1, decoded 0 p.2)) []] := fun os acc js => by
  rw [List.singleton_append, keep_tag, build_tag os acc c body _ hc, if_neg (by simp [hd]), hr]
  simp only [hv, if_true]

theorem build_close {d : Dialect} (o : Opened) (os : List Opened) (acc : List Dom) (is : List Item) :
    build d (o :: os) acc (.tag ('/' :: d.close o.name) :: is) = build d os (o.before ++ [.elem o.name o.attrs acc]) is := by
  rw [build, if_pos rfl]

theorem builds_elem {d : Dialect} {c : Char} {body name : Str} {raw : List (Str × Str)} {is : List Item} {ds : List Dom} (hc : c ≠ '/')
    (hd : d.decl c = false) (hr : readTag (c :: body) = some (name, raw)) (hv : d.void name = false) (hi : Builds d is ds) :
    Builds d (.tag (c :: body) :: (is ++ [.tag ('/' :: d.close name)]))
      [.elem name (raw.map fun p => (p.1, decoded 0 p.2)) ds] := fun os acc js => by
  rw [List.cons_append, keep_tag, build_tag os acc c body _ hc, if_neg (by simp [hd]), hr]
  simp only [hv, Bool.false_eq_true, if_false]
  rw [List.append_assoc, hi, List.nil_append, List.singleton_append, keep_tag]
  exact build_close _ os ds _

/-! ## Attributes -/

theorem noEntities_append {as bs : List PNode} : ∀ {ns : List PNode}, ns = as ++ bs → NoEntitiess ns → NoEntitiess as ∧ NoEntitiess bs := by
  induction as with
  | nil => rintro _ rfl h; exact ⟨.nil, h⟩
  | cons a as ih =>
    rintro _ rfl h
    cases h with
    | cons _ _ h1 h2 => exact ⟨.cons _ _ h1 (ih rfl h2).1, (ih rfl h2).2⟩

/-- How values are read: entities are replaced, or there are none. -/
def Values (f : Str → Str) (ns : List PNode) : Prop := f = decoded 0 ∨ f = id ∧ NoEntitiess ns

theorem values_cons {f : Str → Str} {n : PNode} {ns : List PNode} (h : Values f (n :: ns)) : Values f [n] ∧ Values f ns := by
  rcases h with h | ⟨h, h'⟩
  · exact ⟨.inl h, .inl h⟩
  · cases h' with
    | cons _ _ h1 h2 => exact ⟨.inr ⟨h, .cons _ _ h1 .nil⟩, .inr ⟨h, h2⟩⟩

theorem values_list {f : Str → Str} {n : PNode} {ns : List PNode} {s : Site} {e : Token} {w : Str} (h : Values f [.list (n :: ns) s e w]) :
    Values f ns := by
  rcases h with h | ⟨h, h'⟩
  · exact .inl h
  · cases h' with
    | cons _ _ h1 _ => cases h1 with | list _ _ _ _ h1 => cases h1 with | cons _ _ _ h2 => exact .inr ⟨h, h2⟩

theorem decoded_plain {ans : List PNode} {as : List (Str × Str)} (hg : GivesAttrs ans as) (h : NoEntitiess ans) :
    as.map (fun p => (p.1, decoded 0 p.2)) = as := by
  induction hg with
  | nil => rfl
  | cons k v a s w ns as ha _ ih =>
    cases h with
    | cons _ _ h1 h2 =>
      cases h1 with
      | attr _ _ _ _ h1 =>
        rw [List.map_cons, ih h2]
        simp only
        rw [(decoded_same a.value).2 (h1 a ha)]

theorem decoded_attrs {f : Str → Str} {ans bs ns : List PNode} {as : List (Str × Str)} (hg : GivesAttrs ans as) (hr : ns = ans ++ bs)
    (h : Values f ns) : as.map (fun p => (p.1, decoded 0 p.2)) = readValues f as := by
  rcases h with rfl | ⟨rfl, h⟩
  · rfl
  · rw [decoded_plain hg (noEntities_append hr h).1]
    simp [readValues]

theorem gives_isAttr {ans : List PNode} {as : List (Str × Str)} (h : GivesAttrs ans as) : ∀ n ∈ ans, n.isAttr = true := by
  induction h with
  | nil => simp
  | cons k v a s w ns as _ _ ih =>
    intro n hn
    rcases List.mem_cons.1 hn with rfl | hn
    · rfl
    · exact ih n hn

theorem kids_front (rest : List PNode) : ∀ n ∈ (kids rest).head?, NoAttr n := by
  intro n hn
  rw [noAttr_iff]
  unfold kids at hn
  cases h : rest.dropWhile PNode.isAttr with
  | nil => rw [h] at hn; cases hn
  | cons m ms =>
    rw [h] at hn
    cases hn
    have := List.head?_dropWhile_not PNode.isAttr rest
    rw [h] at this
    simpa using this

theorem domOf_setText {d : Dialect} {f : Str → Str} {n : PNode} {a : Node} (hn : n = .symbol a ∨ n = .number a ∨ n = .string a) (lw : Str) :
    DomOf d f (n.setLw lw) (Dom.text (lw ++ a.value)) := by
  have : n.setLw lw = .symbol { a with lw := lw } ∨ n.setLw lw = .number { a with lw := lw } ∨ n.setLw lw = .string { a with lw := lw } := by
    rcases hn with rfl | rfl | rfl <;> simp [PNode.setLw]
  exact DomOf.text _ { a with lw := lw } this

theorem text_append (a b : Str) : Dom.text (a ++ b) = Dom.text a ++ Dom.text b := by simp [Dom.text]

theorem text_reads {d : Dialect} {f : Str → Str} {n : PNode} {a : Node} {lw : Str} (hn : n = .symbol a ∨ n = .number a ∨ n = .string a) (hw : Blanks lw) :
    ∃ is ds, Scans (lw ++ escapeXml a.value) is ∧ Builds d is ds ∧ DomOf d f (n.setLw lw) ds := by
  refine ⟨_, _, scans_append (scans_blanks hw) (scans_esc (escapeXml_escText a.value)),
    builds_append (builds_blanks hw) (builds_esc (escapeXml_escText a.value)), ?_⟩
  rw [← text_append]
  exact domOf_setText hn lw

theorem elem_reads {d : Dialect} {f : Str → Str} {hd : Node} {rest ans ks : List PNode} {al : List (Str × Str)} {s : Site} {e : Token} {lw t cs g : Str}
    {is : List Item} {ds : List Dom} (hname : NameOk hd.value) (hdecl : ∀ c, nameChar c = true → d.decl c = false)
    (hclose : TagPart (d.close hd.value)) (hv : d.void hd.value = false) (hw : Blanks lw) (hg : Blanks g)
    (hr : rest = ans ++ ks) (hk : ks = kids rest) (g1 : GivesAttrs ans al) (g2 : TagPart t) (g3 : readAttrs .gap t = some al)
    (g4 : t = [] ∨ ∃ c r, t = c :: r ∧ blank c = true) (hne : Values f rest) (i1 : Scans cs is) (i2 : Builds d is ds)
    (i3 : DomsOf d f (adjustFirst (kids rest)) ds) (hcg : CloseGap (d.close hd.value) lw e (kids rest) g) :
    ∃ is' ds', Scans (lw ++ '<' :: (hd.value ++ t) ++ '>' :: cs ++ g ++ '<' :: '/' :: d.close hd.value ++ ['>']) is' ∧ Builds d is' ds' ∧
      DomOf d f (.list (.symbol hd :: rest) s e lw) ds' := by
  have ht := readTag_name hname g4 g3
  obtain ⟨c, b, hc, hc'⟩ := nameOk_front hname
  have hs := scans_append (scans_append (scans_append (scans_append (scans_blanks hw)
    (scans_tag (tagPart_append (name_tagPart hname) g2))) i1) (scans_blanks hg)) (scans_tag (slash_tagPart hclose))
  refine ⟨chars lw ++ .tag (hd.value ++ t) :: (is ++ (chars g ++ [.tag ('/' :: d.close hd.value)])),
    Dom.text lw ++ [.elem hd.value (readValues f al) (ds ++ Dom.text g)], ?_, ?_, ?_⟩
  · intro r
    have := hs r
    simp only [List.append_assoc, List.cons_append, List.nil_append] at this ⊢
    exact this
  · rw [hc, List.cons_append] at ht ⊢
    rw [← hc] at ht ⊢
    have := builds_append (builds_blanks hw) (builds_elem (nameChar_ne hc').2.2.2.2.2.1 (hdecl c hc') ht hv
      (builds_append i2 (builds_blanks hg)))
    rw [decoded_attrs g1 hr hne] at this
    simp only [List.append_assoc, List.cons_append, List.nil_append] at this ⊢
    exact this
  · subst hk
    rw [hr]
    have hkk : kids (ans ++ kids rest) = kids rest := by rw [← hr]
    rw [hkk] at *
    exact .elem hd ans (kids rest) _ s e lw g al ds hv g1 (kids_front rest) (settled_adjust _) i3 hcg

theorem decl_reads {d : Dialect} {f : Str → Str} {hd : Node} {rest : List PNode} {s : Site} {e : Token} {lw t : Str} (hs : Starts d.decl hd.value)
    (hslash : d.decl '/' = false) (h1 : TagPart (hd.value ++ t)) (hw : Blanks lw) :
    ∃ is' ds', Scans (lw ++ '<' :: (hd.value ++ t) ++ ['>']) is' ∧ Builds d is' ds' ∧
      DomOf d f (.list (.symbol hd :: rest) s e lw) ds' := by
  cases hv : hd.value with
  | nil => rw [hv] at hs; cases hs
  | cons c r =>
    rw [hv] at hs h1
    have hs' : d.decl c = true := hs
    have hc : c ≠ '/' := by rintro rfl; rw [hs'] at hslash; cases hslash
    refine ⟨_, _, by
      have := scans_append (scans_blanks hw) (scans_tag h1)
      simpa only [List.append_assoc, List.cons_append] using this,
      builds_append (builds_blanks hw) (builds_decl hc hs'), .decl hd rest s e lw _ (by rw [hv]; exact hs) ?_⟩
    rw [hv]
    exact ⟨t, rfl⟩

theorem void_reads {d : Dialect} {f : Str → Str} {hd : Node} {ans : List PNode} {al : List (Str × Str)} {s : Site} {e : Token} {lw t : Str}
    (hname : NameOk hd.value) (hdecl : ∀ c, nameChar c = true → d.decl c = false)
    (hv : d.void hd.value = true) (hw : Blanks lw) (g1 : GivesAttrs ans al) (g2 : TagPart t) (g3 : readAttrs .gap t = some al)
    (g4 : t = [] ∨ ∃ c r, t = c :: r ∧ blank c = true) (hne : Values f ans) :
    ∃ is' ds', Scans (lw ++ '<' :: (hd.value ++ t) ++ ['>']) is' ∧ Builds d is' ds' ∧
      DomOf d f (.list (.symbol hd :: ans) s e lw) ds' := by
  have ht := readTag_name hname g4 g3
  obtain ⟨c, b, hc, hc'⟩ := nameOk_front hname
  refine ⟨_, Dom.text lw ++ [.elem hd.value (readValues f al) []], by
      have := scans_append (scans_blanks hw) (scans_tag (tagPart_append (name_tagPart hname) g2))
      simpa only [List.append_assoc, List.cons_append] using this, ?_, .void hd ans s e lw al hv g1⟩
  rw [hc, List.cons_append] at ht ⊢
  rw [← hc] at ht ⊢
  have := builds_append (builds_blanks hw) (builds_void (nameChar_ne hc').2.2.2.2.2.1 (hdecl c hc') ht hv)
  rw [decoded_attrs g1 (bs := []) (by simp) hne] at this
  exact this

/-! ## XML -/

theorem adjust_cons (n : PNode) (ns : List PNode) : adjustFirst (n :: ns) = n.setLw (firstLw n.lw) :: ns := rfl

mutual
theorem xml_reads {sp : Str → Bool} {f : Str → Str} : ∀ {n : PNode} {lw out : Str}, Ordinary xmlDialect sp n → Values f [n] → Blanks lw →
    xmlNode lw n = .ok out → ∃ is ds, Scans out is ∧ Builds xmlDialect is ds ∧ DomOf xmlDialect f (n.setLw lw) ds
  | .symbol a, lw, out, _, _, hw, h => by
    simp [xmlNode] at h; subst h
    exact text_reads (.inl rfl) hw
  | .number a, lw, out, _, _, hw, h => by
    simp [xmlNode] at h; subst h
    exact text_reads (.inr (.inl rfl)) hw
  | .string a, lw, out, _, _, hw, h => by
    simp [xmlNode] at h; subst h
    exact text_reads (.inr (.inr rfl)) hw
  | .raw n, lw, out, ho, _, hw, h => by cases ho
  | .attr k v s w, lw, out, _, _, hw, h => by simp [xmlNode] at h
  | .list [] s e w, lw, out, _, _, hw, h => by simp [xmlNode] at h
  | .list (.number _ :: _) s e w, lw, out, _, _, hw, h => by simp [xmlNode] at h
  | .list (.string _ :: _) s e w, lw, out, _, _, hw, h => by simp [xmlNode] at h
  | .list (.raw _ :: _) s e w, lw, out, _, _, hw, h => by simp [xmlNode] at h
  | .list (.list _ _ _ _ :: _) s e w, lw, out, _, _, hw, h => by simp [xmlNode] at h
  | .list (.attr _ _ _ _ :: _) s e w, lw, out, _, _, hw, h => by simp [xmlNode] at h
  | .list (.symbol hd :: rest) s e w, lw, out, ho, hn, hw, h => by
    have hne := values_list hn
    cases ho with
    | elem _ _ _ _ _ hlw he hname hsp hrest =>
      obtain ⟨c, t, hv, hc⟩ := nameOk_front hname
      have hc' := nameChar_ne hc
      rw [xmlNode, hv] at h
      have hfr : (c == '!' || c == '?') = false := by simp [hc'.2.2.2.2.2.2.1, hc'.2.2.2.2.2.2.2]
      simp only [hfr, Bool.false_eq_true, if_false, Res.bind_eq_ok, Res.ok.injEq] at h
      rw [← hv] at h
      obtain ⟨as, h1, cs, h2, rfl⟩ := h
      obtain ⟨ans, ks, al, hr, hks, g1, g2, g3, g4⟩ := xmlAttrs_shows hrest h1
      obtain ⟨is, ds, i1, i2, i3⟩ := xmlLead_reads hrest hne h2
      have := elem_reads (d := xmlDialect) (s := s) hname
        (fun c hc => by have := nameChar_ne hc; simp [xmlDialect, this.2.2.2.2.2.2.1, this.2.2.2.2.2.2.2])
        (name_tagPart hname) rfl hw
        (closeWs_blanks (tag := hd.value) (b := firstOnNextLine (kids rest)) hw he) hr hks g1 g2 g3 g4 hne i1 i2 i3
        (closeWs_gap hd.value lw e (kids rest))
      simpa [xmlDialect, PNode.setLw] using this
    | decl _ _ _ _ _ hlw hstart hdc hrest =>
      rw [xmlNode] at h
      have hst := hstart
      cases hv : hd.value with
      | nil => rw [hv] at hstart; cases hstart
      | cons c t =>
        rw [hv] at h hst
        have hst : (c == '!' || c == '?') = true := hst
        simp only [hst, if_true, Res.bind_eq_ok, Res.ok.injEq] at h
        rw [← hv] at h
        obtain ⟨ds, h1, rfl⟩ := h
        have hb := tagPart_append (declChars_tagPart hdc) (xmlDecl_tagPart hrest h1)
        by_cases hq : c = '?'
        · have hb2 := tagPart_append hb (tagPart_plain (s := str! " ?") (by decide))
          rw [List.append_assoc] at hb2
          have := decl_reads (d := xmlDialect) (f := f) (rest := rest) (s := s) (e := e) hstart rfl hb2 hw
          simpa [PNode.setLw, hq] using this
        · have := decl_reads (d := xmlDialect) (f := f) (rest := rest) (s := s) (e := e) hstart rfl hb hw
          simpa [PNode.setLw, hq] using this
theorem xmlLead_reads {sp : Str → Bool} {f : Str → Str} : ∀ {ns : List PNode} {out : Str}, Ordinaries xmlDialect sp ns → Values f ns →
    xmlKids .lead ns = .ok out → ∃ is ds, Scans out is ∧ Builds xmlDialect is ds ∧ DomsOf xmlDialect f (adjustFirst (kids ns)) ds
  | [], out, _, _, h => by
    simp [xmlKids] at h; subst h
    exact ⟨[], [], scans_nil, builds_nil, .nil⟩
  | n :: ns, out, ho, hn, h => by
    cases ho with
    | cons _ _ ho hos =>
    obtain ⟨hn, hns⟩ := values_cons hn
    rw [xmlKids] at h
    split at h
    · rename_i ha
      obtain ⟨is, ds, h1, h2, h3⟩ := xmlLead_reads hos hns h
      exact ⟨is, ds, h1, h2, by simpa [kids, ha] using h3⟩
    · rename_i ha
      simp only [Res.bind_eq_ok, Res.ok.injEq] at h
      obtain ⟨a, h1, b, h2, rfl⟩ := h
      obtain ⟨is, ds, g1, g2, g3⟩ := xml_reads ho hn (firstLw_blanks (ordinary_lw ho)) h1
      obtain ⟨js, es, k1, k2, k3⟩ := xmlRest_reads hos hns h2
      refine ⟨is ++ js, ds ++ es, scans_append g1 k1, builds_append g2 k2, ?_⟩
      have : kids (n :: ns) = n :: ns := by simp [kids, ha]
      rw [this, adjust_cons]
      exact .cons _ _ _ _ g3 k3
theorem xmlRest_reads {sp : Str → Bool} {f : Str → Str} : ∀ {ns : List PNode} {out : Str}, Ordinaries xmlDialect sp ns → Values f ns →
    xmlKids .rest ns = .ok out → ∃ is ds, Scans out is ∧ Builds xmlDialect is ds ∧ DomsOf xmlDialect f ns ds
  | [], out, _, _, h => by
    simp [xmlKids] at h; subst h
    exact ⟨[], [], scans_nil, builds_nil, .nil⟩
  | n :: ns, out, ho, hn, h => by
    cases ho with
    | cons _ _ ho hos =>
    obtain ⟨hn, hns⟩ := values_cons hn
    simp only [xmlKids, Res.bind_eq_ok, Res.ok.injEq] at h
    obtain ⟨a, h1, b, h2, rfl⟩ := h
    obtain ⟨is, ds, g1, g2, g3⟩ := xml_reads ho hn (ordinary_lw ho) h1
    obtain ⟨js, es, k1, k2, k3⟩ := xmlRest_reads hos hns h2
    rw [setLw_own] at g3
    exact ⟨is ++ js, ds ++ es, scans_append g1 k1, builds_append g2 k2, .cons _ _ _ _ g3 k3⟩
end

/-! ## HTML -/

mutual
theorem html_reads {dbg f : Str → Str} : ∀ {n : PNode} {lw out : Str}, Ordinary htmlDialect htmlSpecialName n → Values f [n] →
    Blanks lw → htmlNode dbg lw n = .ok out → ∃ is ds, Scans out is ∧ Builds htmlDialect is ds ∧ DomOf htmlDialect f (n.setLw lw) ds
  | .symbol a, lw, out, _, _, hw, h => by
    simp [htmlNode] at h; subst h
    exact text_reads (.inl rfl) hw
  | .number a, lw, out, _, _, hw, h => by
    simp [htmlNode] at h; subst h
    exact text_reads (.inr (.inl rfl)) hw
  | .string a, lw, out, _, _, hw, h => by
    simp [htmlNode] at h; subst h
    exact text_reads (.inr (.inr rfl)) hw
  | .raw n, lw, out, ho, _, hw, h => by cases ho
  | .attr k v s w, lw, out, _, _, hw, h => by simp [htmlNode] at h
  | .list [] s e w, lw, out, _, _, hw, h => by simp [htmlNode] at h
  | .list (.number _ :: _) s e w, lw, out, _, _, hw, h => by simp [htmlNode] at h
  | .list (.string _ :: _) s e w, lw, out, _, _, hw, h => by simp [htmlNode] at h
  | .list (.raw _ :: _) s e w, lw, out, _, _, hw, h => by simp [htmlNode] at h
  | .list (.list _ _ _ _ :: _) s e w, lw, out, _, _, hw, h => by simp [htmlNode] at h
  | .list (.attr _ _ _ _ :: _) s e w, lw, out, _, _, hw, h => by simp [htmlNode] at h
  | .list (.symbol hd :: rest) s e w, lw, out, ho, hn, hw, h => by
    have hne := values_list hn
    have hdecl : ∀ c, nameChar c = true → htmlDialect.decl c = false := fun c hc => by
      have := nameChar_ne hc; simp [htmlDialect, this.2.2.2.2.2.2.1]
    cases ho with
    | elem _ _ _ _ _ hlw he hname hsp hrest =>
      obtain ⟨c, t, hv, hc⟩ := nameOk_front hname
      have hc' := nameChar_ne hc
      have hlow : lower hd.value = lowerChar c :: lower t := by rw [hv]; rfl
      have hbang : (lowerChar c == '!') = false := by
        rw [beq_eq_false_iff_ne, Ne, lowerChar_eq_iff (by decide)]; exact hc'.2.2.2.2.2.2.1
      rw [htmlNode] at h
      rw [hlow] at h
      simp only [hbang, Bool.false_eq_true, if_false] at h
      rw [← hlow] at h
      rw [Res.bind_eq_ok] at h
      obtain ⟨as, h1, h⟩ := h
      obtain ⟨ans, ks, al, hr, hks, g1, g2, g3, g4⟩ := htmlAttrs_shows hrest h1
      have hvoid : binarySearch voidElements (lower hd.value) = htmlDialect.void hd.value := void_iff _
      rw [hvoid] at h
      cases hvd : htmlDialect.void hd.value with
      | true =>
        simp only [hvd, if_true] at h
        split at h
        · cases h
        · rename_i hk
          cases h
          rw [hk] at hks
          subst hks
          simp only [List.append_nil] at hr
          subst hr
          have := void_reads (d := htmlDialect) (s := s) (e := e) hname hdecl hvd hw g1 g2 g3 g4 hne
          simpa [PNode.setLw] using this
      | false =>
        have hspec : htmlSpecial (lower hd.value) = false := hsp
        simp only [hvd, hspec, Bool.false_eq_true, if_false, Res.bind_eq_ok, Res.ok.injEq] at h
        obtain ⟨cs, h2, rfl⟩ := h
        obtain ⟨is, ds, i1, i2, i3⟩ := htmlLead_reads hrest hne h2
        have := elem_reads (d := htmlDialect) (s := s) hname hdecl (lower_name hname) hvd hw
          (closeWs_blanks (tag := lower hd.value) (b := firstOnNextLine (kids rest)) hw he) hr hks g1 g2 g3 g4 hne i1 i2 i3
          (closeWs_gap (lower hd.value) lw e (kids rest))
        simpa [htmlDialect, lower, PNode.setLw] using this
    | decl _ _ _ _ _ hlw hstart hdc hrest =>
      cases hv : hd.value with
      | nil => rw [hv] at hstart; cases hstart
      | cons c t =>
        have hst := hstart
        rw [hv] at hst
        have hst : (c == '!') = true := hst
        have hlow : lower hd.value = lowerChar c :: lower t := by rw [hv]; rfl
        have hbang : (lowerChar c == '!') = true := by
          rw [beq_iff_eq] at hst ⊢
          rw [lowerChar_eq_iff (by decide)]; exact hst
        rw [htmlNode] at h
        rw [hlow] at h
        simp only [hbang, if_true, Res.bind_eq_ok, Res.ok.injEq] at h
        obtain ⟨ds, h1, rfl⟩ := h
        have hb := tagPart_append (declChars_tagPart hdc) (htmlDecl_tagPart hrest h1)
        have := decl_reads (d := htmlDialect) (f := f) (rest := rest) (s := s) (e := e) hstart rfl hb hw
        simpa [PNode.setLw] using this
theorem htmlLead_reads {dbg f : Str → Str} : ∀ {ns : List PNode} {out : Str}, Ordinaries htmlDialect htmlSpecialName ns → Values f ns →
    htmlKids dbg .lead ns = .ok out → ∃ is ds, Scans out is ∧ Builds htmlDialect is ds ∧ DomsOf htmlDialect f (adjustFirst (kids ns)) ds
  | [], out, _, _, h => by
    simp [htmlKids] at h; subst h
    exact ⟨[], [], scans_nil, builds_nil, .nil⟩
  | n :: ns, out, ho, hn, h => by
    cases ho with
    | cons _ _ ho hos =>
    obtain ⟨hn, hns⟩ := values_cons hn
    rw [htmlKids] at h
    split at h
    · rename_i ha
      obtain ⟨is, ds, h1, h2, h3⟩ := htmlLead_reads hos hns h
      exact ⟨is, ds, h1, h2, by simpa [kids, ha] using h3⟩
    · rename_i ha
      simp only [Res.bind_eq_ok, Res.ok.injEq] at h
      obtain ⟨a, h1, b, h2, rfl⟩ := h
      obtain ⟨is, ds, g1, g2, g3⟩ := html_reads ho hn (firstLw_blanks (ordinary_lw ho)) h1
      obtain ⟨js, es, k1, k2, k3⟩ := htmlRest_reads hos hns h2
      refine ⟨is ++ js, ds ++ es, scans_append g1 k1, builds_append g2 k2, ?_⟩
      have : kids (n :: ns) = n :: ns := by simp [kids, ha]
      rw [this, adjust_cons]
      exact .cons _ _ _ _ g3 k3
theorem htmlRest_reads {dbg f : Str → Str} : ∀ {ns : List PNode} {out : Str}, Ordinaries htmlDialect htmlSpecialName ns → Values f ns →
    htmlKids dbg .rest ns = .ok out → ∃ is ds, Scans out is ∧ Builds htmlDialect is ds ∧ DomsOf htmlDialect f ns ds
  | [], out, _, _, h => by
    simp [htmlKids] at h; subst h
    exact ⟨[], [], scans_nil, builds_nil, .nil⟩
  | n :: ns, out, ho, hn, h => by
    cases ho with
    | cons _ _ ho hos =>
    obtain ⟨hn, hns⟩ := values_cons hn
    simp only [htmlKids, Res.bind_eq_ok, Res.ok.injEq] at h
    obtain ⟨a, h1, b, h2, rfl⟩ := h
    obtain ⟨is, ds, g1, g2, g3⟩ := html_reads ho hn (ordinary_lw ho) h1
    obtain ⟨js, es, k1, k2, k3⟩ := htmlRest_reads hos hns h2
    rw [setLw_own] at g3
    exact ⟨is ++ js, ds ++ es, scans_append g1 k1, builds_append g2 k2, .cons _ _ _ _ g3 k3⟩
end

theorem reads_all {d : Dialect} {out : Str} {is : List Item} {ds : List Dom} (h1 : Scans out is) (h2 : Builds d is ds) :
    readMarkup d out = some ds := by
  have e1 := h1 []
  simp only [List.append_nil, scan] at e1
  have e2 := h2 [] [] []
  simp only [List.append_nil, List.nil_append] at e2
  unfold readMarkup
  rw [e1, e2]
  rfl

end Seam
