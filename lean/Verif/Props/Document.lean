import Verif.Props.Markup
import Verif.Lemmas.Attr

/-! # Attributes, documents, raw and preformatted text, failures (C22–C28) -/

namespace Seam
open Spec

/-! ## C22 -/

theorem attrs_read : ∀ {ans : List PNode} {as : List (Str × Str)} (ws : List Str), GivesAttrs ans as → ws.length = as.length →
    (∀ w ∈ ws, Blanks w) → (∀ p ∈ as, NameOk p.1 ∧ '"' ∉ p.2) →
    TagPart ((List.zip ws as).flatMap fun p => attrText p.1 p.2.1 p.2.2) ∧
    readAttrs .gap ((List.zip ws as).flatMap fun p => attrText p.1 p.2.1 p.2.2) = some as ∧
    (as ≠ [] → ∃ c r, ((List.zip ws as).flatMap fun p => attrText p.1 p.2.1 p.2.2) = c :: r ∧ blank c = true)
  | [], _, ws, .nil, _, _, _ => by
    rw [List.zip_nil_right]
    exact ⟨tagPart_nil, rfl, by simp⟩
  | _ :: _, _, [], .cons .., hl, _, _ => by simp at hl
  | _ :: _, _, w :: ws, .cons k v a s w' ns as hat hs, hl, hb, ho => by
    obtain ⟨h1, h2, h3⟩ := attrs_read ws hs (by simpa using hl) (fun w hw => hb w (by simp [hw])) (fun p hp => ho p (by simp [hp]))
    obtain ⟨hk, hq⟩ := ho (k, a.value) (by simp)
    have hgap : ∃ c g, (if w = [] then [' '] else w) = c :: g ∧ Blanks (c :: g) := by
      cases w with
      | nil => exact ⟨' ', [], rfl, by intro c hc; simp at hc; subst hc; decide⟩
      | cons c g => exact ⟨c, g, rfl, hb _ (by simp)⟩
    obtain ⟨c, g, hg, hbb⟩ := hgap
    simp only [List.zip_cons_cons, List.flatMap_cons]
    have g1 := tagPart_attr hbb hk hq
    have g2 := readAttrs_attr hbb hk hq ((List.zip ws as).flatMap fun p => attrText p.1 p.2.1 p.2.2)
    refine ⟨?_, ?_, fun _ => ?_⟩
    · refine tagPart_append ?_ h1
      unfold attrText
      rw [hg]
      simpa using g1
    · rw [h2] at g2
      unfold attrText at g2 ⊢
      rw [hg]
      simpa using g2
    · unfold attrText
      rw [hg]
      exact ⟨c, _, rfl, hbb c (by simp)⟩

theorem gives_mem {ans : List PNode} {as : List (Str × Str)} (h : GivesAttrs ans as) :
    ans.length = as.length ∧ ∀ p ∈ as, ∃ v a s w, PNode.attr p.1 v s w ∈ ans ∧ IsAtom v a ∧ a.value = p.2 := by
  induction h with
  | nil => simp
  | cons k v a s w ns as hat _ ih =>
    refine ⟨by simp [ih.1], ?_⟩
    intro p hp
    rcases List.mem_cons.1 hp with rfl | hp
    · exact ⟨v, a, s, w, by simp, hat, rfl⟩
    · obtain ⟨v, a, s, w, h1, h2, h3⟩ := ih.2 p hp
      exact ⟨v, a, s, w, by simp [h1], h2, h3⟩

theorem gives_attr {ans : List PNode} {as : List (Str × Str)} (h : GivesAttrs ans as) :
    ∀ n ∈ ans, ∃ k v s w, n = .attr k v s w := by
  induction h with
  | nil => simp
  | cons k v a s w ns as hat _ ih =>
    intro n hn
    rcases List.mem_cons.1 hn with rfl | hn
    · exact ⟨k, v, s, w, rfl⟩
    · exact ih n hn

theorem xmlAttrs_text : ∀ {rest : List PNode} {t : Str}, xmlAttrs rest = .ok t →
    ∃ ans as ks, rest = ans ++ ks ∧ ks = kids rest ∧ GivesAttrs ans as ∧
      t = (List.zip (ans.map fun _ => []) as).flatMap fun p => attrText p.1 p.2.1 p.2.2
  | [], t, h => by
    simp [xmlAttrs] at h
    exact ⟨[], [], [], rfl, rfl, .nil, by simp [h]⟩
  | n :: rest, t, h => by
    cases n with
    | attr k v s w =>
      simp only [xmlAttrs, xmlAttr] at h
      cases hv : v.atomic? with
      | none => simp [hv] at h
      | some a =>
        simp only [hv, Res.ok_bind, Res.bind_eq_ok, Res.ok.injEq] at h
        obtain ⟨t', h1, rfl⟩ := h
        obtain ⟨ans, as, ks, rfl, h3, h4, rfl⟩ := xmlAttrs_text h1
        refine ⟨.attr k v s w :: ans, (k, a.value) :: as, ks, rfl, ?_, .cons _ _ _ _ _ _ _ (isAtom_iff.1 hv) h4, ?_⟩
        · have : ∀ l, kids (.attr k v s w :: l) = kids l := fun l => rfl
          rw [this]; exact h3
        · simp [attrText]
    | _ =>
      simp [xmlAttrs] at h
      subst h
      exact ⟨[], [], _, rfl, by simp [kids, PNode.isAttr, PNode.attribute?], .nil, rfl⟩

/-- C22 is false: the value of `title` in the source `(p :title """x" onclick="y""")` is
`x" onclick="y`, but a reader of the generated HTML (and XML) sees two attributes. -/
theorem C22_attributes_false : ∃ (b : Buf) (ns : List PNode) (h : Node) (v : Node) (s s' : Site) (e : Token) (w w' out : Str)
    (body : Str), parse some b = .ok ns ∧ b.code = str! "(p :title \"\"\"x\" onclick=\"y\"\"\")" ∧
      ns = [.list [.symbol h, .attr (str! "title") (.string v) s' w'] s e w] ∧ v.value = str! "x\" onclick=\"y" ∧
      htmlGenerate id ns = .ok out ∧ xmlGenerate ns = .ok out ∧ scan .text out = [.tag body, .tag (str! "/p")] ∧
      readTag body = some (str! "p", [(str! "title", str! "x"), (str! "onclick", str! "y")]) := by
  obtain ⟨ns, h1, h2⟩ := Res.okP_elim (r := parse some { path := [], id := 1, code := str! "(p :title \"\"\"x\" onclick=\"y\"\"\")" })
    (p := fun ns => match ns with
      | [.list [.symbol h, .attr k (.string v) s' w'] s e w] =>
        decide (k = str! "title") && decide (v.value = str! "x\" onclick=\"y") &&
        decide (htmlGenerate id [.list [.symbol h, .attr k (.string v) s' w'] s e w] = .ok (str! "<p title=\"x\" onclick=\"y\"></p>")) &&
        decide (xmlGenerate [.list [.symbol h, .attr k (.string v) s' w'] s e w] = .ok (str! "<p title=\"x\" onclick=\"y\"></p>"))
      | _ => false) (by decide +kernel)
  split at h2
  · rename_i h k v s' w' s e w
    simp only [Bool.and_eq_true, decide_eq_true_eq] at h2
    obtain ⟨⟨⟨rfl, h3⟩, h4⟩, h5⟩ := h2
    exact ⟨_, _, h, v, s, s', e, w, w', _, str! "p title=\"x\" onclick=\"y\"", h1, rfl, rfl, h3, h4, h5, by decide +kernel,
      by decide +kernel⟩
  · cases h2

/-- C22 as far as it holds, for HTML: if names are names and the values contain no
double quotes, then the opening tag reads back with exactly the attributes given. 
Missing: values with double quotes (they are not escaped; nor is `&`). -/
theorem C22_html_attributes_partial (dbg : Str → Str) (h : Node) (rest : List PNode) (s : Site) (e : Token) (w out : Str)
    (hw : Blanks w) (hn : NameOk h.value)
    (ha : ∀ k v s w, PNode.attr k v s w ∈ rest → NameOk k ∧ Blanks w ∧ ∀ a, IsAtom v a → '"' ∉ a.value)
    (ho : htmlGenerate dbg [.list (.symbol h :: rest) s e w] = .ok out) :
    ∃ ans ks as body tail, rest = ans ++ ks ∧ GivesAttrs ans as ∧ (∀ n ∈ ks.head?, n.isAttr = false) ∧
      out = w ++ '<' :: body ++ '>' :: tail ∧ scan .text out = chars w ++ .tag body :: scan .text tail ∧
      readTag body = some (h.value, as) := by
  have ⟨c0, r0, hc0, hc1⟩ := nameOk_front hn
  unfold htmlGenerate at ho
  simp only [htmlKids, Res.bind_eq_ok, Res.ok.injEq, exists_eq_left', List.append_nil] at ho
  obtain ⟨out', ho, rfl⟩ := ho
  rw [htmlNode] at ho
  split at ho
  · cases ho
  · rename_i front t hl
    have hfr : (front == '!') = false := by
      rw [beq_eq_false_iff_ne]
      rintro rfl
      rw [hc0] at hl
      have h1 : lowerChar c0 = '!' := by simpa [lower] using congrArg List.head? hl
      rw [lowerChar_eq_iff (by decide)] at h1
      exact (nameChar_ne hc1).2.2.2.2.2.2.1 h1
    rw [hfr] at ho
    simp only [Bool.false_eq_true, if_false, Res.bind_eq_ok] at ho
    obtain ⟨t', h1, ho⟩ := ho
    obtain ⟨ans, as, ks, h2, h3, h4, h5, h6⟩ := htmlAttrs_text h1
    have hm := gives_mem h4
    obtain ⟨g1, g2, g3⟩ := attrs_read (ans.map PNode.lw) h4 (by simpa using hm.1) (by
        intro w hw
        obtain ⟨n, hn, rfl⟩ := List.mem_map.1 hw
        obtain ⟨k, v, s, w, rfl⟩ := gives_attr h4 n hn
        exact (ha k v s w (by rw [h2]; simp [hn])).2.1) (by
        intro p hp
        obtain ⟨v, a, s, w, hx, hy, hz⟩ := hm.2 p hp
        have := ha p.1 v s w (by rw [h2]; simp [hx])
        exact ⟨this.1, hz ▸ this.2.2 a hy⟩)
    rw [← h6] at g1 g2 g3
    have hread : readTag (h.value ++ t') = some (h.value, as) := by
      refine readTag_name hn ?_ g2
      by_cases has : as = []
      · left
        rw [h6, has]
        simp
      · exact Or.inr (g3 has)
    have fin : ∀ tail, out' = w ++ '<' :: h.value ++ t' ++ '>' :: tail →
        ∃ ans ks as body tail, rest = ans ++ ks ∧ GivesAttrs ans as ∧ (∀ n ∈ ks.head?, n.isAttr = false) ∧
          out' = w ++ '<' :: body ++ '>' :: tail ∧ scan .text out' = chars w ++ .tag body :: scan .text tail ∧
          readTag body = some (h.value, as) := by
      intro tail ht
      refine ⟨ans, ks, as, h.value ++ t', tail, h2, h4, h5, by rw [ht]; simp, ?_, hread⟩
      rw [ht]
      have e1 : w ++ '<' :: h.value ++ t' ++ '>' :: tail = (w ++ ('<' :: (h.value ++ t') ++ ['>'])) ++ tail := by simp
      rw [e1, scans_append (scans_blanks hw) (scans_tag (tagPart_append (name_tagPart hn) g1)) tail]
      simp
    split at ho
    · split at ho
      · cases ho
      · cases ho
        exact fin [] rfl
    · split at ho
      · simp only [Res.bind_eq_ok, Res.ok.injEq] at ho
        obtain ⟨cs, _, rfl⟩ := ho
        exact fin (cs ++ (closeWs (lower h.value) w e (firstOnNextLine (kids rest)) ++ (str! "</" ++ (lower h.value ++ ['>']))))
          (by simp [PNode.lw])
      · simp only [Res.bind_eq_ok, Res.ok.injEq] at ho
        obtain ⟨cs, _, rfl⟩ := ho
        exact fin (cs ++ (closeWs (lower h.value) w e (firstOnNextLine (kids rest)) ++ (str! "</" ++ (lower h.value ++ ['>']))))
          (by simp [PNode.lw])

/-- C22 as far as it holds, for XML. -/
theorem C22_xml_attributes_partial (h : Node) (rest : List PNode) (s : Site) (e : Token) (w out : Str)
    (hw : Blanks w) (hn : NameOk h.value)
    (ha : ∀ k v s w, PNode.attr k v s w ∈ rest → NameOk k ∧ ∀ a, IsAtom v a → '"' ∉ a.value)
    (ho : xmlGenerate [.list (.symbol h :: rest) s e w] = .ok out) :
    ∃ ans ks as body tail, rest = ans ++ ks ∧ GivesAttrs ans as ∧
      out = w ++ '<' :: body ++ '>' :: tail ∧ scan .text out = chars w ++ .tag body :: scan .text tail ∧
      readTag body = some (h.value, as) := by
  have ⟨c0, r0, hc0, hc1⟩ := nameOk_front hn
  unfold xmlGenerate at ho
  simp only [xmlKids, Res.bind_eq_ok, Res.ok.injEq, exists_eq_left', List.append_nil] at ho
  obtain ⟨out', ho, rfl⟩ := ho
  rw [xmlNode] at ho
  rw [hc0] at ho
  simp only at ho
  have hfr : (c0 == '!' || c0 == '?') = false := by
    have := nameChar_ne hc1
    simp [this.2.2.2.2.2.2.1, this.2.2.2.2.2.2.2]
  rw [hfr] at ho
  simp only [Bool.false_eq_true, if_false, Res.bind_eq_ok, Res.ok.injEq] at ho
  obtain ⟨t', h1, cs, _, rfl⟩ := ho
  rw [← hc0]
  obtain ⟨ans, as, ks, h2, h3, h4, h6⟩ := xmlAttrs_text h1
  have hm := gives_mem h4
  obtain ⟨g1, g2, g3⟩ := attrs_read (ans.map fun _ => []) h4 (by simpa using hm.1) (by
      intro w hw
      obtain ⟨n, hn, rfl⟩ := List.mem_map.1 hw
      intro c hc
      cases hc) (by
      intro p hp
      obtain ⟨v, a, s, w, hx, hy, hz⟩ := hm.2 p hp
      have := ha p.1 v s w (by rw [h2]; simp [hx])
      exact ⟨this.1, hz ▸ this.2 a hy⟩)
  rw [← h6] at g1 g2 g3
  have hread : readTag (h.value ++ t') = some (h.value, as) := by
    refine readTag_name hn ?_ g2
    by_cases has : as = []
    · left
      rw [h6, has]
      simp
    · exact Or.inr (g3 has)
  refine ⟨ans, ks, as, h.value ++ t', cs ++ (closeWs h.value w e (firstOnNextLine (kids rest)) ++ (str! "</" ++ (h.value ++ ['>']))),
    h2, h4, by simp [PNode.lw], ?_, hread⟩
  have e1 : ∀ tail, w ++ '<' :: h.value ++ t' ++ ['>'] ++ tail = (w ++ ('<' :: (h.value ++ t') ++ ['>'])) ++ tail := by simp
  have := scans_append (scans_blanks hw) (scans_tag (tagPart_append (name_tagPart hn) g1))
    (cs ++ (closeWs h.value w e (firstOnNextLine (kids rest)) ++ (str! "</" ++ (h.value ++ ['>']))))
  simpa [PNode.lw] using this

/-- The paragraph of `pageTree`. -/
example : NameOk ['p'] ∧ (∀ k v s w, PNode.attr k v s w ∈ [exAttr (str! "class") (exStr ['a'] [' ']), exStr (str! "<b>") [' ']] →
    NameOk k ∧ Blanks w ∧ ∀ a, IsAtom v a → '"' ∉ a.value) ∧
    htmlGenerate id [exList [exSym ['p'], exAttr (str! "class") (exStr ['a'] [' ']), exStr (str! "<b>") [' ']]] =
      .ok (str! "<p class=\"a\">&lt;b&gt;</p>") := by
  refine ⟨nameOk_dec (by decide), ?_, by decide +kernel⟩
  intro k v s w hm
  simp only [exAttr, exStr, List.mem_cons, List.not_mem_nil, or_false, PNode.attr.injEq, reduceCtorEq] at hm
  obtain ⟨rfl, rfl, _, rfl⟩ := hm
  refine ⟨nameOk_dec (by decide), blanks_dec (by decide), ?_⟩
  rintro a (h | h | h | h) <;> cases h
  decide

theorem gives_split : ∀ {ans ans' : List PNode} {as as' : List (Str × Str)} {ks ks' : List PNode}, GivesAttrs ans as →
    GivesAttrs ans' as' → (∀ n ∈ ks.head?, n.isAttr = false) → (∀ n ∈ ks'.head?, n.isAttr = false) →
    ans ++ ks = ans' ++ ks' → ans = ans' ∧ as = as' ∧ ks = ks'
  | [], [], _, _, _, _, .nil, .nil, _, _, h => ⟨rfl, rfl, h⟩
  | [], _ :: _, _, _, ks, _, .nil, .cons .., h1, _, h => by
    simp only [List.nil_append] at h
    subst h
    simp [PNode.isAttr, PNode.attribute?] at h1
  | _ :: _, [], _, _, ks, _, .cons .., .nil, _, h2, h => by
    simp only [List.nil_append] at h
    subst h
    simp [PNode.isAttr, PNode.attribute?] at h2
  | _ :: _, _ :: _, _, _, ks, _, .cons k v a s w ns as hv hs, .cons k' v' a' s' w' ns' as' hv' hs', h1, h2, h => by
    simp only [List.cons_append, List.cons.injEq, PNode.attr.injEq] at h
    obtain ⟨⟨rfl, rfl, rfl, rfl⟩, h⟩ := h
    obtain ⟨rfl, rfl, rfl⟩ := gives_split hs hs' h1 h2 h
    have : a = a' := by
      have := (isAtom_iff.2 hv).symm.trans (isAtom_iff.2 hv')
      exact Option.some.inj this
    subst this
    exact ⟨rfl, rfl, rfl⟩

theorem html_opening (dbg : Str → Str) (h : Node) (rest : List PNode) (s : Site) (e : Token) (w out : Str)
    (hn : NameOk h.value) (ho : htmlGenerate dbg [.list (.symbol h :: rest) s e w] = .ok out) :
    ∃ ans ks as tail, rest = ans ++ ks ∧ GivesAttrs ans as ∧ (∀ n ∈ ks.head?, n.isAttr = false) ∧
      out = w ++ '<' :: (h.value ++ (List.zip (ans.map PNode.lw) as).flatMap fun p => attrText p.1 p.2.1 p.2.2) ++ '>' :: tail := by
  have ⟨c0, r0, hc0, hc1⟩ := nameOk_front hn
  unfold htmlGenerate at ho
  simp only [htmlKids, Res.bind_eq_ok, Res.ok.injEq, exists_eq_left', List.append_nil] at ho
  obtain ⟨out', ho, rfl⟩ := ho
  rw [htmlNode] at ho
  split at ho
  · cases ho
  · rename_i front t hl
    have hfr : (front == '!') = false := by
      rw [beq_eq_false_iff_ne]
      rintro rfl
      rw [hc0] at hl
      have h1 : lowerChar c0 = '!' := by simpa [lower] using congrArg List.head? hl
      rw [lowerChar_eq_iff (by decide)] at h1
      exact (nameChar_ne hc1).2.2.2.2.2.2.1 h1
    rw [hfr] at ho
    simp only [Bool.false_eq_true, if_false, Res.bind_eq_ok] at ho
    obtain ⟨t', h1, ho⟩ := ho
    obtain ⟨ans, as, ks, h2, h3, h4, h5, h6⟩ := htmlAttrs_text h1
    have fin : ∀ tail, out' = w ++ '<' :: h.value ++ t' ++ '>' :: tail →
        ∃ ans ks as tail, rest = ans ++ ks ∧ GivesAttrs ans as ∧ (∀ n ∈ ks.head?, n.isAttr = false) ∧
          out' = w ++ '<' :: (h.value ++ (List.zip (ans.map PNode.lw) as).flatMap fun p => attrText p.1 p.2.1 p.2.2) ++ '>' :: tail := by
      intro tail ht
      exact ⟨ans, ks, as, tail, h2, h4, h5, by rw [ht, ← h6]; simp⟩
    split at ho
    · split at ho
      · cases ho
      · cases ho
        exact fin [] rfl
    · split at ho
      · simp only [Res.bind_eq_ok, Res.ok.injEq] at ho
        obtain ⟨cs, _, rfl⟩ := ho
        exact fin (cs ++ (closeWs (lower h.value) w e (firstOnNextLine (kids rest)) ++ (str! "</" ++ (lower h.value ++ ['>']))))
          (by simp [PNode.lw])
      · simp only [Res.bind_eq_ok, Res.ok.injEq] at ho
        obtain ⟨cs, _, rfl⟩ := ho
        exact fin (cs ++ (closeWs (lower h.value) w e (firstOnNextLine (kids rest)) ++ (str! "</" ++ (lower h.value ++ ['>']))))
          (by simp [PNode.lw])

theorem xml_opening (h : Node) (rest : List PNode) (s : Site) (e : Token) (w out : Str)
    (hn : NameOk h.value) (ho : xmlGenerate [.list (.symbol h :: rest) s e w] = .ok out) :
    ∃ ans ks as tail, rest = ans ++ ks ∧ GivesAttrs ans as ∧ (∀ n ∈ ks.head?, n.isAttr = false) ∧
      out = w ++ '<' :: (h.value ++ (List.zip (ans.map fun _ => []) as).flatMap fun p => attrText p.1 p.2.1 p.2.2) ++ '>' :: tail := by
  have ⟨c0, r0, hc0, hc1⟩ := nameOk_front hn
  unfold xmlGenerate at ho
  simp only [xmlKids, Res.bind_eq_ok, Res.ok.injEq, exists_eq_left', List.append_nil] at ho
  obtain ⟨out', ho, rfl⟩ := ho
  rw [xmlNode] at ho
  rw [hc0] at ho
  simp only at ho
  have hfr : (c0 == '!' || c0 == '?') = false := by
    have := nameChar_ne hc1
    simp [this.2.2.2.2.2.2.1, this.2.2.2.2.2.2.2]
  rw [hfr] at ho
  simp only [Bool.false_eq_true, if_false, Res.bind_eq_ok, Res.ok.injEq] at ho
  obtain ⟨t', h1, cs, _, rfl⟩ := ho
  rw [← hc0]
  obtain ⟨ans, as, ks, h2, h3, h4, h6⟩ := xmlAttrs_text h1
  refine ⟨ans, ks, as, cs ++ (closeWs h.value w e (firstOnNextLine (kids rest)) ++ (str! "</" ++ (h.value ++ ['>']))),
    h2, h4, ?_, by rw [← h6]; simp [PNode.lw]⟩
  intro n hn
  rw [h3] at hn
  unfold kids at hn
  have := List.head?_dropWhile_not (fun n : PNode => n.isAttr) rest
  cases hd : (rest.dropWhile fun n => n.isAttr).head? with
  | none => rw [hd] at hn; cases hn
  | some m =>
    rw [hd] at hn this
    cases hn
    simpa using this

theorem reads_exactly {w name t' tail : Str} {ans : List PNode} {as : List (Str × Str)} {ws : List Str} (hw : Blanks w)
    (hn : NameOk name) (hg : GivesAttrs ans as) (hl : ws.length = as.length) (hb : ∀ w ∈ ws, Blanks w)
    (hk : ∀ p ∈ as, NameOk p.1) (ht : t' = (List.zip ws as).flatMap fun p => attrText p.1 p.2.1 p.2.2) :
    ReadsAs (w ++ '<' :: (name ++ t') ++ '>' :: tail) w name as ↔
      ∀ p ∈ as, '"' ∉ p.2 ∧ ∀ e ∈ entities, ¬ e.2 <:+: p.2 := by
  constructor
  · rintro ⟨body, tail', raw, h1, _, h2, h3⟩
    have h1 : body ++ '>' :: tail' = name ++ (t' ++ '>' :: tail) := by
      have := h1
      simp only [List.append_assoc, List.cons_append] at this
      simpa using (List.append_cancel_left this).symm
    unfold readTag at h2
    rw [Option.map_eq_some_iff] at h2
    obtain ⟨raw', h4, h5⟩ := h2
    simp only [Prod.mk.injEq] at h5
    obtain ⟨h5, rfl⟩ := h5
    rw [dropWhile_of_take h5, List.append_assoc] at h1
    have h1 := List.append_cancel_left h1
    rw [ht] at h1
    exact written_read hl hb hk h4 h1 h3
  · intro h
    obtain ⟨g1, g2, g3⟩ := attrs_read ws hg hl hb (fun p hp => ⟨hk p hp, (h p hp).1⟩)
    rw [← ht] at g1 g2 g3
    refine ⟨name ++ t', tail, as, rfl, ?_, ?_, ?_⟩
    · have e1 : w ++ '<' :: (name ++ t') ++ '>' :: tail = (w ++ ('<' :: (name ++ t') ++ ['>'])) ++ tail := by simp
      rw [e1, scans_append (scans_blanks hw) (scans_tag (tagPart_append (name_tagPart hn) g1)) tail]
      simp
    · refine readTag_name hn ?_ g2
      by_cases has : as = []
      · left
        rw [ht, has]
        simp
      · exact Or.inr (g3 has)
    · have : ∀ p ∈ as, (p.1, decoded 0 p.2) = p := by
        intro p hp
        rw [(decoded_same p.2).2 (h p hp).2]
      exact (List.map_congr_left this).trans (List.map_id' as)

/-- C22, exactly, for HTML: a browser finds the attributes given, with the values
given, exactly if no value contains a double quote or one of the five entities. -/
theorem C22_html_exactly (dbg : Str → Str) (h : Node) (ans ks : List PNode) (as : List (Str × Str)) (s : Site) (e : Token) (w out : Str)
    (hw : Blanks w) (hn : NameOk h.value) (hg : GivesAttrs ans as) (hks : ∀ n ∈ ks.head?, n.isAttr = false)
    (ha : ∀ k v s w, PNode.attr k v s w ∈ ans → NameOk k ∧ Blanks w)
    (ho : htmlGenerate dbg [.list (.symbol h :: (ans ++ ks)) s e w] = .ok out) :
    ReadsAs out w h.value as ↔ ∀ p ∈ as, '"' ∉ p.2 ∧ ∀ e ∈ entities, ¬ e.2 <:+: p.2 := by
  obtain ⟨ans', ks', as', tail, h1, h2, h3, rfl⟩ := html_opening dbg h _ s e w out hn ho
  obtain ⟨rfl, rfl, rfl⟩ := gives_split hg h2 hks h3 h1
  have hm := gives_mem hg
  refine reads_exactly hw hn hg (by simpa using hm.1) ?_ ?_ rfl
  · intro w hw
    obtain ⟨n, hn, rfl⟩ := List.mem_map.1 hw
    obtain ⟨k, v, s, w, rfl⟩ := gives_attr hg n hn
    exact (ha k v s w hn).2
  · intro p hp
    obtain ⟨v, a, s, w, hx, _, _⟩ := hm.2 p hp
    exact (ha p.1 v s w hx).1

/-- C22, exactly, for XML. -/
theorem C22_xml_exactly (h : Node) (ans ks : List PNode) (as : List (Str × Str)) (s : Site) (e : Token) (w out : Str)
    (hw : Blanks w) (hn : NameOk h.value) (hg : GivesAttrs ans as) (hks : ∀ n ∈ ks.head?, n.isAttr = false)
    (ha : ∀ k v s w, PNode.attr k v s w ∈ ans → NameOk k)
    (ho : xmlGenerate [.list (.symbol h :: (ans ++ ks)) s e w] = .ok out) :
    ReadsAs out w h.value as ↔ ∀ p ∈ as, '"' ∉ p.2 ∧ ∀ e ∈ entities, ¬ e.2 <:+: p.2 := by
  obtain ⟨ans', ks', as', tail, h1, h2, h3, rfl⟩ := xml_opening h _ s e w out hn ho
  obtain ⟨rfl, rfl, rfl⟩ := gives_split hg h2 hks h3 h1
  have hm := gives_mem hg
  refine reads_exactly hw hn hg (by simpa using hm.1) ?_ ?_ rfl
  · intro w hw
    obtain ⟨n, hn, rfl⟩ := List.mem_map.1 hw
    intro c hc
    cases hc
  · intro p hp
    obtain ⟨v, a, s, w, hx, _, _⟩ := hm.2 p hp
    exact ha p.1 v s w hx

/-- A case that meets the hypotheses, with a value that does not read back: `&lt;` is
read as `<`. -/
example : GivesAttrs [exAttr (str! "title") (exStr (str! "&lt;") [' '])] [(str! "title", str! "&lt;")] ∧
    (∀ k v s w, PNode.attr k v s w ∈ [exAttr (str! "title") (exStr (str! "&lt;") [' '])] → NameOk k ∧ Blanks w) ∧
    htmlGenerate id [exList [exSym ['p'], exAttr (str! "title") (exStr (str! "&lt;") [' ']), exStr (str! "<b>") [' ']]] =
      .ok (str! "<p title=\"&lt;\">&lt;b&gt;</p>") ∧
    ¬ ∀ p ∈ [(str! "title", str! "&lt;")], '"' ∉ p.2 ∧ ∀ e ∈ entities, ¬ e.2 <:+: p.2 := by
  refine ⟨.cons _ _ _ _ _ _ _ (Or.inr (Or.inr (Or.inl rfl))) .nil, ?_, by decide +kernel, ?_⟩
  · intro k v s w hm
    simp only [exAttr, exStr, List.mem_cons, List.not_mem_nil, or_false, PNode.attr.injEq] at hm
    obtain ⟨rfl, rfl, _, rfl⟩ := hm
    exact ⟨nameOk_dec (by decide), blanks_dec (by decide)⟩
  · intro h
    exact (h _ (List.mem_singleton.2 rfl)).2 ('<', str! "&lt;") (by decide) (List.infix_refl _)

/-- The theorems for the paragraph of `pageTree`. -/
example : ∃ ans ks as body tail, [exAttr (str! "class") (exStr ['a'] [' ']), exStr (str! "<b>") [' ']] = ans ++ ks ∧
    GivesAttrs ans as ∧ str! "<p class=\"a\">&lt;b&gt;</p>" = [] ++ '<' :: body ++ '>' :: tail ∧
    scan .text (str! "<p class=\"a\">&lt;b&gt;</p>") = chars [] ++ .tag body :: scan .text tail ∧
    readTag body = some (['p'], as) := by
  refine C22_xml_attributes_partial ⟨['p'], default, []⟩ _ default default [] _ (blanks_dec rfl) (nameOk_dec (by decide)) ?_
    (by decide +kernel)
  intro k v s w hm
  simp only [exAttr, exStr, List.mem_cons, List.not_mem_nil, or_false, PNode.attr.injEq, reduceCtorEq] at hm
  obtain ⟨rfl, rfl, _, rfl⟩ := hm
  refine ⟨nameOk_dec (by decide), ?_⟩
  rintro a (h | h | h | h) <;> cases h
  decide

/-! ## C23 -/

theorem headed_iff (name : Str) (n : PNode) : (∃ r, Hit .listHead name true n r) ↔ Headed name n := by
  constructor
  · rintro ⟨r, h⟩
    cases h with
    | list h a ns s e w _ hat ht => exact ⟨h, a, ns, s, e, w, rfl, hat, ht⟩
    | _ => rename_i ha _; rcases ha with ha | ha <;> cases ha
  · rintro ⟨h, a, ns, s, e, w, rfl, hat, ht⟩
    exact ⟨_, .list h a ns s e w (Or.inr rfl) hat ht⟩

theorem search_head (name : Str) (level : Nat) (tree : List PNode) :
    (searchNodes .listHead name true tree level).isNone = true ↔ ¬ ∃ n ∈ downTos level tree, Headed name n := by
  rw [Option.isNone_iff_eq_none, C16_search_none]
  constructor
  · rintro h ⟨n, hn, hh⟩
    obtain ⟨r, hr⟩ := (headed_iff name n).2 hh
    exact h n hn r hr
  · intro h n hn r hr
    exact h ⟨n, hn, (headed_iff name n).1 ⟨r, hr⟩⟩

theorem downTo_one (n : PNode) : downTo 1 n = [n] := by
  have h0 : ∀ ns, downTos 0 ns = [] := by
    intro ns
    induction ns with
    | nil => rfl
    | cons n ns ih => simp [downTos, downTo, ih]
  cases n <;> simp [downTo, h0]

theorem downTos_one (ns : List PNode) : downTos 1 ns = ns := by
  induction ns with
  | nil => rfl
  | cons n ns ih => rw [downTos, downTo_one, ih]; rfl

theorem popNewline_snoc (s : Str) : popNewline (s ++ ['\n']) = s := by
  simp [popNewline]

/-- C23: an empty tree gives the default document, and an error in the tree is
returned. -/
theorem C23_default (dbg : Str → Str) : htmlDocument dbg [] =
    .ok (str! "<!DOCTYPE html>\n<html>\n<head></head>\n<body>\n<!-- Generated by SEAM (empty file) -->\n</body>\n</html>\n") :=
  rfl

theorem C23_error (dbg : Str → Str) (tree : List PNode) (x : Err) (h : htmlGenerate dbg tree = .err x) :
    htmlDocument dbg tree = .err x := by
  cases tree with
  | nil => exact absurd h (by simp [htmlGenerate, htmlKids])
  | cons n ns => unfold htmlDocument; simp [h]

/-- C23: with a `!doctype` among the top-level lists the document is the display of
the tree. -/
theorem C23_doctype (dbg : Str → Str) (tree : List PNode) (d : Str) (hd : htmlGenerate dbg tree = .ok d)
    (h : ∃ n ∈ tree, Headed (str! "!doctype") n) : htmlDocument dbg tree = .ok d := by
  have h1 : (searchNodes .listHead (str! "!doctype") true tree 1).isNone = false := by
    rw [Bool.eq_false_iff, Ne, search_head, downTos_one]
    exact fun hn => hn h
  cases tree with
  | nil => simp at h
  | cons n ns =>
    unfold htmlDocument
    simp only [List.isEmpty_cons, Bool.false_eq_true, if_false, h1, hd, Res.ok_bind, List.nil_append, List.append_nil]
    rw [popNewline_snoc]

/-- C23: without, a doctype is put in front; if there is a top-level `html` that is all... -/
theorem C23_html (dbg : Str → Str) (tree : List PNode) (d : Str) (hd : htmlGenerate dbg tree = .ok d)
    (h : ¬ ∃ n ∈ tree, Headed (str! "!doctype") n) (hh : ∃ n ∈ tree, Headed (str! "html") n) :
    htmlDocument dbg tree = .ok (str! "<!DOCTYPE html>\n" ++ d) := by
  have h1 : (searchNodes .listHead (str! "!doctype") true tree 1).isNone = true := by
    rw [search_head, downTos_one]
    exact h
  have h2 : (searchNodes .listHead (str! "html") true tree 1).isNone = false := by
    rw [Bool.eq_false_iff, Ne, search_head, downTos_one]
    exact fun hn => hn hh
  cases tree with
  | nil => simp at hh
  | cons n ns =>
    unfold htmlDocument
    simp only [List.isEmpty_cons, Bool.false_eq_true, if_false, if_true, h1, h2, hd, Res.ok_bind, List.append_nil]
    rw [popNewline_snoc]

/-- C23: ...otherwise the display is wrapped in `html`, an empty `head` is added if no
`head` is found at the top level or one level below, and a `body` around it if no
`body` is found there. -/
theorem C23_wrapped (dbg : Str → Str) (tree : List PNode) (d : Str) (hd : htmlGenerate dbg tree = .ok d) (hne : tree ≠ [])
    (h : ¬ ∃ n ∈ tree, Headed (str! "!doctype") n) (hh : ¬ ∃ n ∈ tree, Headed (str! "html") n) :
    ∃ head body body', htmlDocument dbg tree =
        .ok (str! "<!DOCTYPE html>\n<html>\n" ++ head ++ body ++ d ++ str! "\n" ++ body' ++ str! "</html>") ∧
      ((∃ n ∈ downTos 2 tree, Headed (str! "head") n) → head = []) ∧
      ((¬ ∃ n ∈ downTos 2 tree, Headed (str! "head") n) → head = str! "<head></head>\n") ∧
      ((∃ n ∈ downTos 2 tree, Headed (str! "body") n) → body = [] ∧ body' = []) ∧
      ((¬ ∃ n ∈ downTos 2 tree, Headed (str! "body") n) → body = str! "<body>\n" ∧ body' = str! "</body>\n") := by
  have h1 : (searchNodes .listHead (str! "!doctype") true tree 1).isNone = true := by
    rw [search_head, downTos_one]
    exact h
  have h2 : (searchNodes .listHead (str! "html") true tree 1).isNone = true := by
    rw [search_head, downTos_one]
    exact hh
  have key : ∀ name, (searchNodes .listHead name true tree 2).isNone = true ∧ (¬ ∃ n ∈ downTos 2 tree, Headed name n) ∨
      (searchNodes .listHead name true tree 2).isNone = false ∧ (∃ n ∈ downTos 2 tree, Headed name n) := by
    intro name
    cases hx : (searchNodes .listHead name true tree 2).isNone with
    | true => exact Or.inl ⟨rfl, (search_head ..).1 hx⟩
    | false =>
      refine Or.inr ⟨rfl, Classical.byContradiction fun hn => ?_⟩
      rw [(search_head ..).2 hn] at hx
      cases hx
  have e3 : ∀ (a b : Str), popNewline (a ++ b ++ str! "</html>\n") = a ++ b ++ str! "</html>" := by
    intro a b
    have : a ++ b ++ str! "</html>\n" = (a ++ b ++ str! "</html>") ++ ['\n'] := by
      simp
    rw [this, popNewline_snoc]
  cases tree with
  | nil => exact absurd rfl hne
  | cons n ns =>
    rcases key (str! "head") with ⟨k1, k2⟩ | ⟨k1, k2⟩ <;> rcases key (str! "body") with ⟨k3, k4⟩ | ⟨k3, k4⟩
    · refine ⟨str! "<head></head>\n", str! "<body>\n", str! "</body>\n", ?_, fun h => absurd h k2, fun _ => rfl, fun h => absurd h k4,
        fun _ => ⟨rfl, rfl⟩⟩
      unfold htmlDocument
      simp only [List.isEmpty_cons, Bool.false_eq_true, if_false, if_true, h1, h2, k1, k3, hd, Res.ok_bind, Res.ok.injEq]
      have := e3 (str! "<!DOCTYPE html>\n" ++ (str! "<html>\n" ++ str! "<head></head>\n" ++ str! "<body>\n") ++ d ++ ['\n']) (str! "</body>\n")
      simpa using this
    · refine ⟨str! "<head></head>\n", [], [], ?_, fun h => absurd h k2, fun _ => rfl, fun _ => ⟨rfl, rfl⟩, fun h => absurd k4 h⟩
      unfold htmlDocument
      simp only [List.isEmpty_cons, Bool.false_eq_true, if_false, if_true, h1, h2, k1, k3, hd, Res.ok_bind, Res.ok.injEq]
      have := e3 (str! "<!DOCTYPE html>\n" ++ (str! "<html>\n" ++ str! "<head></head>\n") ++ d ++ ['\n']) []
      simpa using this
    · refine ⟨[], str! "<body>\n", str! "</body>\n", ?_, fun _ => rfl, fun h => absurd k2 h, fun h => absurd h k4, fun _ => ⟨rfl, rfl⟩⟩
      unfold htmlDocument
      simp only [List.isEmpty_cons, Bool.false_eq_true, if_false, if_true, h1, h2, k1, k3, hd, Res.ok_bind, Res.ok.injEq]
      have := e3 (str! "<!DOCTYPE html>\n" ++ (str! "<html>\n" ++ str! "<body>\n") ++ d ++ ['\n']) (str! "</body>\n")
      simpa using this
    · refine ⟨[], [], [], ?_, fun _ => rfl, fun h => absurd k2 h, fun _ => ⟨rfl, rfl⟩, fun h => absurd k4 h⟩
      unfold htmlDocument
      simp only [List.isEmpty_cons, Bool.false_eq_true, if_false, if_true, h1, h2, k1, k3, hd, Res.ok_bind, Res.ok.injEq]
      have := e3 (str! "<!DOCTYPE html>\n" ++ (str! "<html>\n") ++ d ++ ['\n']) []
      simpa using this

example : htmlDocument id [exList [exSym ['p']]] =
    .ok (str! "<!DOCTYPE html>\n<html>\n<head></head>\n<body>\n<p></p>\n</body>\n</html>") := by decide +kernel
example : htmlDocument id [exList [exSym (str! "HTML")]] = .ok (str! "<!DOCTYPE html>\n<HTML></html>") := by decide +kernel

/-- An element that cannot be printed; a `!doctype`; an `html` element; a paragraph. -/
example : ∃ x, htmlDocument id [exSym ['x'], exList [exStr ['p']]] = .err x := by
  obtain ⟨x, h, _⟩ := Res.errP_elim (r := htmlGenerate id [exSym ['x'], exList [exStr ['p']]]) (p := fun _ => true)
    (by decide +kernel)
  exact ⟨x, C23_error id _ _ h⟩
example : htmlDocument id [exSym ['x'], exList [exSym (str! "!DOCTYPE"), exSym (str! "html") [' ']]] =
    .ok (str! "x<!DOCTYPE html>") :=
  C23_doctype id _ _ (by decide +kernel) ⟨_, by simp; exact .inr rfl, _, _, _, _, _, _, rfl, .inl rfl, by decide⟩
example : htmlDocument id [exList [exSym (str! "HTML")]] = .ok (str! "<!DOCTYPE html>\n<HTML></html>") :=
  C23_html id _ (str! "<HTML></html>") (by decide +kernel)
    (by rw [← downTos_one [_]]; exact (search_head _ 1 _).1 (by decide +kernel))
    ⟨_, List.mem_singleton.2 rfl, _, _, _, _, _, _, rfl, .inl rfl, by decide⟩
example : ∃ head body body', htmlDocument id [exList [exSym ['p']]] =
    .ok (str! "<!DOCTYPE html>\n<html>\n" ++ head ++ body ++ str! "<p></p>" ++ str! "\n" ++ body' ++ str! "</html>") := by
  obtain ⟨a, b, c, h, _⟩ := C23_wrapped id [exList [exSym ['p']]] (str! "<p></p>") (by decide +kernel) (by simp)
    (by rw [← downTos_one [_]]; exact (search_head _ 1 _).1 (by decide +kernel))
    (by rw [← downTos_one [_]]; exact (search_head _ 1 _).1 (by decide +kernel))
  exact ⟨a, b, c, h⟩

/-! ## C24 -/

/-- C24: raw text contributes its whitespace and its value to HTML, verbatim. -/
theorem C24_raw_html (dbg : Str → Str) (pre post : List PNode) (a : Node) (out : Str)
    (h : htmlGenerate dbg (pre ++ .raw a :: post) = .ok out) :
    ∃ p q, htmlGenerate dbg pre = .ok p ∧ htmlGenerate dbg post = .ok q ∧ out = p ++ a.lw ++ a.value ++ q := by
  unfold htmlGenerate at h ⊢
  rw [htmlKids_append] at h
  simp only [Res.bind_eq_ok, Res.ok.injEq] at h
  obtain ⟨p, h1, q, h2, rfl⟩ := h
  simp only [htmlKids, Res.bind_eq_ok, Res.ok.injEq, htmlNode, exists_eq_left'] at h2
  obtain ⟨q, h4, rfl⟩ := h2
  exact ⟨p, q, h1, h4, by simp [PNode.lw]⟩

theorem inLists_cons {n m : PNode} {ns : List PNode} (h : InLists n (m :: ns)) : InLists n [m] ∨ InLists n ns := by
  cases h with
  | here _ h =>
    rcases List.mem_cons.1 h with rfl | h
    · exact Or.inl (.here _ (by simp))
    · exact Or.inr (.here _ h)
  | deeper _ ks s e w h h' =>
    rcases List.mem_cons.1 h with rfl | h
    · exact Or.inl (.deeper _ ks s e w (by simp) h')
    · exact Or.inr (.deeper _ ks s e w h h')

theorem xmlDecl_raw {a : Node} : ∀ {rest : List PNode} {t : Str}, xmlDecl rest = .ok t → ¬ InLists (.raw a) rest
  | [], _, _, h => by cases h <;> simp_all
  | n :: rest, t, h, hr => by
    cases n with
    | symbol b | number b =>
      simp only [xmlDecl, Res.bind_eq_ok] at h
      obtain ⟨t', h, _⟩ := h
      rcases inLists_cons hr with hr | hr
      · cases hr <;> simp_all
      · exact xmlDecl_raw h hr
    | attr k v s w =>
      simp only [xmlDecl, Res.bind_eq_ok] at h
      obtain ⟨t', _, t'', h, _⟩ := h
      rcases inLists_cons hr with hr | hr
      · cases hr <;> simp_all
      · exact xmlDecl_raw h hr
    | _ => simp [xmlDecl] at h

mutual
theorem xmlNode_raw {a : Node} : ∀ (lw : Str) (n : PNode) (out : Str), xmlNode lw n = .ok out → ¬ InLists (.raw a) [n]
  | lw, .symbol n, _, _, hr | lw, .number n, _, _, hr | lw, .string n, _, _, hr => by cases hr <;> simp_all
  | lw, .raw n, _, h, _ => by simp [xmlNode] at h
  | lw, .attr k v s w, _, h, _ => by simp [xmlNode] at h
  | lw, .list [] s e w, _, h, _ => by simp [xmlNode] at h
  | lw, .list (.number _ :: _) s e w, _, h, _ => by simp [xmlNode] at h
  | lw, .list (.string _ :: _) s e w, _, h, _ => by simp [xmlNode] at h
  | lw, .list (.raw _ :: _) s e w, _, h, _ => by simp [xmlNode] at h
  | lw, .list (.list _ _ _ _ :: _) s e w, _, h, _ => by simp [xmlNode] at h
  | lw, .list (.attr _ _ _ _ :: _) s e w, _, h, _ => by simp [xmlNode] at h
  | lw, .list (.symbol hd :: rest) s e w, out, h, hr => by
    have hr' : InLists (.raw a) rest := by
      cases hr with
      | here _ h => simp at h
      | deeper _ ks s e w h h' =>
        simp only [List.mem_cons, PNode.list.injEq, List.not_mem_nil, or_false] at h
        obtain ⟨rfl, _⟩ := h
        rcases inLists_cons h' with h' | h'
        · cases h' <;> simp_all
        · exact h'
    simp only [xmlNode] at h
    split at h
    · cases h
    · split at h
      · simp only [Res.bind_eq_ok] at h
        obtain ⟨t, h, _⟩ := h
        exact xmlDecl_raw h hr'
      · simp only [Res.bind_eq_ok] at h
        obtain ⟨t, _, cs, h, _⟩ := h
        exact xmlKids_raw .lead rest cs h hr'
theorem xmlKids_raw {a : Node} : ∀ (m : KidMode) (ns : List PNode) (out : Str), xmlKids m ns = .ok out → ¬ InLists (.raw a) ns
  | _, [], _, _, hr => by cases hr <;> simp_all
  | .lead, n :: ns, out, h, hr => by
    rw [xmlKids] at h
    split at h
    · rename_i hn
      rcases inLists_cons hr with hr | hr
      · cases n with
        | attr => cases hr <;> simp_all
        | _ => simp [PNode.isAttr, PNode.attribute?] at hn
      · exact xmlKids_raw .lead ns out h hr
    · simp only [Res.bind_eq_ok] at h
      obtain ⟨x, h1, y, h2, _⟩ := h
      rcases inLists_cons hr with hr | hr
      · exact xmlNode_raw _ n x h1 hr
      · exact xmlKids_raw .rest ns y h2 hr
  | .rest, n :: ns, out, h, hr => by
    rw [xmlKids] at h
    simp only [Res.bind_eq_ok] at h
    obtain ⟨x, h1, y, h2, _⟩ := h
    rcases inLists_cons hr with hr | hr
    · exact xmlNode_raw _ n x h1 hr
    · exact xmlKids_raw .rest ns y h2 hr
end

/-- C24: a tree with raw text anywhere in its lists is not printed as XML. -/
theorem C24_raw_xml (tree : List PNode) (a : Node) (hr : InLists (.raw a) tree) : ∀ out, xmlGenerate tree ≠ .ok out :=
  fun out h => xmlKids_raw .rest tree out h hr

example : htmlGenerate id [exSym ['a'], .raw ⟨str! "<b>", default, [' ']⟩] = .ok (str! "a <b>") := by decide +kernel
example : InLists (.raw ⟨['<'], default, []⟩) [exList [exSym ['p'], .raw ⟨['<'], default, []⟩]] :=
  .deeper _ _ _ _ _ (List.mem_singleton.2 rfl) (.here _ (by simp))

example : ∃ p q, htmlGenerate id [exSym ['a']] = .ok p ∧ htmlGenerate id [exSym ['c']] = .ok q ∧
    str! "a <b>c" = p ++ [' '] ++ str! "<b>" ++ q :=
  C24_raw_html id [exSym ['a']] [exSym ['c']] ⟨str! "<b>", default, [' ']⟩ _ (by decide +kernel)
example : ∀ out, xmlGenerate [exList [exSym ['p'], .raw ⟨['<'], default, []⟩]] ≠ .ok out :=
  C24_raw_xml _ ⟨['<'], default, []⟩ (.deeper _ _ _ _ _ (List.mem_singleton.2 rfl) (.here _ (by simp)))

/-! ## C25 -/

theorem inLists_within {n : PNode} {ns : List PNode} (h : InLists n ns) : Within n ns := by
  induction h with
  | here _ h => exact .here _ h
  | deeper _ ks s e w h _ ih => exact .inList _ ks s e w h ih

/-- C25 is false: a symbol written as two backslashes is empty, and as the head of an element
it makes HTML and XML generation panic. -/
theorem C25_never_panics_false : ∃ b ns, parse some b = .ok ns ∧ b.code = str! "(\\\\)" ∧
    htmlGenerate id ns = .panic ∧ xmlGenerate ns = .panic := by
  obtain ⟨ns, h1, h2⟩ := Res.okP_elim (r := parse some { path := [], id := 1, code := str! "(\\\\)" })
    (p := fun ns => (htmlGenerate id ns).isPanic && (xmlGenerate ns).isPanic) (by decide +kernel)
  rw [Bool.and_eq_true] at h2
  exact ⟨_, ns, h1, rfl, Res.isPanic_elim h2.1, Res.isPanic_elim h2.2⟩

theorem notFails_or {α : Type} {r : Res α} (h : ¬ Fails r) : (∃ a, r = .ok a) ∨ ∃ x, r = .err x := by
  cases r with
  | ok a => exact Or.inl ⟨a, rfl⟩
  | err x => exact Or.inr ⟨x, rfl⟩
  | panic => exact absurd (Or.inl rfl) h
  | diverge => exact absurd (Or.inr rfl) h

/-- C25 as far as it holds, for XML: any tree in which heads of lists are not empty
symbols.  Missing: empty symbols as heads (they panic). -/
theorem C25_xml_partial (tree : List PNode) (hh : ∀ h rest s e w, InLists (.list (.symbol h :: rest) s e w) tree → h.value ≠ []) :
    (∃ out, xmlDocument tree = .ok out) ∨ ∃ x, xmlDocument tree = .err x := by
  have := notFails_or (xmlKids_notFails .rest tree hh)
  unfold xmlDocument xmlGenerate
  split
  · exact Or.inl ⟨_, rfl⟩
  · rcases this with ⟨a, h⟩ | ⟨x, h⟩
    · exact Or.inl ⟨_, by rw [h]; rfl⟩
    · exact Or.inr ⟨x, by rw [h]; rfl⟩

/-- C25 as far as it holds, for HTML, for any tree: heads of lists are not empty
symbols, lists in the content of `style` elements are rules, and in `pre` elements the
content stands where it was written (`InPlace`; the first node that is no leading
attribute decides).  Missing: these cases, which can panic. -/
theorem C25_any_html_partial (dbg : Str → Str) (tree : List PNode)
    (hh : ∀ h rest s e w, InLists (.list (.symbol h :: rest) s e w) tree → h.value ≠ [] ∧
      (h.value.map lowerChar = str! "style" → ∀ ks s' e' w', PNode.list ks s' e' w' ∈ rest → RuleOk false ks) ∧
      (h.value.map lowerChar = str! "pre" → ∀ ans k post, rest = ans ++ k :: post → (∀ a ∈ ans, a.isAttr = true) →
        k.isAttr = false → InPlace k e)) :
    (∃ out, htmlDocument dbg tree = .ok out) ∨ ∃ x, htmlDocument dbg tree = .err x := by
  have hl : ListsOk dbg tree := by
    intro h rest s e w hm
    obtain ⟨h1, h2, h3⟩ := hh h rest s e w hm
    refine ⟨h1, fun hp => ?_, fun hs => ?_⟩
    · obtain ⟨ans, hr, ha⟩ := kids_split_attrs rest
      cases hk : kids rest with
      | nil => exact not_fails_ok _
      | cons k post =>
        obtain ⟨before, text, after, g1, g2, g3, g4⟩ := h3 hp ans k post (by rw [hr, hk]) ha (kids_head hk)
        rw [List.head?_cons, rawText_of_source (b := { path := [], id := e.site.buf, code := e.site.code }) g1 g2 g3 g4 rfl rfl]
        exact not_fails_ok _
    · refine cssGenerate_notFails (body := false) dbg ?_
      intro ks s' e' w' hm'
      have h2 := h2 hs
      cases hk : kids rest with
      | nil => rw [hk] at hm'; simp [adjustFirst] at hm'
      | cons k post =>
        rw [hk] at hm'
        simp only [adjustFirst, List.mem_cons] at hm'
        rcases hm' with hm' | hm'
        · obtain ⟨w'', rfl⟩ := setLw_list hm'.symm
          exact h2 _ s' e' w'' (kids_subset _ (by rw [hk]; simp))
        · exact h2 _ s' e' w' (kids_subset _ (by rw [hk]; simp [hm']))
  have := notFails_or (htmlKids_notFails dbg .rest tree hl)
  unfold htmlDocument htmlGenerate
  split
  · exact Or.inl ⟨_, rfl⟩
  · rcases this with ⟨a, h⟩ | ⟨x, h⟩
    · exact Or.inl ⟨_, by rw [h]; rfl⟩
    · exact Or.inr ⟨x, by rw [h]; rfl⟩

/-- Content in its place, and content that comes from another file. -/
example : InPlace (.symbol ⟨['x'], { (default : Site) with buf := 1, off := 5, code := str! "(pre x)" }, [' ']⟩)
      { (default : Token) with site := { (default : Site) with buf := 1, off := 6, code := str! "(pre x)" } } ∧
    ¬InPlace (.symbol ⟨['x'], { (default : Site) with buf := 7 }, []⟩) default :=
  ⟨⟨str! "(pre", ['x'], [')'], rfl, rfl, rfl, rfl⟩, fun ⟨_, _, _, _, _, _, h⟩ => absurd h (by decide)⟩

/-- C25: in particular for any tree read from a source (without macros) in which heads
of lists are not empty symbols and lists in the content of `style` elements are rules. -/
theorem C25_html_partial (u : Unescape) (dbg : Str → Str) (b : Buf) (tree : List PNode) (hp : parse u b = .ok tree)
    (hh : ∀ h rest s e w, InLists (.list (.symbol h :: rest) s e w) tree → h.value ≠ [] ∧
      (h.value.map lowerChar = str! "style" → ∀ ks s' e' w', PNode.list ks s' e' w' ∈ rest → RuleOk false ks)) :
    (∃ out, htmlDocument dbg tree = .ok out) ∨ ∃ x, htmlDocument dbg tree = .err x := by
  refine C25_any_html_partial dbg tree fun h rest s e w hm => ⟨(hh h rest s e w hm).1, (hh h rest s e w hm).2, ?_⟩
  intro _ ans k post hr _ _
  have hw := inLists_within hm
  have : PNode.symbol h :: rest = (.symbol h :: ans) ++ k :: post := by rw [hr]; rfl
  rw [this] at hw
  obtain ⟨before, text, after, g1, g2, g3, g4, g5, g6, _⟩ := child_to_close hp hw
  exact ⟨before, text, after, by rw [g6, g1], g2, g3, by rw [g4, g5]⟩

/-- C25: `pre` panics on content from another file (html.rs:325 does so on purpose). -/
theorem C25_pre_elsewhere_false : ∃ (a : Node) (e : Token), a.site.buf ≠ e.site.buf ∧
    htmlGenerate id [.list [exSym (str! "pre"), .symbol a] default e []] = .panic :=
  ⟨⟨['x'], { (default : Site) with buf := 7 }, []⟩, default, by decide, by decide +kernel⟩

/-- A source that meets the hypotheses. -/
example : ∃ tree, parse some { path := [], id := 1, code := str! "(pre :id a x)(style (p :a b))" } = .ok tree ∧
    (htmlGenerate id tree).okP (fun out => decide (out = str! "<pre id=\"a\">x</pre><style>\np {\n  a: b;\n}</style>")) = true := by
  exact Res.okP_elim (by decide +kernel)

/-! ## C26 -/

theorem htmlNode_pre {dbg : Str → Str} {h : Node} {rest : List PNode} {s : Site} {e : Token} {w out : Str}
    (hh : lower h.value = str! "pre") (ho : htmlGenerate dbg [.list (.symbol h :: rest) s e w] = .ok out) :
    ∃ as t, htmlAttrs rest = .ok as ∧ rawText (kids rest).head? e = .ok t ∧
      out = w ++ '<' :: h.value ++ as ++ ['>'] ++ t ++
        closeWs (str! "pre") w e (firstOnNextLine (kids rest)) ++ str! "</pre>" := by
  unfold htmlGenerate at ho
  simp only [htmlKids, Res.bind_eq_ok, Res.ok.injEq, exists_eq_left', List.append_nil] at ho
  obtain ⟨out', ho, rfl⟩ := ho
  rw [htmlNode, hh] at ho
  have hv : binarySearch voidElements (str! "pre") = false := by decide
  have hs : htmlSpecial (str! "pre") = true := by decide
  simp only [hv, hs] at ho
  simp only [show (('p' : Char) == '!') = false from rfl, Bool.false_eq_true, if_false, if_true, Res.bind_eq_ok, Res.ok.injEq] at ho
  obtain ⟨as, h1, t, h2, rfl⟩ := ho
  refine ⟨as, t, h1, ?_, by simp [PNode.lw]⟩
  have : htmlSpecialContent dbg (str! "pre") (kids rest) e = rawText (kids rest).head? e := by
    unfold htmlSpecialContent
    rw [if_pos (by decide)]
  rw [← this]
  exact h2

/-- C26, with what the code adds: the text of a `pre` element is the source text from
its first child's whitespace (minus one leading blank) to its closing parenthesis,
followed by `extra`: a second copy of the whitespace before the parenthesis or, if
there is none and the content starts on a new line, the element's own whitespace. -/
theorem C26_pre_text_partial (u : Unescape) (dbg : Str → Str) (b : Buf) (tree : List PNode) (hp : parse u b = .ok tree)
    (h : Node) (ans : List PNode) (as : List (Str × Str)) (k : PNode) (post : List PNode) (s : Site) (e : Token) (w out : Str)
    (hw : Within (.list (.symbol h :: (ans ++ k :: post)) s e w) tree) (hh : h.value.map lowerChar = str! "pre")
    (ha : GivesAttrs ans as) (hk : k.isAttr = false)
    (ho : htmlGenerate dbg [.list (.symbol h :: (ans ++ k :: post)) s e w] = .ok out) :
    ∃ before text after opening content extra,
      b.code = before ++ k.lw ++ text ++ after ∧ k.site.off = blen (before ++ k.lw) ∧
      e.site.off = blen (before ++ k.lw ++ text) ∧
      (k.lw = ' ' :: content ∨ (k.lw.head? ≠ some ' ' ∧ k.lw = content)) ∧
      opening = '<' :: h.value ++ ((List.zip (ans.map PNode.lw) as).flatMap fun p => attrText p.1 p.2.1 p.2.2) ++ ['>'] ∧
      out = w ++ opening ++ content ++ text ++ extra ++ str! "</pre>" ∧
      extra = (if e.lw ≠ [] then e.lw else if '\n' ∈ k.lw then w else []) := by
  have hkids : ∀ {ans as}, GivesAttrs ans as → kids (ans ++ k :: post) = k :: post ∧ ∃ t, htmlAttrs (ans ++ k :: post) = .ok t ∧
      t = (List.zip (ans.map PNode.lw) as).flatMap fun p => attrText p.1 p.2.1 p.2.2 := by
    intro ans as ha
    induction ha with
    | nil =>
      refine ⟨by simp [kids, hk], [], ?_, rfl⟩
      cases k with
      | attr => simp [PNode.isAttr, PNode.attribute?] at hk
      | _ => rfl
    | cons k' v a s' w' ns as' hat _ ih =>
      obtain ⟨h2, t, h1, h3⟩ := ih
      refine ⟨?_, attrText w' k' a.value ++ t, ?_, ?_⟩
      · have : ∀ l, kids (.attr k' v s' w' :: l) = kids l := fun l => rfl
        rw [List.cons_append, this, h2]
      · rw [List.cons_append, htmlAttrs, isAtom_iff.2 hat]
        simp [h1, attrText]
      · simp [h3, PNode.lw]
  obtain ⟨k1, t, k2, k3⟩ := hkids ha
  have hw' : Within (.list ((.symbol h :: ans) ++ k :: post) s e w) tree := hw
  obtain ⟨before, text, after, g1, g2, g3, g4, g5, g6, _⟩ := child_to_close hp hw'
  obtain ⟨as', t', o1, o2, o3⟩ := htmlNode_pre hh ho
  rw [k1] at o2 o3
  rw [k2] at o1
  cases o1
  rw [List.head?_cons, rawText_of_source g1 g2 g3 g4 g5 g6] at o2
  cases o2
  refine ⟨before, text, after, _, if k.lw.head? = some ' ' then k.lw.tail else k.lw,
    closeWs (str! "pre") w e (firstOnNextLine (k :: post)), g1, g2, g3, ?_, rfl, ?_, ?_⟩
  · cases hl : k.lw with
    | nil => right; simp
    | cons c r =>
      by_cases hc : c = ' '
      · left; simp [hc]
      · right; simp [hc]
  · rw [o3, k3]; simp
  · unfold closeWs firstOnNextLine
    by_cases he : e.lw = []
    · by_cases hn : '\n' ∈ k.lw
      · simp [he, hn]
      · simp [he, hn]
    · have : e.lw.isEmpty = false := by cases hx : e.lw <;> simp_all
      simp [he, this]

/-- C26: exactly the source if there is no whitespace before the closing
parenthesis and the content starts on the line of the head. -/
theorem C26_pre_exact_partial (u : Unescape) (dbg : Str → Str) (b : Buf) (tree : List PNode) (hp : parse u b = .ok tree)
    (h : Node) (ans : List PNode) (as : List (Str × Str)) (k : PNode) (post : List PNode) (s : Site) (e : Token) (w out : Str)
    (hw : Within (.list (.symbol h :: (ans ++ k :: post)) s e w) tree) (hh : h.value.map lowerChar = str! "pre")
    (ha : GivesAttrs ans as) (hk : k.isAttr = false) (he : e.lw = []) (hn : '\n' ∉ k.lw)
    (ho : htmlGenerate dbg [.list (.symbol h :: (ans ++ k :: post)) s e w] = .ok out) :
    ∃ before text after opening content,
      b.code = before ++ k.lw ++ text ++ after ∧ k.site.off = blen (before ++ k.lw) ∧
      e.site.off = blen (before ++ k.lw ++ text) ∧
      (k.lw = ' ' :: content ∨ (k.lw.head? ≠ some ' ' ∧ k.lw = content)) ∧
      opening = '<' :: h.value ++ ((List.zip (ans.map PNode.lw) as).flatMap fun p => attrText p.1 p.2.1 p.2.2) ++ ['>'] ∧
      out = w ++ opening ++ content ++ text ++ str! "</pre>" := by
  obtain ⟨before, text, after, opening, content, extra, h1, h2, h3, h4, h5, h6, h7⟩ :=
    C26_pre_text_partial u dbg b tree hp h ans as k post s e w out hw hh ha hk ho
  refine ⟨before, text, after, opening, content, h1, h2, h3, h4, h5, ?_⟩
  rw [if_neg (by simp [he]), if_neg hn] at h7
  rw [h6, h7]
  simp

/-- C26, exactly: the content is shown as written if and only if there are no blanks
before the closing parenthesis and either the content starts on the line of the
opening or there are no blanks before the element.  (Whatever stands between content
and `</pre>` otherwise is given by `C26_pre_text_partial`.) -/
theorem C26_exactly (u : Unescape) (dbg : Str → Str) (b : Buf) (tree : List PNode) (hp : parse u b = .ok tree)
    (h : Node) (ans : List PNode) (as : List (Str × Str)) (k : PNode) (post : List PNode) (s : Site) (e : Token) (w out : Str)
    (hw : Within (.list (.symbol h :: (ans ++ k :: post)) s e w) tree) (hh : h.value.map lowerChar = str! "pre")
    (ha : GivesAttrs ans as) (hk : k.isAttr = false)
    (ho : htmlGenerate dbg [.list (.symbol h :: (ans ++ k :: post)) s e w] = .ok out) :
    ∃ before text after opening content,
      b.code = before ++ k.lw ++ text ++ after ∧ k.site.off = blen (before ++ k.lw) ∧
      e.site.off = blen (before ++ k.lw ++ text) ∧
      (k.lw = ' ' :: content ∨ (k.lw.head? ≠ some ' ' ∧ k.lw = content)) ∧
      opening = '<' :: h.value ++ ((List.zip (ans.map PNode.lw) as).flatMap fun p => attrText p.1 p.2.1 p.2.2) ++ ['>'] ∧
      (out = w ++ opening ++ content ++ text ++ str! "</pre>" ↔ e.lw = [] ∧ ('\n' ∉ k.lw ∨ w = [])) := by
  obtain ⟨before, text, after, opening, content, extra, h1, h2, h3, h4, h5, h6, h7⟩ :=
    C26_pre_text_partial u dbg b tree hp h ans as k post s e w out hw hh ha hk ho
  refine ⟨before, text, after, opening, content, h1, h2, h3, h4, h5, ?_⟩
  have key : out = w ++ opening ++ content ++ text ++ str! "</pre>" ↔ extra = [] := by
    rw [h6]
    constructor
    · intro h
      have := congrArg List.length h
      simp only [List.length_append] at this
      exact List.eq_nil_of_length_eq_zero (by omega)
    · rintro rfl; simp
  rw [key, h7]
  by_cases he : e.lw = []
  · rw [if_neg (by simp [he])]
    by_cases hn : '\n' ∈ k.lw
    · simp [he, hn]
    · simp [he, hn]
  · simp [he]

/-- C26 is false in general: the blank before the parenthesis of `(pre a )` is printed
twice. -/
theorem C26_pre_exact_false : ∃ b tree out, parse some b = .ok tree ∧ b.code = str! "(pre a )" ∧
    htmlGenerate id tree = .ok out ∧ out = str! "<pre>a  </pre>" := by
  obtain ⟨ns, h1, h2⟩ := Res.okP_elim (r := parse some { path := [], id := 1, code := str! "(pre a )" })
    (p := fun ns => decide (htmlGenerate id ns = .ok (str! "<pre>a  </pre>"))) (by decide +kernel)
  simp only [decide_eq_true_eq] at h2
  exact ⟨_, ns, _, h1, rfl, h2, rfl⟩

/-- The hypotheses of `C26_pre_exact_partial` for a `pre` without attributes. -/
def preCase (out : Str) : List PNode → Bool
  | [.list (.symbol h :: k :: post) s e w] => decide (h.value.map lowerChar = str! "pre") && !k.isAttr && decide (e.lw = []) &&
      decide ('\n' ∉ k.lw) && decide (htmlGenerate id [.list (.symbol h :: k :: post) s e w] = .ok out)
  | _ => false

/-- A case that meets the hypotheses: blanks, quotes and parentheses are shown as written. -/
example : ∃ tree, parse some { path := [], id := 1, code := str! "(pre a  \"b<\" (c))" } = .ok tree ∧
    preCase (str! "<pre>a  \"b<\" (c)</pre>") tree = true :=
  Res.okP_elim (by decide +kernel)

/-! ## C27 -/

/-- C27: the empty tree. -/
theorem C27_default : xmlDocument [] = .ok (str! "<?xml version=\"1.0\" encoding=\"UTF-8\" ?>\n") := rfl

/-- C27: with a declaration in front, the document is the display of the tree. -/
theorem C27_declared (h : Node) (rest : List PNode) (s : Site) (e : Token) (w : Str) (more : List PNode)
    (hh : h.value.map lowerChar = str! "?xml") :
    xmlDocument (.list (.symbol h :: rest) s e w :: more) = xmlGenerate (.list (.symbol h :: rest) s e w :: more) := by
  have : xmlHasDecl (.list (.symbol h :: rest) s e w :: more) = true := by
    unfold xmlHasDecl
    have : lower h.value = str! "?xml" := hh
    simp [this]
  unfold xmlDocument
  simp only [List.isEmpty_cons, Bool.false_eq_true, if_false, this, if_true]
  cases xmlGenerate (PNode.list (.symbol h :: rest) s e w :: more) <;> simp

/-- C27: otherwise the default declaration comes before the display. -/
theorem C27_added (n : PNode) (more : List PNode)
    (hn : ∀ h rest s e w, n = .list (.symbol h :: rest) s e w → h.value.map lowerChar ≠ str! "?xml") (out : Str) :
    xmlDocument (n :: more) = .ok out ↔ ∃ d, xmlGenerate (n :: more) = .ok d ∧
      out = str! "<?xml version=\"1.0\" encoding=\"UTF-8\" ?>\n" ++ d := by
  have hd : xmlHasDecl (n :: more) = false := by
    unfold xmlHasDecl
    split
    · rename_i d _ _ _ _ _ heq
      rw [List.cons.injEq] at heq
      have := hn d _ _ _ _ heq.1
      rw [beq_eq_false_iff_ne]
      exact this
    · rfl
  unfold xmlDocument
  simp only [List.isEmpty_cons, Bool.false_eq_true, if_false, hd]
  simp only [Res.bind_eq_ok, Res.ok.injEq]
  constructor
  · rintro ⟨d, h1, rfl⟩
    exact ⟨d, h1, rfl⟩
  · rintro ⟨d, h1, rfl⟩
    exact ⟨d, h1, rfl⟩

example : xmlDocument [exList [exSym (str! "?XML"), exAttr (str! "version") (exStr (str! "1.1"))], exList [exSym ['a']]] =
    .ok (str! "<?XML version=\"1.1\" ?><a></a>") := by decide +kernel
example : xmlDocument [exList [exSym ['a']]] = .ok (str! "<?xml version=\"1.0\" encoding=\"UTF-8\" ?>\n<a></a>") := by
  decide +kernel

example : xmlDocument [exList [exSym (str! "?XML"), exAttr (str! "version") (exStr (str! "1.1"))], exList [exSym ['a']]] =
    xmlGenerate [exList [exSym (str! "?XML"), exAttr (str! "version") (exStr (str! "1.1"))], exList [exSym ['a']]] :=
  C27_declared _ _ _ _ _ _ (by decide)
example : ∃ d, xmlGenerate [exList [exSym ['a']]] = .ok d ∧
    str! "<?xml version=\"1.0\" encoding=\"UTF-8\" ?>\n<a></a>" = str! "<?xml version=\"1.0\" encoding=\"UTF-8\" ?>\n" ++ d :=
  (C27_added _ _ (fun h rest s e w he => by cases he; decide) _).1 (by decide +kernel)

/-! ## C28 -/

/-- C28: what is scanned from the XML of a tree of ordinary elements is the markup
of the tree... -/
theorem C28_output_shows_tree (tree : List PNode) (out : Str) (ho : Ordinaries xmlDialect (fun _ => false) tree)
    (h : xmlGenerate tree = .ok out) : ShowsAll xmlDialect tree (scan .text out) := by
  obtain ⟨is, h1, h2⟩ := xmlKids_shows ho h
  have := h1 []
  simp only [List.append_nil, scan] at this
  rw [this]
  exact h2

/-- C28: ...in particular tags are properly nested and finished. -/
theorem C28_well_nested (tree : List PNode) (out : Str) (ho : Ordinaries xmlDialect (fun _ => false) tree)
    (h : xmlGenerate tree = .ok out) :
    Nested xmlDialect (tagsOf (scan .text out)) ∧ Item.broken ∉ scan .text out :=
  have hs := C28_output_shows_tree tree out ho h
  ⟨nested_showsAll hs, showsAll_whole hs⟩

example : Ordinaries xmlDialect (fun _ => false) pageTree ∧
    xmlGenerate pageTree = .ok (str! "<p class=\"a\">&lt;b&gt; <br></br></p>") := by
  refine ⟨?_, by decide +kernel⟩
  refine .cons _ _ (.elem _ _ _ _ _ (blanks_dec rfl) (blanks_dec rfl) (nameOk_dec (by decide)) (by decide) ?_) .nil
  refine .cons _ _ (.attr _ _ _ _ (blanks_dec (by decide)) (nameOk_dec (by decide)) ?_) ?_
  · intro a ha
    rcases ha with h | h | h | h <;> cases h
    decide
  refine .cons _ _ (.string _ (blanks_dec (by decide))) (.cons _ _ ?_ .nil)
  exact .elem _ _ _ _ _ (blanks_dec (by decide)) (blanks_dec rfl) (nameOk_dec (by decide)) (by decide) .nil

end Seam
