import Verif.Spec.Written
import Verif.Lemmas.Sheet
import Verif.Lemmas.Slices
import Verif.Lemmas.Markup
import Verif.Lemmas.Void

/-! The XML and HTML generators write the text of `Spec.XmlTexts` and `Spec.HtmlTexts`. -/

namespace Seam
open Spec

theorem withGap_setLw (g : Str) (n : PNode) : withGap g n = n.setLw g := by cases n <;> rfl
theorem gap_lw (n : PNode) : gap n = n.lw := by cases n <;> rfl
theorem setLw_own (n : PNode) : n.setLw n.lw = n := by cases n <;> rfl
theorem noAttr_iff (n : PNode) : NoAttr n ↔ n.isAttr = false := by
  cases n <;> simp [NoAttr, PNode.isAttr, PNode.attribute?]

theorem isAttr_attr {n : PNode} (h : n.isAttr = true) : ∃ k v s w, n = .attr k v s w := by
  cases n <;> simp [PNode.isAttr, PNode.attribute?] at h ⊢

theorem escaped_unique : ∀ {t v : Str}, EscText t v → ∀ {u : Str}, EscText u v → t = u
  | _, _, .nil, _, .nil => rfl
  | _, _, .plain c t v hc h, _, h' => by
    cases h' with
    | plain _ t' _ _ h' => rw [escaped_unique h h']
    | entity _ e t' _ he h' => exact absurd rfl (hc _ he)
  | _, _, .entity c e t v he h, _, h' => by
    cases h' with
    | plain _ t' _ hc h' => exact absurd rfl (hc _ he)
    | entity _ e' t' _ he' h' =>
      have : e = e' := by
        simp only [entities, List.mem_cons, Prod.mk.injEq, List.not_mem_nil, or_false] at he he'
        rcases he with ⟨rfl, rfl⟩ | ⟨rfl, rfl⟩ | ⟨rfl, rfl⟩ | ⟨rfl, rfl⟩ | ⟨rfl, rfl⟩ <;> simp at he' <;> simp [he']
      rw [this, escaped_unique h h']

theorem escapeXml_unique {t v : Str} (h : EscText t v) : escapeXml v = t := escaped_unique (escapeXml_escText v) h

theorem settled_adjust : ∀ ns : List PNode, Settled ns (adjustFirst ns)
  | [] => .nil
  | n :: ns => by
    rw [adjustFirst, firstLw]
    by_cases h : '\n' ∈ n.lw
    · have h' : n.lw.contains '\n' = true := by simpa using h
      rw [if_pos h', setLw_own]
      exact .keep n ns (by rwa [gap_lw])
    · have h' : ¬ n.lw.contains '\n' = true := by simpa using h
      rw [if_neg h', ← withGap_setLw]
      exact .drop n ns (by rwa [gap_lw])

theorem adjust_settled {ns ms : List PNode} (h : Settled ns ms) : adjustFirst ns = ms := by
  cases h with
  | nil => rfl
  | keep n ns hn =>
    rw [gap_lw] at hn
    rw [adjustFirst, firstLw]
    rw [if_pos (by simpa using hn), setLw_own]
  | drop n ns hn =>
    rw [gap_lw] at hn
    rw [adjustFirst, firstLw]
    rw [if_neg (by simpa using hn), withGap_setLw]

theorem firstOnNextLine_iff (ks : List PNode) : firstOnNextLine ks = true ↔ ∃ n ∈ ks.head?, '\n' ∈ gap n := by
  cases ks with
  | nil => simp [firstOnNextLine]
  | cons k ks => simp [firstOnNextLine, gap_lw]

theorem closeWs_gap (tag w : Str) (e : Token) (ks : List PNode) :
    CloseGap tag w e ks (closeWs tag w e (firstOnNextLine ks)) := by
  unfold closeWs
  by_cases he : e.lw = []
  · rw [if_pos (by simp [he])]
    by_cases h : (∃ n ∈ ks.head?, '\n' ∈ gap n) ∨ tag = str! "style"
    · rw [if_pos (by rw [Bool.or_eq_true, firstOnNextLine_iff, beq_iff_eq]; exact h)]
      exact .line he h
    · rw [if_neg (by rw [Bool.or_eq_true, firstOnNextLine_iff, beq_iff_eq]; exact h)]
      rw [not_or] at h
      exact .none he (fun n hn hb => h.1 ⟨n, hn, hb⟩) h.2
  · rw [if_neg (by simpa using he)]
    exact .own he

theorem closeGap_unique {tag w : Str} {e : Token} {ks : List PNode} {g : Str} (h : CloseGap tag w e ks g) :
    closeWs tag w e (firstOnNextLine ks) = g := by
  unfold closeWs
  cases h with
  | own he => rw [if_neg (by simpa using he)]
  | line he h => rw [if_pos (by simp [he]), if_pos (by rw [Bool.or_eq_true, firstOnNextLine_iff, beq_iff_eq]; exact h)]
  | none he h1 h2 =>
    rw [if_pos (by simp [he]), if_neg]
    rw [Bool.or_eq_true, firstOnNextLine_iff, beq_iff_eq]
    rintro (⟨n, hn, hb⟩ | h)
    · exact h1 n hn hb
    · exact h2 h

/-- The leading attributes and the rest. -/
theorem kids_split : ∀ rest : List PNode, ∃ attrs, rest = attrs ++ kids rest ∧ (∀ n ∈ attrs, n.isAttr = true) ∧
    (∀ n ∈ (kids rest).head?, n.isAttr = false)
  | [] => ⟨[], rfl, by simp, by simp [kids]⟩
  | n :: ns => by
    unfold kids
    cases h : n.isAttr with
    | true =>
      obtain ⟨as, h1, h2, h3⟩ := kids_split ns
      refine ⟨n :: as, ?_, ?_, ?_⟩
      · rw [List.dropWhile_cons, h, if_pos rfl, List.cons_append]
        exact congrArg _ h1
      · intro m hm
        rcases List.mem_cons.1 hm with rfl | hm
        · exact h
        · exact h2 m hm
      · rw [List.dropWhile_cons, h, if_pos rfl]
        exact h3
    | false => exact ⟨[], by rw [List.dropWhile_cons, h]; simp, by simp, by rw [List.dropWhile_cons, h]; simpa using h⟩

theorem kids_append : ∀ {attrs ks : List PNode}, (∀ n ∈ attrs, n.isAttr = true) → (∀ n ∈ ks.head?, n.isAttr = false) →
    kids (attrs ++ ks) = ks
  | [], ks, _, h => by
    unfold kids
    cases ks with
    | nil => rfl
    | cons n ks => rw [List.nil_append, List.dropWhile_cons, h n (by simp)]; simp
  | n :: as, ks, ha, h => by
    have := kids_append (attrs := as) (fun m hm => ha m (by simp [hm])) h
    unfold kids at this ⊢
    rw [List.cons_append, List.dropWhile_cons, ha n (by simp), if_pos rfl, this]

/-! ## XML -/

theorem xmlAttrs_written : ∀ (attrs ks : List PNode) (t : Str), (∀ n ∈ attrs, n.isAttr = true) →
    (∀ n ∈ ks.head?, n.isAttr = false) → xmlAttrs (attrs ++ ks) = .ok t → ∃ ts, Pairs XmlAttr attrs ts ∧ t = ts.flatten
  | [], ks, t, _, hk, h => by
    refine ⟨[], .nil, ?_⟩
    cases ks with
    | nil => simpa [xmlAttrs] using h.symm
    | cons n ks =>
      have := hk n (by simp)
      cases n with
      | attr => simp [PNode.isAttr, PNode.attribute?] at this
      | _ => simpa [xmlAttrs] using h.symm
  | n :: as, ks, t, ha, hk, h => by
    obtain ⟨k, v, s, w, rfl⟩ := isAttr_attr (ha n (by simp))
    simp only [List.cons_append, xmlAttrs, Res.bind_eq_ok, Res.ok.injEq] at h
    obtain ⟨a, h1, b, h2, rfl⟩ := h
    obtain ⟨ts, hts, rfl⟩ := xmlAttrs_written as ks b (fun m hm => ha m (by simp [hm])) hk h2
    simp only [xmlAttr] at h1
    cases hv : v.atomic? with
    | none => rw [hv] at h1; simp at h1
    | some x =>
      rw [hv] at h1
      simp only [Res.ok.injEq] at h1
      subst h1
      exact ⟨_, .cons (.mk k v x s w (isAtom_iff.1 hv)) hts, by simp⟩

theorem xmlAttr_isAttr {n : PNode} {t : Str} (h : XmlAttr n t) : n.isAttr = true := by cases h; rfl

theorem text_xmlAttrs : ∀ {attrs : List PNode} {ts : List Str} (ks : List PNode), Pairs XmlAttr attrs ts →
    (∀ n ∈ ks.head?, n.isAttr = false) → xmlAttrs (attrs ++ ks) = .ok ts.flatten ∧ ∀ n ∈ attrs, n.isAttr = true
  | _, _, ks, .nil, hk => by
    refine ⟨?_, by simp⟩
    cases ks with
    | nil => rfl
    | cons n ks =>
      have := hk n (by simp)
      cases n with
      | attr => simp [PNode.isAttr, PNode.attribute?] at this
      | _ => rfl
  | _, _, ks, .cons h hs, hk => by
    obtain ⟨h1, h2⟩ := text_xmlAttrs ks hs hk
    cases h with
    | mk k v a s w ha =>
      refine ⟨by simp [xmlAttrs, xmlAttr, isAtom_iff.2 ha, h1], ?_⟩
      intro m hm
      rcases List.mem_cons.1 hm with rfl | hm
      · rfl
      · exact h2 m hm

theorem xmlDecl_written : ∀ (ns : List PNode) (t : Str), xmlDecl ns = .ok t → ∃ ts, Pairs XmlItem ns ts ∧ t = ts.flatten
  | [], t, h => ⟨[], .nil, by simpa [xmlDecl] using h.symm⟩
  | n :: ns, t, h => by
    cases n with
    | symbol a | number a =>
      simp only [xmlDecl, Res.bind_eq_ok, Res.ok.injEq] at h
      obtain ⟨b, hb, rfl⟩ := h
      obtain ⟨ts, hts, rfl⟩ := xmlDecl_written ns b hb
      exact ⟨_, .cons (.word _ a (by simp)) hts, rfl⟩
    | attr k v s w =>
      simp only [xmlDecl, Res.bind_eq_ok, Res.ok.injEq] at h
      obtain ⟨x, h1, b, hb, rfl⟩ := h
      obtain ⟨ts, hts, rfl⟩ := xmlDecl_written ns b hb
      simp only [xmlAttr] at h1
      cases hv : v.atomic? with
      | none => rw [hv] at h1; simp at h1
      | some x =>
        rw [hv] at h1
        simp only [Res.ok.injEq] at h1
        subst h1
        exact ⟨_, .cons (.attr _ _ (.mk k v x s w (isAtom_iff.1 hv))) hts, by simp⟩
    | _ => simp [xmlDecl] at h

theorem text_xmlDecl : ∀ {ns : List PNode} {ts : List Str}, Pairs XmlItem ns ts → xmlDecl ns = .ok ts.flatten
  | _, _, .nil => rfl
  | _, _, .cons h hs => by
    have ih := text_xmlDecl hs
    cases h with
    | word _ hn => rcases hn with rfl | rfl <;> simp [xmlDecl, ih]
    | attr _ ht => cases ht with | mk k v a s w ha => simp [xmlDecl, xmlAttr, isAtom_iff.2 ha, ih]

/-- Whitespace is taken from the argument, not from the node. -/
theorem xmlNode_setLw (lw g : Str) (n : PNode) : xmlNode lw (n.setLw g) = xmlNode lw n := by
  cases n with
  | list ns s e w =>
    cases ns with
    | nil => simp [PNode.setLw, xmlNode]
    | cons h rest =>
      cases h with
      | symbol h => simp only [PNode.setLw, xmlNode]
      | _ => simp [PNode.setLw, xmlNode]
  | _ => simp [PNode.setLw, xmlNode]

theorem xmlLead_adjust : ∀ {attrs : List PNode} (ks : List PNode), (∀ n ∈ attrs, n.isAttr = true) →
    (∀ n ∈ ks.head?, n.isAttr = false) → xmlKids .lead (attrs ++ ks) = xmlKids .rest (adjustFirst ks)
  | [], ks, _, h => by
    cases ks with
    | nil => simp [xmlKids, adjustFirst]
    | cons n ks =>
      have hn := h n (by simp)
      rw [List.nil_append, xmlKids, if_neg (by simp [hn]), adjustFirst, xmlKids, xmlNode_setLw]
      congr 1
      cases n <;> rfl
  | n :: as, ks, ha, h => by
    rw [List.cons_append, xmlKids, if_pos (ha n (by simp)), xmlLead_adjust ks (fun m hm => ha m (by simp [hm])) h]

mutual
theorem xmlNode_text : ∀ (n : PNode) (g t : Str), xmlNode g n = .ok t → XmlText (n.setLw g) t
  | .symbol a, g, t, h => by
    simp only [xmlNode, Res.ok.injEq] at h
    subst h
    exact .text _ { a with lw := g } _ (by simp [PNode.setLw]) (escapeXml_escText _)
  | .number a, g, t, h => by
    simp only [xmlNode, Res.ok.injEq] at h
    subst h
    exact .text _ { a with lw := g } _ (by simp [PNode.setLw]) (escapeXml_escText _)
  | .string a, g, t, h => by
    simp only [xmlNode, Res.ok.injEq] at h
    subst h
    exact .text _ { a with lw := g } _ (by simp [PNode.setLw]) (escapeXml_escText _)
  | .raw a, g, t, h => by simp [xmlNode] at h
  | .attr k v s w, g, t, h => by simp [xmlNode] at h
  | .list [] s e w, g, t, h => by simp [xmlNode] at h
  | .list (.symbol a :: rest) s e w, g, t, h => by
    rw [xmlNode] at h
    cases hv : a.value with
    | nil => rw [hv] at h; simp at h
    | cons front r =>
      rw [hv] at h
      simp only [] at h
      by_cases hf : (front == '!' || front == '?') = true
      · rw [if_pos hf] at h
        simp only [Res.bind_eq_ok, Res.ok.injEq] at h
        obtain ⟨d, hd, rfl⟩ := h
        obtain ⟨ts, hts, rfl⟩ := xmlDecl_written rest d hd
        rw [Bool.or_eq_true, beq_iff_eq, beq_iff_eq] at hf
        rcases hf with rfl | rfl
        · have := XmlText.decl a rest s e g r ts hv hts
          rw [hv] at this
          simpa [PNode.setLw] using this
        · have := XmlText.pi a rest s e g r ts hv hts
          rw [hv] at this
          simpa [PNode.setLw] using this
      · rw [if_neg hf] at h
        simp only [Res.bind_eq_ok, Res.ok.injEq] at h
        obtain ⟨as, has, cs, hcs, rfl⟩ := h
        rw [Bool.or_eq_true, beq_iff_eq, beq_iff_eq, not_or] at hf
        obtain ⟨attrs, hsp, ha, hk⟩ := kids_split rest
        obtain ⟨ts, hts, rfl⟩ := xmlAttrs_written attrs (kids rest) as ha hk (by rw [← hsp]; exact has)
        have hkt := xmlLead_text rest cs hcs
        have := XmlText.elem a attrs (kids rest) _ s e g ts cs _ (by simp [hv]) (by rw [hv]; intro r hr; simp at hr; exact hf.1 hr.1)
          (by rw [hv]; intro r hr; simp at hr; exact hf.2 hr.1) hts (fun n hn => (noAttr_iff n).2 (hk n hn))
          (settled_adjust _) hkt (closeWs_gap _ _ _ _)
        rw [← hsp, hv] at this
        simpa [PNode.setLw] using this
  | .list (.number a :: rest) s e w, g, t, h => by simp [xmlNode] at h
  | .list (.string a :: rest) s e w, g, t, h => by simp [xmlNode] at h
  | .list (.raw a :: rest) s e w, g, t, h => by simp [xmlNode] at h
  | .list (.list _ _ _ _ :: rest) s e w, g, t, h => by simp [xmlNode] at h
  | .list (.attr _ _ _ _ :: rest) s e w, g, t, h => by simp [xmlNode] at h
theorem xmlLead_text : ∀ (ns : List PNode) (t : Str), xmlKids .lead ns = .ok t → XmlTexts (adjustFirst (kids ns)) t
  | [], t, h => by
    simp only [xmlKids, Res.ok.injEq] at h
    subst h
    exact .nil
  | n :: ns, t, h => by
    rw [xmlKids] at h
    unfold kids
    by_cases ha : n.isAttr = true
    · rw [if_pos ha] at h
      rw [List.dropWhile_cons, if_pos ha]
      exact xmlLead_text ns t h
    · rw [if_neg ha] at h
      simp only [Res.bind_eq_ok, Res.ok.injEq] at h
      obtain ⟨a, h1, b, h2, rfl⟩ := h
      rw [List.dropWhile_cons, if_neg ha]
      exact .cons _ _ _ _ (xmlNode_text n _ a h1) (xmlRest_text ns b h2)
theorem xmlRest_text : ∀ (ns : List PNode) (t : Str), xmlKids .rest ns = .ok t → XmlTexts ns t
  | [], t, h => by
    simp only [xmlKids, Res.ok.injEq] at h
    subst h
    exact .nil
  | n :: ns, t, h => by
    rw [xmlKids] at h
    simp only [Res.bind_eq_ok, Res.ok.injEq] at h
    obtain ⟨a, h1, b, h2, rfl⟩ := h
    have := xmlNode_text n _ a h1
    rw [setLw_own] at this
    exact .cons _ _ _ _ this (xmlRest_text ns b h2)
end

mutual
theorem text_xmlNode : ∀ {n : PNode} {t : Str}, XmlText n t → xmlNode n.lw n = .ok t
  | _, _, .text n a t hn ht => by
    rcases hn with rfl | rfl | rfl <;> simp [xmlNode, PNode.lw, escapeXml_unique ht]
  | _, _, .decl a rest s e w r ts hv hts => by
    rw [xmlNode, hv]
    simp [text_xmlDecl hts, PNode.lw]
  | _, _, .pi a rest s e w r ts hv hts => by
    rw [xmlNode, hv]
    simp [text_xmlDecl hts, PNode.lw]
  | _, _, .elem a attrs ks ks' s e w ts t g hne hb hq hts hk hse ht hg => by
    have hk' : ∀ n ∈ ks.head?, n.isAttr = false := fun n hn => (noAttr_iff n).1 (hk n hn)
    obtain ⟨h1, h2⟩ := text_xmlAttrs ks hts hk'
    have ih := text_xmlKids ht
    have hcl := closeGap_unique hg
    rw [← adjust_settled hse] at ih
    rw [xmlNode]
    cases hv : a.value with
    | nil => exact absurd hv hne
    | cons front r =>
      have hf : ¬ (front == '!' || front == '?') = true := by
        rw [Bool.or_eq_true, beq_iff_eq, beq_iff_eq, not_or]
        exact ⟨fun h => hb r (by rw [hv, h]), fun h => hq r (by rw [hv, h])⟩
      simp only []
      rw [if_neg hf, h1, xmlLead_adjust ks h2 hk', ih, kids_append h2 hk', ← hv]
      simp only [Res.ok_bind, PNode.lw, hcl]
      simp
theorem text_xmlKids : ∀ {ns : List PNode} {t : Str}, XmlTexts ns t → xmlKids .rest ns = .ok t
  | _, _, .nil => by simp [xmlKids]
  | _, _, .cons n ns t u h hs => by
    rw [xmlKids, text_xmlNode h, text_xmlKids hs]
    rfl
end

theorem xmlGenerate_iff (ns : List PNode) (t : Str) : xmlGenerate ns = .ok t ↔ XmlTexts ns t :=
  ⟨xmlRest_text ns t, text_xmlKids⟩

/-! ## Plain text and S-expressions -/

mutual
theorem textNode_text : ∀ n : PNode, PlainText n (textNode n)
  | .symbol a => by rw [textNode]; exact .atom _ a (Or.inl rfl)
  | .number a => by rw [textNode]; exact .atom _ a (Or.inr (Or.inl rfl))
  | .string a => by rw [textNode]; exact .atom _ a (Or.inr (Or.inr (Or.inl rfl)))
  | .raw a => by rw [textNode]; exact .atom _ a (Or.inr (Or.inr (Or.inr rfl)))
  | .list ns s e w => by
    have := PlainText.list ns s e w _ (textNodes_text ns)
    simpa [textNode] using this
  | .attr k n s w => by
    have := PlainText.attr k n s w _ (textNode_text n)
    simpa [textNode] using this
theorem textNodes_text : ∀ ns : List PNode, PlainTexts ns (textNodes ns)
  | [] => .nil
  | n :: ns => by rw [textNodes]; exact .cons _ _ _ _ (textNode_text n) (textNodes_text ns)
end

mutual
theorem text_textNode : ∀ {n : PNode} {t : Str}, PlainText n t → textNode n = t
  | _, _, .atom n a hn => by rcases hn with rfl | rfl | rfl | rfl <;> simp [textNode]
  | _, _, .list ns s e w t h => by rw [textNode, text_textNodes h]; simp
  | _, _, .attr k n s w t h => by rw [textNode, text_textNode h]; simp
theorem text_textNodes : ∀ {ns : List PNode} {t : Str}, PlainTexts ns t → textNodes ns = t
  | _, _, .nil => rfl
  | _, _, .cons n ns t u h hs => by rw [textNodes, text_textNode h, text_textNodes hs]
end

mutual
theorem sexpNode_text (dbg : Str → Str) : ∀ n : PNode, CodeText dbg n (sexpNode dbg n)
  | .symbol a => by rw [sexpNode]; exact .word _ a (Or.inl rfl)
  | .number a => by rw [sexpNode]; exact .word _ a (Or.inr rfl)
  | .string a => by rw [sexpNode]; exact .string a
  | .raw a => by rw [sexpNode]; exact .raw a
  | .list ns s e w => by
    have := CodeText.list ns s e w _ (sexpNodes_text dbg ns)
    simpa [sexpNode] using this
  | .attr k n s w => by
    have := CodeText.attr k n s w _ (sexpNode_text dbg n)
    simpa [sexpNode] using this
theorem sexpNodes_text (dbg : Str → Str) : ∀ ns : List PNode, CodeTexts dbg ns (sexpNodes dbg ns)
  | [] => .nil
  | n :: ns => by rw [sexpNodes]; exact .cons _ _ _ _ (sexpNode_text dbg n) (sexpNodes_text dbg ns)
end

mutual
theorem text_sexpNode (dbg : Str → Str) : ∀ {n : PNode} {t : Str}, CodeText dbg n t → sexpNode dbg n = t
  | _, _, .word n a hn => by rcases hn with rfl | rfl <;> simp [sexpNode]
  | _, _, .string a => by rw [sexpNode]
  | _, _, .raw a => by rw [sexpNode]
  | _, _, .list ns s e w t h => by rw [sexpNode, text_sexpNodes dbg h]; simp
  | _, _, .attr k n s w t h => by rw [sexpNode, text_sexpNode dbg h]; simp
theorem text_sexpNodes (dbg : Str → Str) : ∀ {ns : List PNode} {t : Str}, CodeTexts dbg ns t → sexpNodes dbg ns = t
  | _, _, .nil => rfl
  | _, _, .cons n ns t u h hs => by rw [sexpNodes, text_sexpNode dbg h, text_sexpNodes dbg hs]
end

/-! ## HTML -/

theorem lowerChar_bang {c : Char} (h : lowerChar c = '!') : c = '!' := by
  unfold lowerChar at h
  split at h
  · rename_i hc
    exfalso
    have h1 : c.toNat ≤ 90 := hc.2
    have h2 : 65 ≤ c.toNat := hc.1
    have : ∀ n, 65 ≤ n → n ≤ 90 → Char.ofNat (n + 32) ≠ '!' := by
      intro n ha hb
      obtain ⟨i, rfl⟩ : ∃ i : Fin 26, n = 65 + i.val := ⟨⟨n - 65, by omega⟩, by simp; omega⟩
      revert i
      intro i _ _
      revert i
      decide
    exact this _ h2 h1 h
  · exact h

theorem dropBytes_some : ∀ {s t : Str} {n : Nat}, dropBytes s n = some t → ∃ a, s = a ++ t ∧ blen a = n
  | s, t, 0, h => by simp only [dropBytes, Option.some.injEq] at h; exact ⟨[], by simp [h], rfl⟩
  | [], t, n + 1, h => by simp [dropBytes] at h
  | c :: cs, t, n + 1, h => by
    rw [dropBytes] at h
    split at h
    · rename_i hc
      obtain ⟨a, rfl, ha⟩ := dropBytes_some h
      exact ⟨c :: a, rfl, by simp [ha]; omega⟩
    · simp at h

theorem takeBytes_some : ∀ {s t : Str} {n : Nat}, takeBytes s n = some t → ∃ b, s = t ++ b ∧ blen t = n
  | s, t, 0, h => by simp only [takeBytes, Option.some.injEq] at h; exact ⟨s, by simp [← h], by simp [← h]⟩
  | [], t, n + 1, h => by simp [takeBytes] at h
  | c :: cs, t, n + 1, h => by
    rw [takeBytes] at h
    split at h
    · rename_i hc
      rw [Option.map_eq_some_iff] at h
      obtain ⟨u, hu, rfl⟩ := h
      obtain ⟨b, rfl, hb⟩ := takeBytes_some hu
      exact ⟨b, rfl, by simp [hb]; omega⟩
    · simp at h

theorem sliceBytes_some {s t : Str} {a b : Nat} (h : sliceBytes s a b = some t) :
    ∃ before after, s = before ++ t ++ after ∧ blen before = a ∧ b = blen before + blen t := by
  unfold sliceBytes at h
  split at h
  · rename_i hab
    rw [Option.bind_eq_some_iff] at h
    obtain ⟨u, hu, ht⟩ := h
    obtain ⟨p, rfl, hp⟩ := dropBytes_some hu
    obtain ⟨q, rfl, hq⟩ := takeBytes_some ht
    exact ⟨p, q, by simp, hp, by omega⟩
  · simp at h

theorem rawText_source (k : PNode) (e : Token) (t : Str) : rawText (some k) e = .ok t ↔ SourceText k e t := by
  have hs : ∀ before after : Str, ∀ i, i = blen before → e.site.code = before ++ t ++ after →
      e.site.off = blen before + blen t → sliceBytes e.site.code i e.site.off = some t := by
    intro before after i hi hc ho
    rw [hc, ho, hi, List.append_assoc, sliceBytes_append]
  unfold rawText
  simp only []
  constructor
  · intro h
    by_cases hb : k.site.buf = e.site.buf
    · rw [if_pos hb] at h
      by_cases hl : blen k.lw ≤ k.site.off
      · rw [if_pos hl] at h
        by_cases hh : k.lw.head? = some ' '
        · rw [if_pos hh] at h
          obtain ⟨r, hr⟩ : ∃ r, k.lw = ' ' :: r := by
            cases hk : k.lw with
            | nil => rw [hk] at hh; simp at hh
            | cons c r => rw [hk] at hh; simp at hh; exact ⟨r, by rw [hh]⟩
          cases hsl : sliceBytes e.site.code (k.site.off - blen k.lw + 1) e.site.off with
          | none => rw [hsl] at h; simp at h
          | some u =>
            rw [hsl] at h
            simp only [Res.ok.injEq] at h
            subst h
            obtain ⟨before, after, h1, h2, h3⟩ := sliceBytes_some hsl
            exact .blank before r u after (by rw [gap_lw, hr]) hb (by rw [gap_lw]; exact hl) h1
              (by rw [gap_lw]; omega) h3
        · rw [if_neg hh] at h
          cases hsl : sliceBytes e.site.code (k.site.off - blen k.lw + 0) e.site.off with
          | none => rw [hsl] at h; simp at h
          | some u =>
            rw [hsl] at h
            simp only [Res.ok.injEq] at h
            subst h
            obtain ⟨before, after, h1, h2, h3⟩ := sliceBytes_some hsl
            exact .other before u after (by intro r hr; rw [gap_lw] at hr; exact hh (by rw [hr]; rfl)) hb h1
              (by rw [gap_lw]; omega) h3
      · rw [if_neg hl] at h; simp at h
    · rw [if_neg hb] at h; simp at h
  · intro h
    cases h with
    | blank before r _ after hg hb hl hc ho he =>
      rw [gap_lw] at hg hl ho
      rw [if_pos hb, if_pos hl, if_pos (by rw [hg]; rfl), hs before after _ (by omega) hc he]
    | other before _ after hg hb hc ho he =>
      rw [gap_lw] at ho
      rw [if_pos hb, if_pos (by omega), if_neg, hs before after _ (by omega) hc he]
      intro hh
      cases hk : k.lw with
      | nil => rw [hk] at hh; simp at hh
      | cons c r => rw [hk] at hh; simp at hh; exact hg r (by rw [gap_lw, hk, hh])

theorem htmlAttrs_written : ∀ (attrs ks : List PNode) (t : Str), (∀ n ∈ attrs, n.isAttr = true) →
    (∀ n ∈ ks.head?, n.isAttr = false) → htmlAttrs (attrs ++ ks) = .ok t → ∃ ts, Pairs HtmlAttr attrs ts ∧ t = ts.flatten
  | [], ks, t, _, hk, h => by
    refine ⟨[], .nil, ?_⟩
    cases ks with
    | nil => simpa [htmlAttrs] using h.symm
    | cons n ks =>
      have := hk n (by simp)
      cases n with
      | attr => simp [PNode.isAttr, PNode.attribute?] at this
      | _ => simpa [htmlAttrs] using h.symm
  | n :: as, ks, t, ha, hk, h => by
    obtain ⟨k, v, s, w, rfl⟩ := isAttr_attr (ha n (by simp))
    rw [List.cons_append, htmlAttrs] at h
    cases hv : v.atomic? with
    | none => rw [hv] at h; simp at h
    | some x =>
      rw [hv] at h
      simp only [Res.bind_eq_ok, Res.ok.injEq] at h
      obtain ⟨b, h2, rfl⟩ := h
      obtain ⟨ts, hts, rfl⟩ := htmlAttrs_written as ks b (fun m hm => ha m (by simp [hm])) hk h2
      exact ⟨_, .cons (.mk k v x s w (isAtom_iff.1 hv)) hts, by simp [attrText]⟩

theorem text_htmlAttrs : ∀ {attrs : List PNode} {ts : List Str} (ks : List PNode), Pairs HtmlAttr attrs ts →
    (∀ n ∈ ks.head?, n.isAttr = false) → htmlAttrs (attrs ++ ks) = .ok ts.flatten ∧ ∀ n ∈ attrs, n.isAttr = true
  | _, _, ks, .nil, hk => by
    refine ⟨?_, by simp⟩
    cases ks with
    | nil => rfl
    | cons n ks =>
      have := hk n (by simp)
      cases n with
      | attr => simp [PNode.isAttr, PNode.attribute?] at this
      | _ => rfl
  | _, _, ks, .cons h hs, hk => by
    obtain ⟨h1, h2⟩ := text_htmlAttrs ks hs hk
    cases h with
    | mk k v a s w ha =>
      refine ⟨by simp [htmlAttrs, attrText, isAtom_iff.2 ha, h1], ?_⟩
      intro m hm
      rcases List.mem_cons.1 hm with rfl | hm
      · rfl
      · exact h2 m hm

theorem htmlDecl_written : ∀ (ns : List PNode) (t : Str), htmlDecl ns = .ok t → ∃ ts, Pairs HtmlItem ns ts ∧ t = ts.flatten
  | [], t, h => ⟨[], .nil, by simpa [htmlDecl] using h.symm⟩
  | n :: ns, t, h => by
    rw [htmlDecl] at h
    cases hs : n.symbolic? with
    | none => rw [hs] at h; simp at h
    | some a =>
      rw [hs] at h
      simp only [Res.bind_eq_ok, Res.ok.injEq] at h
      obtain ⟨b, hb, rfl⟩ := h
      obtain ⟨ts, hts, rfl⟩ := htmlDecl_written ns b hb
      have hn : n = .symbol a ∨ n = .number a := by cases n <;> simp [PNode.symbolic?] at hs <;> simp [hs]
      exact ⟨_, .cons (.word _ a hn) hts, by simp⟩

theorem text_htmlDecl : ∀ {ns : List PNode} {ts : List Str}, Pairs HtmlItem ns ts → htmlDecl ns = .ok ts.flatten
  | _, _, .nil => rfl
  | _, _, .cons h hs => by
    have ih := text_htmlDecl hs
    cases h with
    | word _ hn => rcases hn with rfl | rfl <;> simp [htmlDecl, PNode.symbolic?, ih]

theorem htmlNode_setLw (dbg : Str → Str) (lw g : Str) (n : PNode) : htmlNode dbg lw (n.setLw g) = htmlNode dbg lw n := by
  cases n with
  | list ns s e w =>
    cases ns with
    | nil => simp [PNode.setLw, htmlNode]
    | cons h rest =>
      cases h with
      | symbol h => simp only [PNode.setLw, htmlNode]
      | _ => simp [PNode.setLw, htmlNode]
  | _ => simp [PNode.setLw, htmlNode]

theorem htmlLead_adjust (dbg : Str → Str) : ∀ {attrs : List PNode} (ks : List PNode), (∀ n ∈ attrs, n.isAttr = true) →
    (∀ n ∈ ks.head?, n.isAttr = false) → htmlKids dbg .lead (attrs ++ ks) = htmlKids dbg .rest (adjustFirst ks)
  | [], ks, _, h => by
    cases ks with
    | nil => simp [htmlKids, adjustFirst]
    | cons n ks =>
      have hn := h n (by simp)
      rw [List.nil_append, htmlKids, if_neg (by simp [hn]), adjustFirst, htmlKids, htmlNode_setLw]
      congr 1
      cases n <;> rfl
  | n :: as, ks, ha, h => by
    rw [List.cons_append, htmlKids, if_pos (ha n (by simp)), htmlLead_adjust dbg ks (fun m hm => ha m (by simp [hm])) h]

theorem special_other (tag : Str) : htmlSpecial tag = true ↔ tag ∈ otherContent := by
  unfold htmlSpecial otherContent
  simp only [Bool.or_eq_true, beq_iff_eq, List.mem_cons, List.not_mem_nil, or_false]
  simp only [or_assoc]

theorem adjust_string {ks : List PNode} {a : Node} {rest : List PNode} (h : adjustFirst ks = .string a :: rest) :
    ∃ b, ks = .string b :: rest ∧ b.value = a.value := by
  cases ks with
  | nil => simp [adjustFirst] at h
  | cons n ns =>
    rw [adjustFirst] at h
    cases n with
    | string b =>
      simp only [PNode.setLw, List.cons.injEq, PNode.string.injEq] at h
      exact ⟨b, by rw [h.2], by rw [← h.1]⟩
    | _ => simp [PNode.setLw] at h

theorem adjust_notString {ks : List PNode} (h : ∀ a rest, adjustFirst ks ≠ .string a :: rest) :
    ∀ n ∈ ks.head?, ∀ a, n ≠ .string a := by
  intro n hn a hna
  cases ks with
  | nil => simp at hn
  | cons m ms =>
    simp at hn
    subst hn
    subst hna
    exact h _ _ rfl

theorem notString_adjust {ks : List PNode} (h : ∀ n ∈ ks.head?, ∀ a, n ≠ .string a) :
    ∀ a rest, adjustFirst ks ≠ .string a :: rest := by
  intro a rest hr
  obtain ⟨b, hb, _⟩ := adjust_string hr
  subst hb
  exact h (.string b) (by simp) b rfl

theorem special_content (dbg : Str → Str) (tag : Str) (ks : List PNode) (e : Token) (t : Str) (hs : tag ∈ otherContent)
    (h : htmlSpecialContent dbg tag ks e = .ok t) : HtmlContent dbg tag ks e t := by
  unfold htmlSpecialContent at h
  by_cases h1 : tag = str! "pre"
  · subst h1
    rw [if_pos (by simp)] at h
    cases ks with
    | nil => simp [rawText] at h; subst h; exact .noPre e
    | cons k ks => exact .pre k ks e t ((rawText_source k e t).1 h)
  rw [if_neg (by simpa using h1)] at h
  by_cases h2 : tag = str! "textarea" ∨ tag = str! "title"
  · rw [if_pos (by rw [Bool.or_eq_true, beq_iff_eq, beq_iff_eq]; exact h2)] at h
    simp only [Res.ok.injEq] at h
    subst h
    exact .plain tag ks _ e _ h2.symm (settled_adjust ks) (textNodes_text _)
  rw [if_neg (by rw [Bool.or_eq_true, beq_iff_eq, beq_iff_eq]; exact h2)] at h
  by_cases h3 : tag = str! "style"
  · subst h3
    rw [if_pos (by simp)] at h
    split at h
    · rename_i s hk
      simp only [Res.ok.injEq] at h
      obtain ⟨b, rfl, hb⟩ := adjust_string hk
      rw [← h, ← hb]
      exact .css b e
    · simp at h
    · rename_i hn1 hn2
      simp only [Res.bind_eq_ok, Res.ok.injEq] at h
      obtain ⟨c, hc, rfl⟩ := h
      refine .style ks _ e c (adjust_notString fun a rest hr => hn2 a rest hr) (settled_adjust ks) (cssGenerate_text dbg _ _ hc)
  rw [if_neg (by simpa using h3)] at h
  by_cases h4 : tag = str! "script"
  · subst h4
    rw [if_pos (by simp)] at h
    simp only [Res.ok.injEq] at h
    subst h
    exact .script ks _ e _ (settled_adjust ks) (sexpNodes_text dbg _)
  rw [if_neg (by simpa using h4)] at h
  refine .xml tag ks _ e t ?_ (settled_adjust ks) ((xmlGenerate_iff _ _).1 h)
  simp only [otherContent, List.mem_cons, List.not_mem_nil, or_false] at hs
  rcases hs with hs | hs | hs | hs | hs | hs | hs
  · exact absurd hs h1
  · exact absurd (Or.inl hs) h2
  · exact absurd (Or.inr hs) h2
  · exact absurd hs h3
  · exact absurd hs h4
  · exact Or.inl hs
  · exact Or.inr hs

theorem content_special (dbg : Str → Str) {tag : Str} {ks : List PNode} {e : Token} {t : Str} (hs : tag ∈ otherContent)
    (h : HtmlContent dbg tag ks e t) : htmlSpecialContent dbg tag ks e = .ok t := by
  unfold htmlSpecialContent
  cases h with
  | noPre => rfl
  | pre k ks _ _ h => exact (rawText_source k e t).2 h
  | plain _ _ ks' _ _ ht hse h =>
    rw [adjust_settled hse, text_textNodes h]
    rcases ht with rfl | rfl <;> rfl
  | css a => rfl
  | style _ ks' _ u hn hse h =>
    have hns := notString_adjust hn
    rw [adjust_settled hse] at hns ⊢
    rw [if_neg (by decide), if_neg (by decide), if_pos (by decide)]
    split
    · exact absurd rfl (hns _ _)
    · exact absurd rfl (hns _ _)
    · rw [text_cssGenerate dbg h]; rfl
  | script _ ks' _ _ hse h =>
    rw [adjust_settled hse, text_sexpNodes dbg h]
    rfl
  | xml _ _ ks' _ _ ht hse h =>
    rw [adjust_settled hse, (xmlGenerate_iff _ _).2 h]
    rcases ht with rfl | rfl <;> rfl
  | html _ _ _ _ _ hn => exact absurd hs hn

mutual
theorem htmlNode_text (dbg : Str → Str) : ∀ (n : PNode) (g t : Str), htmlNode dbg g n = .ok t → HtmlText dbg (n.setLw g) t
  | .symbol a, g, t, h => by
    simp only [htmlNode, Res.ok.injEq] at h
    subst h
    exact .text _ { a with lw := g } _ (by simp [PNode.setLw]) (escapeXml_escText _)
  | .number a, g, t, h => by
    simp only [htmlNode, Res.ok.injEq] at h
    subst h
    exact .text _ { a with lw := g } _ (by simp [PNode.setLw]) (escapeXml_escText _)
  | .string a, g, t, h => by
    simp only [htmlNode, Res.ok.injEq] at h
    subst h
    exact .text _ { a with lw := g } _ (by simp [PNode.setLw]) (escapeXml_escText _)
  | .raw a, g, t, h => by
    simp only [htmlNode, Res.ok.injEq] at h
    subst h
    exact .raw { a with lw := g }
  | .attr k v s w, g, t, h => by simp [htmlNode] at h
  | .list [] s e w, g, t, h => by simp [htmlNode] at h
  | .list (.symbol a :: rest) s e w, g, t, h => by
    rw [htmlNode] at h
    simp only [] at h
    have hlow : lower a.value = a.value.map lowerChar := rfl
    cases hl : lower a.value with
    | nil => rw [hl] at h; simp at h
    | cons front r =>
      rw [hl] at h
      simp only [] at h
      obtain ⟨c, q, hv, hcf⟩ : ∃ c q, a.value = c :: q ∧ lowerChar c = front := by
        cases hv : a.value with
        | nil => rw [hlow, hv] at hl; simp at hl
        | cons c q => rw [hlow, hv] at hl; simp at hl; exact ⟨c, q, rfl, hl.1⟩
      by_cases hf : (front == '!') = true
      · rw [if_pos hf] at h
        simp only [Res.bind_eq_ok, Res.ok.injEq] at h
        obtain ⟨d, hd, rfl⟩ := h
        obtain ⟨ts, hts, rfl⟩ := htmlDecl_written rest d hd
        rw [beq_iff_eq] at hf
        subst hf
        have := HtmlText.decl (quote := dbg) a rest s e g q ts (by rw [hv, lowerChar_bang hcf]) hts
        simpa [PNode.setLw] using this
      · rw [if_neg hf] at h
        simp only [Res.bind_eq_ok] at h
        obtain ⟨as, has, h⟩ := h
        rw [beq_iff_eq] at hf
        have hnb : ∀ r, a.value ≠ '!' :: r := by
          intro r hr
          rw [hv] at hr
          simp at hr
          rw [hr.1] at hcf
          exact hf (by rw [← hcf]; rfl)
        obtain ⟨attrs, hsp, ha, hk⟩ := kids_split rest
        obtain ⟨ts, hts, rfl⟩ := htmlAttrs_written attrs (kids rest) as ha hk (by rw [← hsp]; exact has)
        rw [← hl, void_iff] at h
        by_cases hvd : lower a.value ∈ voidNames
        · rw [if_pos (by simpa using hvd)] at h
          cases hkr : kids rest with
          | cons k ks => rw [hkr] at h; simp at h
          | nil =>
            rw [hkr] at h hsp
            simp only [Res.ok.injEq] at h
            subst h
            rw [List.append_nil] at hsp
            have := HtmlText.void (quote := dbg) a attrs s e g ts (by rw [← hlow]; exact hvd) hts
            rw [← hsp] at this
            simpa [PNode.setLw] using this
        · rw [if_neg (by simpa using hvd)] at h
          obtain ⟨cs, hc, rfl⟩ : ∃ cs, HtmlContent dbg (lower a.value) (kids rest) e cs ∧ g ++ '<' :: a.value ++ ts.flatten ++ ['>'] ++
              cs ++ closeWs (lower a.value) g e (firstOnNextLine (kids rest)) ++ str! "</" ++ lower a.value ++ ['>'] = t := by
            by_cases hsc : lower a.value ∈ otherContent
            · rw [if_pos ((special_other _).2 hsc)] at h
              simp only [Res.bind_eq_ok, Res.ok.injEq] at h
              obtain ⟨cs, hcs, ht⟩ := h
              exact ⟨cs, special_content dbg _ _ _ _ hsc hcs, ht⟩
            · rw [if_neg (fun h => hsc ((special_other _).1 h))] at h
              simp only [Res.bind_eq_ok, Res.ok.injEq] at h
              obtain ⟨cs, hcs, ht⟩ := h
              exact ⟨cs, .html _ _ _ _ _ hsc (settled_adjust _) (htmlLead_text dbg rest cs hcs), ht⟩
          have := HtmlText.elem (quote := dbg) a attrs (kids rest) s e g ts cs _ (lower a.value) hlow (by rw [hl]; simp)
            hnb hvd hts (fun n hn => (noAttr_iff n).2 (hk n hn)) hc (closeWs_gap _ _ _ _)
          rw [← hsp] at this
          simpa [PNode.setLw] using this
  | .list (.number a :: rest) s e w, g, t, h => by simp [htmlNode] at h
  | .list (.string a :: rest) s e w, g, t, h => by simp [htmlNode] at h
  | .list (.raw a :: rest) s e w, g, t, h => by simp [htmlNode] at h
  | .list (.list _ _ _ _ :: rest) s e w, g, t, h => by simp [htmlNode] at h
  | .list (.attr _ _ _ _ :: rest) s e w, g, t, h => by simp [htmlNode] at h
theorem htmlLead_text (dbg : Str → Str) : ∀ (ns : List PNode) (t : Str), htmlKids dbg .lead ns = .ok t →
    HtmlTexts dbg (adjustFirst (kids ns)) t
  | [], t, h => by
    simp only [htmlKids, Res.ok.injEq] at h
    subst h
    exact .nil
  | n :: ns, t, h => by
    rw [htmlKids] at h
    unfold kids
    by_cases ha : n.isAttr = true
    · rw [if_pos ha] at h
      rw [List.dropWhile_cons, if_pos ha]
      exact htmlLead_text dbg ns t h
    · rw [if_neg ha] at h
      simp only [Res.bind_eq_ok, Res.ok.injEq] at h
      obtain ⟨a, h1, b, h2, rfl⟩ := h
      rw [List.dropWhile_cons, if_neg ha]
      exact .cons _ _ _ _ (htmlNode_text dbg n _ a h1) (htmlRest_text dbg ns b h2)
theorem htmlRest_text (dbg : Str → Str) : ∀ (ns : List PNode) (t : Str), htmlKids dbg .rest ns = .ok t → HtmlTexts dbg ns t
  | [], t, h => by
    simp only [htmlKids, Res.ok.injEq] at h
    subst h
    exact .nil
  | n :: ns, t, h => by
    rw [htmlKids] at h
    simp only [Res.bind_eq_ok, Res.ok.injEq] at h
    obtain ⟨a, h1, b, h2, rfl⟩ := h
    have := htmlNode_text dbg n _ a h1
    rw [setLw_own] at this
    exact .cons _ _ _ _ this (htmlRest_text dbg ns b h2)
end

mutual
theorem text_htmlNode (dbg : Str → Str) : ∀ {n : PNode} {t : Str}, HtmlText dbg n t → htmlNode dbg n.lw n = .ok t
  | _, _, .text n a t hn ht => by
    rcases hn with rfl | rfl | rfl <;> simp [htmlNode, PNode.lw, escapeXml_unique ht]
  | _, _, .raw a => by simp [htmlNode, PNode.lw]
  | _, _, .decl a rest s e w r ts hv hts => by
    have hlow : lower a.value = '!' :: r.map lowerChar := by rw [hv]; rfl
    rw [htmlNode, hlow]
    simp [text_htmlDecl hts, PNode.lw]
  | _, _, .void a attrs s e w ts hvd hts => by
    have hlow : lower a.value = a.value.map lowerChar := rfl
    obtain ⟨h1, h2⟩ := text_htmlAttrs [] hts (by simp)
    rw [List.append_nil] at h1
    have hk : kids attrs = [] := by
      have := kids_append (ks := []) h2 (by simp)
      rwa [List.append_nil] at this
    rw [htmlNode]
    rw [← hlow] at hvd
    cases hl : lower a.value with
    | nil => rw [hl] at hvd; exact absurd hvd (by decide)
    | cons front r =>
      have hf : ¬ (front == '!') = true := by
        intro hf
        rw [beq_iff_eq] at hf
        rw [hl, hf] at hvd
        simp [voidNames] at hvd
      simp only []
      rw [if_neg hf, h1, ← hl, void_iff, Res.ok_bind, if_pos (by simpa using hvd), hk]
      simp [PNode.lw]
  | _, _, .elem a attrs ks s e w ts t g tag htag hne hnb hvd hts hk hc hg => by
    have hlow : lower a.value = tag := htag.symm
    have hk' : ∀ n ∈ ks.head?, n.isAttr = false := fun n hn => (noAttr_iff n).1 (hk n hn)
    obtain ⟨h1, h2⟩ := text_htmlAttrs ks hts hk'
    have hcl := closeGap_unique hg
    have hcs : tag ∉ otherContent → htmlKids dbg .rest (adjustFirst ks) = .ok t := fun hsc => text_htmlContent dbg hsc hc
    rw [htmlNode]
    cases hl : lower a.value with
    | nil => rw [hlow] at hl; exact absurd hl hne
    | cons front r =>
      have hf : ¬ (front == '!') = true := by
        intro hf
        rw [beq_iff_eq] at hf
        subst hf
        cases hv : a.value with
        | nil => rw [hv] at hl; simp [lower] at hl
        | cons c q =>
          rw [hv] at hl
          simp [lower] at hl
          exact hnb q (by rw [hv, lowerChar_bang hl.1])
      simp only []
      rw [if_neg hf, h1, ← hl, void_iff, Res.ok_bind, if_neg (by rw [hlow]; simpa using hvd), hlow, kids_append h2 hk',
        PNode.lw, hcl]
      by_cases hsc : tag ∈ otherContent
      · rw [if_pos ((special_other _).2 hsc), content_special dbg hsc hc]
        simp
      · rw [if_neg (fun h => hsc ((special_other _).1 h)), htmlLead_adjust dbg ks h2 hk', hcs hsc]
        simp
theorem text_htmlContent (dbg : Str → Str) : ∀ {tag : Str} {ks : List PNode} {e : Token} {t : Str}, tag ∉ otherContent →
    HtmlContent dbg tag ks e t → htmlKids dbg .rest (adjustFirst ks) = .ok t
  | _, _, _, _, hn, .noPre e => absurd (by decide) hn
  | _, _, _, _, hn, .pre .. => absurd (by decide) hn
  | _, _, _, _, hn, .plain _ _ _ _ _ ht _ _ => absurd (by rcases ht with rfl | rfl <;> decide) hn
  | _, _, _, _, hn, .css .. => absurd (by decide) hn
  | _, _, _, _, hn, .style .. => absurd (by decide) hn
  | _, _, _, _, hn, .script .. => absurd (by decide) hn
  | _, _, _, _, hn, .xml _ _ _ _ _ ht _ _ => absurd (by rcases ht with rfl | rfl <;> decide) hn
  | _, _, _, _, _, .html tag ks ks' e t _ hse h => by
    rw [adjust_settled hse]
    exact text_htmlKids dbg h
theorem text_htmlKids (dbg : Str → Str) : ∀ {ns : List PNode} {t : Str}, HtmlTexts dbg ns t → htmlKids dbg .rest ns = .ok t
  | _, _, .nil => by simp [htmlKids]
  | _, _, .cons n ns t u h hs => by
    rw [htmlKids, text_htmlNode dbg h, text_htmlKids dbg hs]
    rfl
end

theorem htmlGenerate_iff (dbg : Str → Str) (ns : List PNode) (t : Str) : htmlGenerate dbg ns = .ok t ↔ HtmlTexts dbg ns t :=
  ⟨htmlRest_text dbg ns t, text_htmlKids dbg⟩

end Seam
