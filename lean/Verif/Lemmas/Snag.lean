import Verif.Spec.Snag
import Verif.Lemmas.Written

/-! The generators fail as described in `Spec.Snag`. -/

namespace Seam
open Spec

/-- The outcome is the fault `f`. -/
def Snags {α : Type} (r : Res α) : Snag → Prop
  | .error m s => r = .err (genErr m s)
  | .crash => r = .panic

section
variable {α β : Type}

@[simp] theorem snags_ok (a : α) (f : Snag) : Snags (.ok a) f ↔ False := by cases f <;> simp [Snags]
@[simp] theorem snags_err (m : String) (s : Site) (f : Snag) : Snags (.err (genErr m s) : Res α) f ↔ f = .error m s := by
  cases f <;> simp [Snags, genErr, eq_comm]
@[simp] theorem snags_panic (f : Snag) : Snags (.panic : Res α) f ↔ f = .crash := by cases f <;> simp [Snags]
theorem snags_bind (x : Res α) (k : α → Res β) (f : Snag) :
    Snags (x >>= k) f ↔ Snags x f ∨ ∃ a, x = .ok a ∧ Snags (k a) f := by
  cases x with
  | ok a => simp
  | err e => cases f <;> simp [Snags]
  | panic => cases f <;> simp [Snags]
  | diverge => cases f <;> simp [Snags]
/-- A step that cannot fail at the end. -/
theorem snags_then (x : Res α) (k : α → β) (f : Snag) : Snags (x >>= fun a => .ok (k a)) f ↔ Snags x f := by
  rw [snags_bind]; simp
end

theorem noAtom_iff {n : PNode} : (∀ a, ¬ IsAtom n a) ↔ n.atomic? = none := by
  cases n <;> simp [IsAtom, PNode.atomic?]

theorem noAttr_of {n : PNode} (h : n.isAttr = false) : NoAttr n := (noAttr_iff n).2 h

theorem first_cons {P : PNode → Prop} {Q : PNode → Snag → Prop} {n : PNode} {ns : List PNode} {f : Snag} :
    First P Q (n :: ns) f ↔ Q n f ∨ P n ∧ First P Q ns f := by
  constructor
  · intro h
    cases h with
    | here _ _ _ h => exact .inl h
    | later _ _ _ h h' => exact .inr ⟨h, h'⟩
  · rintro (h | ⟨h, h'⟩)
    · exact .here _ _ _ h
    · exact .later _ _ _ h h'

theorem first_nil {P : PNode → Prop} {Q : PNode → Snag → Prop} {f : Snag} : First P Q [] f ↔ False :=
  ⟨fun h => (nomatch h), False.elim⟩

/-! ## XML -/

theorem attrFault_iff {msg : String} {k : Str} {v : PNode} {s : Site} {w : Str} {f : Snag} :
    AttrFault msg (.attr k v s w) f ↔ v.atomic? = none ∧ f = .error msg v.site := by
  constructor
  · intro h; cases h with | mk _ _ _ _ h => exact ⟨noAtom_iff.1 h, rfl⟩
  · rintro ⟨h, rfl⟩; exact .mk _ _ _ _ (noAtom_iff.2 h)

theorem xmlAttr_snags {k : Str} {v : PNode} {s : Site} {w : Str} {f : Snag} :
    Snags (xmlAttr (.attr k v s w)) f ↔ AttrFault "Attribute can only contain symbols, numbers or strings" (.attr k v s w) f := by
  rw [attrFault_iff]
  simp only [xmlAttr]
  cases v.atomic? <;> simp

theorem xmlAttr_fine {k : Str} {v : PNode} {s : Site} {w : Str} :
    (∃ t, XmlAttr (.attr k v s w) t) ↔ ∃ t, xmlAttr (.attr k v s w) = .ok t := by
  constructor
  · rintro ⟨t, h⟩
    cases h with
    | mk _ _ a _ _ h =>
      rw [xmlAttr, isAtom_iff.2 h]
      exact ⟨_, rfl⟩
  · rintro ⟨t, h⟩
    cases ha : v.atomic? with
    | none => simp [xmlAttr, ha] at h
    | some a => exact ⟨_, .mk _ _ a _ _ (isAtom_iff.1 ha)⟩

theorem xmlAttrs_snags {f : Snag} : ∀ {ns : List PNode}, Snags (xmlAttrs ns) f ↔
    First (fun n => ∃ t, XmlAttr n t) (AttrFault "Attribute can only contain symbols, numbers or strings") ns f
  | [] => by simp [xmlAttrs, first_nil]
  | .attr k v s w :: ns => by
    rw [xmlAttrs, snags_bind, first_cons, ← xmlAttrs_snags (ns := ns), xmlAttr_fine, xmlAttr_snags]
    simp only [snags_then]
    refine or_congr Iff.rfl ⟨?_, ?_⟩
    · rintro ⟨a, h1, h2⟩; exact ⟨⟨a, h1⟩, h2⟩
    · rintro ⟨⟨a, h1⟩, h2⟩; exact ⟨a, h1, h2⟩
  | .symbol a :: ns | .number a :: ns | .string a :: ns | .raw a :: ns | .list .. :: ns => by
    simp only [xmlAttrs, snags_ok, false_iff, first_cons]
    rintro (h | ⟨⟨t, h⟩, _⟩) <;> cases h

theorem xmlDecl_snags {f : Snag} : ∀ {ns : List PNode}, Snags (xmlDecl ns) f ↔ First (fun n => ∃ t, XmlItem n t) XmlItemFault ns f
  | [] => by simp [xmlDecl, first_nil]
  | .attr k v s w :: ns => by
    rw [xmlDecl, snags_bind, first_cons, ← xmlDecl_snags (ns := ns), xmlAttr_snags]
    simp only [snags_then]
    refine or_congr ⟨fun h => .attr _ _ h, fun h => ?_⟩ ⟨?_, ?_⟩
    · cases h with
      | attr _ h => exact h
      | other h => exact absurd rfl (h _ _ _ _)
    · rintro ⟨a, h1, h2⟩
      obtain ⟨t, h⟩ := xmlAttr_fine.2 ⟨a, h1⟩
      exact ⟨⟨t, .attr _ _ h⟩, h2⟩
    · rintro ⟨⟨a, h1⟩, h2⟩
      cases h1 with
      | word _ h => simp at h
      | attr _ h =>
        obtain ⟨t, h⟩ := xmlAttr_fine.1 ⟨a, h⟩
        exact ⟨t, h, h2⟩
  | .symbol a :: ns => by
    simp only [xmlDecl, snags_then, first_cons, ← xmlDecl_snags (ns := ns)]
    constructor
    · intro h; exact .inr ⟨⟨_, .word _ a (.inl rfl)⟩, h⟩
    · rintro (h | ⟨_, h⟩)
      · cases h with
        | attr _ h => cases h
        | other _ h => exact absurd rfl (h _)
      · exact h
  | .number a :: ns => by
    simp only [xmlDecl, snags_then, first_cons, ← xmlDecl_snags (ns := ns)]
    constructor
    · intro h; exact .inr ⟨⟨_, .word _ a (.inr rfl)⟩, h⟩
    · rintro (h | ⟨_, h⟩)
      · cases h with
        | attr _ h => cases h
        | other _ _ h => exact absurd rfl (h _)
      · exact h
  | .string a :: ns => by
    simp only [xmlDecl, snags_err, first_cons]
    constructor
    · rintro rfl; exact .inl (.other _ (by simp [NoAttr]) (by simp) (by simp))
    · rintro (h | ⟨⟨t, h⟩, _⟩)
      · cases h with
        | attr _ h => cases h
        | other => rfl
      · cases h with
        | word _ h => simp at h
        | attr _ h => cases h
  | .raw a :: ns => by
    simp only [xmlDecl, snags_err, first_cons]
    constructor
    · rintro rfl; exact .inl (.other _ (by simp [NoAttr]) (by simp) (by simp))
    · rintro (h | ⟨⟨t, h⟩, _⟩)
      · cases h with
        | attr _ h => cases h
        | other => rfl
      · cases h with
        | word _ h => simp at h
        | attr _ h => cases h
  | .list .. :: ns => by
    simp only [xmlDecl, snags_err, first_cons]
    constructor
    · rintro rfl; exact .inl (.other _ (by simp [NoAttr]) (by simp) (by simp))
    · rintro (h | ⟨⟨t, h⟩, _⟩)
      · cases h with
        | attr _ h => cases h
        | other => rfl
      · cases h with
        | word _ h => simp at h
        | attr _ h => cases h

/-- Whether and how a node fails does not depend on the whitespace before it. -/
theorem xmlNode_snags_gap (n : PNode) (g g' : Str) (f : Snag) : Snags (xmlNode g n) f → Snags (xmlNode g' n) f := by
  cases n with
  | list ns s e w =>
    cases ns with
    | nil => simp [xmlNode]
    | cons h rest =>
      cases h with
      | symbol h =>
        simp only [xmlNode]
        cases h.value with
        | nil => simp
        | cons front r =>
          simp only
          split
          · simp [snags_then]
          · simp [snags_bind]
      | _ => simp [xmlNode]
  | _ => simp [xmlNode]

theorem xmlNode_ok_gap (n : PNode) (g g' t : Str) (h : xmlNode g n = .ok t) : ∃ t', xmlNode g' n = .ok t' := by
  cases n with
  | list ns s e w =>
    cases ns with
    | nil => simp [xmlNode] at h
    | cons h' rest =>
      cases h' with
      | symbol a =>
        simp only [xmlNode] at h ⊢
        cases hv : a.value with
        | nil => simp [hv] at h
        | cons front r =>
          simp only [hv] at h ⊢
          split at h
          · rename_i hf
            simp only [Res.bind_eq_ok] at h
            obtain ⟨d, hd, _⟩ := h
            simp [hf, hd]
          · rename_i hf
            simp only [Res.bind_eq_ok] at h
            obtain ⟨d, hd, c, hc, _⟩ := h
            simp [hf, hd, hc]
      | _ => simp [xmlNode] at h
  | raw a => simp [xmlNode] at h
  | attr => simp [xmlNode] at h
  | _ => exact ⟨_, by rw [xmlNode]⟩

/-- The text of a node exists with any whitespace before it. -/
theorem xmlText_iff (n : PNode) (g : Str) : (∃ t, XmlText n t) ↔ ∃ t, xmlNode g n = .ok t := by
  constructor
  · rintro ⟨t, h⟩
    exact xmlNode_ok_gap n _ g t (text_xmlNode h)
  · rintro ⟨t, h⟩
    obtain ⟨t', h'⟩ := xmlNode_ok_gap n g n.lw t h
    have := xmlNode_text n n.lw t' h'
    rw [setLw_own] at this
    exact ⟨t', this⟩

theorem xmlFaults_cons {n : PNode} {ns : List PNode} {f : Snag} :
    XmlFaults (n :: ns) f ↔ XmlFault n f ∨ (∃ t, XmlText n t) ∧ XmlFaults ns f := by
  constructor
  · intro h
    cases h with
    | here _ _ _ h => exact .inl h
    | later _ _ _ t h h' => exact .inr ⟨⟨t, h⟩, h'⟩
  · rintro (h | ⟨⟨t, h⟩, h'⟩)
    · exact .here _ _ _ h
    · exact .later _ _ _ t h h'

theorem elem_front {v r : Str} {front : Char} (hv : v = front :: r) (hf : ¬ (front == '!' || front == '?') = true) :
    v ≠ [] ∧ (∀ r, v ≠ '!' :: r) ∧ ∀ r, v ≠ '?' :: r := by
  subst hv
  simp at hf
  exact ⟨by simp, fun r h => hf.1 (by simpa using (List.cons.inj h).1), fun r h => hf.2 (by simpa using (List.cons.inj h).1)⟩

mutual
theorem xmlNode_snags : ∀ (n : PNode) (g : Str) (f : Snag), Snags (xmlNode g n) f → XmlFault n f
  | .symbol a, g, f, h | .number a, g, f, h | .string a, g, f, h => by simp [xmlNode] at h
  | .raw a, g, f, h => by simp only [xmlNode, snags_err] at h; subst h; exact .raw a
  | .attr k v s w, g, f, h => by simp only [xmlNode, snags_err] at h; subst h; exact .attr k v s w
  | .list [] s e w, g, f, h => by simp only [xmlNode, snags_err] at h; subst h; exact .empty s e w
  | .list (.symbol a :: rest) s e w, g, f, h => by
    have ih := xmlLead_snags rest f
    simp only [xmlNode] at h
    cases hv : a.value with
    | nil => simp only [hv, snags_panic] at h; subst h; exact .noName _ _ _ _ _ hv
    | cons front r =>
      simp only [hv] at h
      split at h
      · rename_i hf
        simp only [snags_then, xmlDecl_snags] at h
        simp only [Bool.or_eq_true, beq_iff_eq] at hf
        exact .item _ _ _ _ _ r _ (by rcases hf with rfl | rfl <;> simp [hv]) h
      · rename_i hf
        obtain ⟨h1, h2, h3⟩ := elem_front hv hf
        rw [snags_bind] at h
        rcases h with h | ⟨as, ha, h⟩
        · exact .attribute _ _ _ _ _ _ h1 h2 h3 (xmlAttrs_snags.1 h)
        · rw [snags_then] at h
          obtain ⟨attrs, hr, hat, hk⟩ := kids_split rest
          have ha' := ha
          rw [hr] at ha
          obtain ⟨ts, hts, _⟩ := xmlAttrs_written attrs (kids rest) as hat hk ha
          have := XmlFault.content a attrs (kids rest) s e w ts f h1 h2 h3 hts (fun n hn => noAttr_of (hk n hn)) (ih h)
          rwa [← hr] at this
  | .list (.number a :: rest) s e w, g, f, h | .list (.string a :: rest) s e w, g, f, h | .list (.raw a :: rest) s e w, g, f, h
  | .list (.list .. :: rest) s e w, g, f, h | .list (.attr .. :: rest) s e w, g, f, h => by
    simp only [xmlNode, snags_err] at h
    subst h
    exact .head _ _ _ _ _ (by simp)
theorem xmlLead_snags : ∀ (ns : List PNode) (f : Snag), Snags (xmlKids .lead ns) f → XmlFaults (kids ns) f
  | [], f, h => by simp [xmlKids] at h
  | n :: ns, f, h => by
    have i1 := xmlLead_snags ns f
    have i2 := xmlNode_snags n (firstLw n.lw) f
    have i3 := xmlRest_snags ns f
    rw [xmlKids] at h
    unfold kids at i1 ⊢
    rw [List.dropWhile_cons]
    split at h
    · rename_i hn; rw [if_pos hn]; exact i1 h
    · rename_i hn
      rw [if_neg hn, xmlFaults_cons]
      rw [snags_bind] at h
      rcases h with h | ⟨t, h1, h2⟩
      · exact .inl (i2 h)
      · rw [snags_then] at h2
        exact .inr ⟨(xmlText_iff n _).2 ⟨t, h1⟩, i3 h2⟩
theorem xmlRest_snags : ∀ (ns : List PNode) (f : Snag), Snags (xmlKids .rest ns) f → XmlFaults ns f
  | [], f, h => by simp [xmlKids] at h
  | n :: ns, f, h => by
    have i2 := xmlNode_snags n n.lw f
    have i3 := xmlRest_snags ns f
    rw [xmlKids, snags_bind] at h
    rw [xmlFaults_cons]
    rcases h with h | ⟨t, h1, h2⟩
    · exact .inl (i2 h)
    · rw [snags_then] at h2
      exact .inr ⟨(xmlText_iff n _).2 ⟨t, h1⟩, i3 h2⟩
end

mutual
theorem fault_xmlNode : ∀ {n : PNode} {f : Snag} (g : Str), XmlFault n f → Snags (xmlNode g n) f
  | _, _, g, .raw a => by simp [xmlNode]
  | _, _, g, .attr k v s w => by simp [xmlNode]
  | _, _, g, .empty s e w => by simp [xmlNode]
  | _, _, g, .head m rest s e w h => by
    cases m with
    | symbol a => exact absurd rfl (h a)
    | _ => simp [xmlNode]
  | _, _, g, .noName a rest s e w h => by simp [xmlNode, h]
  | _, _, g, .item a rest s e w r f h h' => by
    rcases h with h | h <;> simp [xmlNode, h, snags_then, xmlDecl_snags, h']
  | _, _, g, .attribute a rest s e w f h1 h2 h3 h' => by
    rw [xmlNode]
    cases hv : a.value with
    | nil => exact absurd hv h1
    | cons front r =>
      have hf : ¬ (front == '!' || front == '?') = true := by
        rw [Bool.or_eq_true, beq_iff_eq, beq_iff_eq, not_or]
        exact ⟨fun h => h2 r (by rw [hv, h]), fun h => h3 r (by rw [hv, h])⟩
      simp only []
      rw [if_neg hf, snags_bind]
      exact .inl (xmlAttrs_snags.2 h')
  | _, _, g, .content a attrs ks s e w ts f h1 h2 h3 hts hk h' => by
    have ih := fault_xmlKids true h'
    rw [if_pos rfl] at ih
    rw [xmlNode]
    cases hv : a.value with
    | nil => exact absurd hv h1
    | cons front r =>
      have hf : ¬ (front == '!' || front == '?') = true := by
        rw [Bool.or_eq_true, beq_iff_eq, beq_iff_eq, not_or]
        exact ⟨fun h => h2 r (by rw [hv, h]), fun h => h3 r (by rw [hv, h])⟩
      have hk' : ∀ n ∈ ks.head?, n.isAttr = false := fun n hn => (noAttr_iff n).1 (hk n hn)
      obtain ⟨h5, h6⟩ := text_xmlAttrs ks hts hk'
      simp only []
      rw [if_neg hf, snags_bind]
      refine .inr ⟨_, h5, ?_⟩
      rw [snags_then, xmlLead_adjust ks h6 hk']
      exact ih
theorem fault_xmlKids : ∀ {ns : List PNode} {f : Snag} (adjust : Bool), XmlFaults ns f →
    Snags (xmlKids .rest (if adjust then adjustFirst ns else ns)) f
  | _, _, adjust, .here n ns f h => by
    have ih := fun g => fault_xmlNode g h
    cases adjust with
    | false => rw [if_neg (by simp), xmlKids, snags_bind]; exact .inl (ih _)
    | true => rw [if_pos rfl, adjustFirst, xmlKids, snags_bind, xmlNode_setLw]; exact .inl (ih _)
  | _, _, adjust, .later n ns f t h hs => by
    have ih := fault_xmlKids false hs
    rw [if_neg (by simp)] at ih
    cases adjust with
    | false =>
      obtain ⟨t', h'⟩ := (xmlText_iff n n.lw).1 ⟨t, h⟩
      rw [if_neg (by simp), xmlKids, snags_bind]
      exact .inr ⟨t', h', by rw [snags_then]; exact ih⟩
    | true =>
      obtain ⟨t', h'⟩ := (xmlText_iff n (n.setLw (firstLw n.lw)).lw).1 ⟨t, h⟩
      rw [if_pos rfl, adjustFirst, xmlKids, snags_bind, xmlNode_setLw]
      exact .inr ⟨t', h', by rw [snags_then]; exact ih⟩
end

theorem xmlGenerate_snags (ns : List PNode) (f : Snag) : Snags (xmlGenerate ns) f ↔ XmlFaults ns f :=
  ⟨xmlRest_snags ns f, fun h => by have := fault_xmlKids false h; rwa [if_neg (by simp)] at this⟩

theorem xmlGenerate_snags_adjust (ns : List PNode) (f : Snag) : Snags (xmlGenerate (adjustFirst ns)) f ↔ XmlFaults ns f := by
  constructor
  · intro h
    cases ns with
    | nil => exact (nomatch xmlRest_snags _ f h)
    | cons n ns =>
      unfold xmlGenerate at h
      rw [adjustFirst, xmlKids, snags_bind, xmlNode_setLw] at h
      rw [xmlFaults_cons]
      rcases h with h | ⟨t, h1, h2⟩
      · exact .inl (xmlNode_snags n _ f h)
      · rw [snags_then] at h2
        exact .inr ⟨(xmlText_iff n _).2 ⟨t, h1⟩, xmlRest_snags ns f h2⟩
  · intro h
    have := fault_xmlKids true h
    rwa [if_pos rfl] at this

/-! ## Style sheets -/

theorem valueFaults_cons {dbg : Str → Str} {n : PNode} {ns : List PNode} {f : Snag} :
    ValueFaults dbg (n :: ns) f ↔ ValueFault dbg n f ∨ (∃ t, ValueText dbg n t) ∧ ValueFaults dbg ns f := by
  constructor
  · intro h
    cases h with
    | here _ _ _ h => exact .inl h
    | later _ _ _ t h h' => exact .inr ⟨⟨t, h⟩, h'⟩
  · rintro (h | ⟨⟨t, h⟩, h'⟩)
    · exact .here _ _ _ h
    · exact .later _ _ _ t h h'

theorem value_iff {dbg : Str → Str} {n : PNode} : (∃ t, ValueText dbg n t) ↔ ∃ t, cssValue dbg n = .ok t :=
  ⟨fun ⟨t, h⟩ => ⟨t, text_cssValue dbg h⟩, fun ⟨t, h⟩ => ⟨t, cssValue_text dbg n t h⟩⟩

mutual
theorem cssValue_snags (dbg : Str → Str) : ∀ (n : PNode) (f : Snag), Snags (cssValue dbg n) f → ValueFault dbg n f
  | .symbol a, f, h | .number a, f, h | .string a, f, h | .raw a, f, h => by simp [cssValue] at h
  | .attr k v s w, f, h => by simp only [cssValue, snags_err] at h; subst h; exact .attr k v s w
  | .list [] s e w, f, h => by simp [cssValue] at h
  | .list (n :: ns) s e w, f, h => by
    have i1 := cssValue_snags dbg n f
    have i2 := cssValues_snags dbg ns f
    rw [cssValue, snags_bind] at h
    refine .inside _ _ _ _ _ (valueFaults_cons.2 ?_)
    rcases h with h | ⟨t, h1, h2⟩
    · exact .inl (i1 h)
    · rw [snags_then] at h2
      exact .inr ⟨value_iff.2 ⟨t, h1⟩, i2 h2⟩
theorem cssValues_snags (dbg : Str → Str) : ∀ (ns : List PNode) (f : Snag), Snags (cssValues dbg ns) f → ValueFaults dbg ns f
  | [], f, h => by simp [cssValues] at h
  | n :: ns, f, h => by
    have i1 := cssValue_snags dbg n f
    have i2 := cssValues_snags dbg ns f
    rw [cssValues, snags_bind] at h
    refine valueFaults_cons.2 ?_
    rcases h with h | ⟨t, h1, h2⟩
    · exact .inl (i1 h)
    · rw [snags_then] at h2
      exact .inr ⟨value_iff.2 ⟨t, h1⟩, i2 h2⟩
end

mutual
theorem fault_cssValue (dbg : Str → Str) : ∀ {n : PNode} {f : Snag}, ValueFault dbg n f → Snags (cssValue dbg n) f
  | _, _, .attr k v s w => by simp [cssValue]
  | _, _, .inside ns s e w f h => by
    have ih := fault_cssValues dbg h
    cases h with
    | here n ns _ h =>
      rw [cssValues, snags_bind] at ih
      rw [cssValue, snags_bind]
      rcases ih with ih | ⟨t, h1, h2⟩
      · exact .inl ih
      · rw [snags_then] at h2
        exact .inr ⟨t, h1, by rw [snags_then]; exact h2⟩
    | later n ns _ t h h' =>
      rw [cssValues, snags_bind] at ih
      rw [cssValue, snags_bind]
      rcases ih with ih | ⟨t, h1, h2⟩
      · exact .inl ih
      · rw [snags_then] at h2
        exact .inr ⟨t, h1, by rw [snags_then]; exact h2⟩
theorem fault_cssValues (dbg : Str → Str) : ∀ {ns : List PNode} {f : Snag}, ValueFaults dbg ns f → Snags (cssValues dbg ns) f
  | _, _, .here n ns f h => by
    rw [cssValues, snags_bind]
    exact .inl (fault_cssValue dbg h)
  | _, _, .later n ns f t h hs => by
    rw [cssValues, snags_bind]
    exact .inr ⟨t, text_cssValue dbg h, by rw [snags_then]; exact fault_cssValues dbg hs⟩
end

theorem cssValue_snags_iff (dbg : Str → Str) (n : PNode) (f : Snag) : Snags (cssValue dbg n) f ↔ ValueFault dbg n f :=
  ⟨cssValue_snags dbg n f, fault_cssValue dbg⟩

/-- One argument of an `@`-rule. -/
def cssArg (dbg : Str → Str) : PNode → Res Str
  | .attr k n _ _ => do
    let v ← cssValue dbg n
    .ok ('(' :: k ++ str! ": " ++ v ++ str! ") ")
  | n => do
    let v ← cssValue dbg n
    .ok (v ++ [' '])

theorem cssArg_snags (dbg : Str → Str) (n : PNode) (f : Snag) : Snags (cssArg dbg n) f ↔ ArgFault dbg n f := by
  constructor
  · intro h
    cases n with
    | attr k v s w =>
      rw [cssArg, snags_then] at h
      exact .attr _ _ _ _ _ (cssValue_snags dbg _ _ h)
    | _ =>
      simp only [cssArg, snags_then] at h
      exact .value _ _ (by simp [NoAttr]) (cssValue_snags dbg _ _ h)
  · intro h
    cases h with
    | attr k v s w _ h => rw [cssArg, snags_then]; exact fault_cssValue dbg h
    | value _ _ hn h =>
      cases n with
      | attr k v s w => exact absurd rfl (hn k v s w)
      | _ => simp only [cssArg, snags_then]; exact fault_cssValue dbg h

theorem cssArg_text (dbg : Str → Str) (n : PNode) : (∃ t, ArgText dbg n t) ↔ ∃ t, cssArg dbg n = .ok t := by
  constructor
  · rintro ⟨t, h⟩
    cases h with
    | attr k v s w t h => rw [cssArg, text_cssValue dbg h]; exact ⟨_, rfl⟩
    | value _ t hn h =>
      cases n with
      | attr k v s w => exact absurd rfl (hn k v s w)
      | _ => simp only [cssArg, text_cssValue dbg h]; exact ⟨_, rfl⟩
  · rintro ⟨t, h⟩
    cases n with
    | attr k v s w =>
      simp only [cssArg, Res.bind_eq_ok] at h
      obtain ⟨t, h, _⟩ := h
      exact ⟨_, .attr _ _ _ _ _ (cssValue_text dbg _ _ h)⟩
    | _ =>
      simp only [cssArg, Res.bind_eq_ok] at h
      obtain ⟨t, h, _⟩ := h
      exact ⟨_, .value _ _ (by simp) (cssValue_text dbg _ _ h)⟩

theorem cssOneline_cons (dbg : Str → Str) (n : PNode) (ns : List PNode) (f : Snag) :
    Snags (cssOneline dbg (n :: ns)) f ↔ Snags (cssArg dbg n) f ∨ (∃ t, cssArg dbg n = .ok t) ∧ Snags (cssOneline dbg ns) f := by
  cases n with
  | attr k v s w =>
    simp only [cssOneline, cssArg, snags_bind, snags_ok, and_false, exists_false, or_false, Res.bind_eq_ok, Res.ok.injEq]
    refine or_congr Iff.rfl ⟨?_, ?_⟩
    · rintro ⟨a, h1, h2⟩; exact ⟨⟨_, a, h1, rfl⟩, h2⟩
    · rintro ⟨⟨_, a, h1, _⟩, h2⟩; exact ⟨a, h1, h2⟩
  | _ =>
    simp only [cssOneline, cssArg, snags_bind, snags_ok, and_false, exists_false, or_false, Res.bind_eq_ok, Res.ok.injEq]
    refine or_congr Iff.rfl ⟨?_, ?_⟩
    · rintro ⟨a, h1, h2⟩; exact ⟨⟨_, a, h1, rfl⟩, h2⟩
    · rintro ⟨⟨_, a, h1, _⟩, h2⟩; exact ⟨a, h1, h2⟩

theorem cssOneline_snags (dbg : Str → Str) (f : Snag) : ∀ (ns : List PNode), Snags (cssOneline dbg ns) f ↔
    First (fun n => ∃ t, ArgText dbg n t) (ArgFault dbg) ns f
  | [] => by simp [cssOneline, first_nil]
  | n :: ns => by rw [cssOneline_cons, first_cons, cssArg_snags, ← cssArg_text, cssOneline_snags dbg f ns]

theorem cssProps_snags (dbg : Str → Str) (f : Snag) : ∀ (ns : List PNode), Snags (cssProps dbg ns) f ↔
    First (fun n => ∃ t, PropText dbg n t) (PropFault dbg) ns f
  | [] => by simp [cssProps, first_nil]
  | .attr k v s w :: ns => by
    rw [cssProps, snags_bind, first_cons, ← cssProps_snags dbg f ns, cssValue_snags_iff]
    simp only [snags_then]
    refine or_congr ⟨fun h => .value _ _ _ _ _ h, fun h => ?_⟩ ⟨?_, ?_⟩
    · cases h with
      | value _ _ _ _ _ h => exact h
      | other _ h => exact absurd rfl (h _ _ _ _)
    · rintro ⟨a, h1, h2⟩; exact ⟨⟨_, .mk _ _ _ _ _ (cssValue_text dbg _ _ h1)⟩, h2⟩
    · rintro ⟨⟨_, h1⟩, h2⟩
      cases h1 with
      | mk _ _ _ _ t h1 => exact ⟨t, text_cssValue dbg h1, h2⟩
  | .symbol a :: ns | .number a :: ns | .string a :: ns | .raw a :: ns | .list .. :: ns => by
    simp only [cssProps, snags_err, first_cons]
    constructor
    · rintro rfl; exact .inl (.other _ (by simp [NoAttr]))
    · rintro (h | ⟨⟨t, h⟩, _⟩)
      · cases h with
        | other => rfl
      · cases h

theorem cssNested_rules (dbg : Str → Str) (ns : List PNode) (f : Snag) (hl : ∀ n ∈ ns.head?, ¬ NoList n) :
    Snags (cssNested dbg false ns) f ↔ Snags (cssNested dbg true ns) f := by
  cases ns with
  | nil => simp [cssNested]
  | cons n ns =>
    cases n with
    | list rule s e w => simp [cssNested, snags_bind]
    | _ => exact absurd (by simp [NoList]) (hl _ rfl)

theorem cssNested_arg (dbg : Str → Str) (n : PNode) (ns : List PNode) (f : Snag) (hl : NoList n) :
    Snags (cssNested dbg false (n :: ns)) f ↔ Snags (cssArg dbg n) f ∨ (∃ t, cssArg dbg n = .ok t) ∧ Snags (cssNested dbg false ns) f := by
  cases n with
  | list rule s e w => exact absurd rfl (hl _ _ _ _)
  | _ =>
    simp only [cssNested, Bool.false_eq_true, if_false, cssArg, snags_bind, snags_ok, and_false, exists_false, or_false, Res.bind_eq_ok,
      Res.ok.injEq]
    refine or_congr Iff.rfl ⟨?_, ?_⟩
    · rintro ⟨a, h1, h2⟩; exact ⟨⟨_, a, h1, rfl⟩, h2⟩
    · rintro ⟨⟨_, a, h1, _⟩, h2⟩; exact ⟨a, h1, h2⟩

theorem rule_iff {dbg : Str → Str} {ns : List PNode} : (∃ t, RuleText dbg ns t) ↔ ∃ t, cssRule dbg ns = .ok t :=
  ⟨fun ⟨t, h⟩ => ⟨t, text_cssRule dbg h⟩, fun ⟨t, h⟩ => ⟨t, cssRule_text dbg ns t h⟩⟩

theorem drop_last {α : Type} {last : α} : ∀ {l : List α}, l.getLast? = some last → l.drop (l.length - 1) = [last]
  | [], h => by simp at h
  | [a], h => by simpa using h
  | a :: b :: l, h => by
    have ih := drop_last (l := b :: l) (by simpa using h)
    simpa using ih

theorem bare_snags (dbg : Str → Str) {m last : PNode} {rest : List PNode} {f : Snag} (hall : cssSelectors (m :: rest) = m :: rest)
    (hl : (m :: rest).getLast? = some last) : Snags (cssProps dbg (cssProperties (m :: rest))) f ↔
    f = .error "CSS property-value pairs must be in the form of attributes." last.site := by
  have hp : cssProperties (m :: rest) = [last] := by
    unfold cssProperties
    dsimp only
    rw [hall, if_neg (Nat.lt_irrefl _)]
    exact drop_last hl
  have hat : last.isAtomic = true := by
    have : last ∈ cssSelectors (m :: rest) := by rw [hall]; exact List.mem_of_getLast? hl
    exact mem_takeWhile this
  rw [hp]
  cases last with
  | attr => simp [PNode.isAtomic, PNode.atomic?] at hat
  | list => simp [PNode.isAtomic, PNode.atomic?] at hat
  | _ => simp [cssProps]

theorem isAtomic_false {n : PNode} : n.isAtomic = false ↔ ∀ b, ¬ IsAtom n b := by
  unfold PNode.isAtomic
  constructor
  · intro h b hb
    rw [isAtom_iff.2 hb] at h; cases h
  · intro h
    cases ha : n.atomic? with
    | none => rfl
    | some b => exact absurd (isAtom_iff.1 ha) (h b)

theorem isAtomic_true {n : PNode} : n.isAtomic = true ↔ ∃ b, IsAtom n b := by
  unfold PNode.isAtomic
  rw [Option.isSome_iff_exists]
  exact ⟨fun ⟨a, h⟩ => ⟨a, isAtom_iff.1 h⟩, fun ⟨a, h⟩ => ⟨a, isAtom_iff.2 h⟩⟩

theorem selectors_all {ns : List PNode} (h : ∀ n ∈ ns, ∃ b, IsAtom n b) : cssSelectors ns = ns := by
  unfold cssSelectors
  induction ns with
  | nil => rfl
  | cons n ns ih =>
    rw [List.takeWhile_cons, isAtomic_true.2 (h n (by simp)), if_pos rfl, ih fun m hm => h m (by simp [hm])]

mutual
theorem cssRule_snags (dbg : Str → Str) : ∀ (ns : List PNode) (f : Snag), Snags (cssRule dbg ns) f → RuleFault dbg ns f
  | [], f, h => by simp only [cssRule, snags_panic] at h; subst h; exact .empty
  | m :: rest, f, h => by
    rw [cssRule] at h
    cases ha : m.atomic? with
    | none =>
      rw [ha] at h
      simp only [snags_panic] at h
      subst h
      exact .head _ _ fun a hat => by rw [isAtom_iff.2 hat] at ha; cases ha
    | some a =>
      rw [ha] at h
      simp only [] at h
      have hat := isAtom_iff.1 ha
      by_cases hsp : cssIsSpecial a.value = true
      · rw [if_pos hsp] at h
        by_cases hol : cssOnelineRules.contains a.value = true
        · rw [if_pos hol, snags_then, cssOneline_snags] at h
          exact .line m a rest f hat ((oneline_iff _).1 ⟨hsp, hol⟩) h
        · rw [if_neg hol, snags_then] at h
          have hb := (special_iff _).1 ⟨hsp, by simpa using hol⟩
          rcases cssNest_snags dbg rest f h with h | ⟨args, rules, ts, rfl, hna, hts, hr, hf⟩
          · exact .argument m a rest f hat hb h
          · exact .rule m a args rules ts f hat hb hna hts hr hf
      · rw [if_neg hsp, snags_then] at h
        rw [special_split, not_or] at hsp
        by_cases hall : cssSelectors (m :: rest) = m :: rest
        · obtain ⟨last, hl⟩ : ∃ last, (m :: rest).getLast? = some last := ⟨_, List.getLast?_eq_some_getLast (by simp)⟩
          rw [bare_snags dbg hall hl] at h
          subst h
          refine .bare m a rest last hat hsp.1 hsp.2 (fun n hn => ?_) hl
          rw [← hall] at hn
          exact isAtomic_true.1 (mem_takeWhile hn)
        · have hmat : m.isAtomic = true := by simp [PNode.isAtomic, ha]
          have hsel : cssSelectors (m :: rest) = m :: cssSelectors rest := by
            unfold cssSelectors; rw [List.takeWhile_cons, hmat, if_pos rfl]
          obtain ⟨hsplit, hne⟩ := properties_split _ hall
          have hd : cssProperties (m :: rest) = rest.dropWhile PNode.isAtomic := by
            have h1 : cssSelectors rest ++ rest.dropWhile PNode.isAtomic = rest := List.takeWhile_append_dropWhile
            rw [hsel, List.cons_append, List.cons.injEq] at hsplit
            exact (List.append_cancel_left (h1.trans hsplit.2)).symm
          have := RuleFault.property (quote := dbg) m a (cssSelectors rest) (cssProperties (m :: rest)) f hat hsp.1 hsp.2
            (fun n hn => isAtomic_true.1 (mem_takeWhile hn)) (by
              intro n hn
              rw [← isAtomic_false]
              rw [hd] at hn
              clear hsplit hne hd h hall hsel
              induction rest with
              | nil => simp at hn
              | cons x xs ih =>
                rw [List.dropWhile_cons] at hn
                by_cases hx : x.isAtomic = true
                · rw [if_pos hx] at hn; exact ih hn
                · rw [if_neg hx] at hn
                  simp at hn
                  subst hn
                  simpa using hx) ((cssProps_snags dbg f _).1 h)
          rw [← List.cons_append, ← hsel, ← hsplit] at this
          exact this
theorem cssNest_snags (dbg : Str → Str) : ∀ (ns : List PNode) (f : Snag), Snags (cssNested dbg false ns) f →
    First (fun n => NoList n ∧ ∃ t, ArgText dbg n t) (fun n f => NoList n ∧ ArgFault dbg n f) ns f ∨
    ∃ args rules ts, ns = args ++ rules ∧ (∀ n ∈ args, NoList n) ∧ Pairs (ArgText dbg) args ts ∧
      (∀ n ∈ rules.head?, ¬ NoList n) ∧ SheetFault dbg "Expected list (i.e. a CSS rule) here!" rules f
  | [], f, h => by simp [cssNested] at h
  | n :: rest, f, h => by
    have i2 := cssNest_snags dbg rest f
    have key : NoList n → First (fun n => NoList n ∧ ∃ t, ArgText dbg n t) (fun n f => NoList n ∧ ArgFault dbg n f) (n :: rest) f ∨
        ∃ args rules ts, n :: rest = args ++ rules ∧ (∀ n ∈ args, NoList n) ∧ Pairs (ArgText dbg) args ts ∧
          (∀ n ∈ rules.head?, ¬ NoList n) ∧ SheetFault dbg "Expected list (i.e. a CSS rule) here!" rules f := by
      intro hl
      rw [cssNested_arg dbg _ _ _ hl, cssArg_snags, ← cssArg_text] at h
      rcases h with h | ⟨⟨t, ht⟩, h⟩
      · exact .inl (first_cons.2 (.inl ⟨hl, h⟩))
      · rcases i2 h with h | ⟨args, rules, ts, rfl, hna, hts, hr, hf⟩
        · exact .inl (first_cons.2 (.inr ⟨⟨hl, t, ht⟩, h⟩))
        · refine .inr ⟨n :: args, rules, t :: ts, rfl, ?_, .cons ht hts, hr, hf⟩
          intro m hm
          rcases List.mem_cons.1 hm with rfl | hm
          · exact hl
          · exact hna m hm
    cases n with
    | list rule s e w =>
      refine .inr ⟨[], .list rule s e w :: rest, [], rfl, by simp, .nil, ?_, ?_⟩
      · intro n hn
        simp at hn
        subst hn
        exact fun h => h _ _ _ _ rfl
      · simp only [cssNested, snags_bind] at h
        rcases h with h | ⟨a, h1, h2⟩
        · exact .here _ _ _ _ _ _ _ (cssRule_snags dbg rule f h)
        · have h2 : Snags (cssNested dbg true rest) f := by simpa using h2
          exact .later _ _ _ _ _ _ _ _ (cssRule_text dbg _ _ h1) (cssRules_snags dbg rest f h2)
    | _ => exact key (by intros _ _ _ _; simp)
theorem cssRules_snags (dbg : Str → Str) : ∀ (ns : List PNode) (f : Snag), Snags (cssNested dbg true ns) f →
    SheetFault dbg "Expected list (i.e. a CSS rule) here!" ns f
  | [], f, h => by simp [cssNested] at h
  | n :: rest, f, h => by
    cases n with
    | list rule s e w =>
      simp only [cssNested, snags_bind] at h
      rcases h with h | ⟨a, h1, h2⟩
      · exact .here _ _ _ _ _ _ _ (cssRule_snags dbg rule f h)
      · have h2 : Snags (cssNested dbg true rest) f := by simpa using h2
        exact .later _ _ _ _ _ _ _ _ (cssRule_text dbg _ _ h1) (cssRules_snags dbg rest f h2)
    | _ =>
      simp only [cssNested, if_true, snags_err] at h
      subst h
      exact .other _ _ _ (by intros _ _ _ _; simp)
end

theorem cssGenerate_snags (dbg : Str → Str) : ∀ (ns : List PNode) (f : Snag), Snags (cssGenerate dbg ns) f →
    SheetFault dbg "Node not expected here." ns f
  | [], f, h => by simp [cssGenerate] at h
  | n :: rest, f, h => by
    cases n with
    | list rule s e w =>
      simp only [cssGenerate, snags_bind] at h
      rcases h with h | ⟨a, h1, h2⟩
      · exact .here _ _ _ _ _ _ _ (cssRule_snags dbg rule f h)
      · have h2 : Snags (cssGenerate dbg rest) f := by simpa using h2
        exact .later _ _ _ _ _ _ _ _ (cssRule_text dbg _ _ h1) (cssGenerate_snags dbg rest f h2)
    | _ =>
      simp only [cssGenerate, snags_err] at h
      subst h
      exact .other _ _ _ (by intros _ _ _ _; simp)

theorem fault_cssNest_arg (dbg : Str → Str) {f : Snag} : ∀ {ns : List PNode},
    First (fun n => NoList n ∧ ∃ t, ArgText dbg n t) (fun n f => NoList n ∧ ArgFault dbg n f) ns f →
    Snags (cssNested dbg false ns) f
  | _, .here _ _ _ ⟨hl, h⟩ => by
    rw [cssNested_arg dbg _ _ _ hl, cssArg_snags]
    exact .inl h
  | _, .later _ _ _ ⟨hl, h⟩ h' => by
    rw [cssNested_arg dbg _ _ _ hl, ← cssArg_text]
    exact .inr ⟨h, fault_cssNest_arg dbg h'⟩

theorem fault_cssNest_args (dbg : Str → Str) {rules : List PNode} {f : Snag} (h : Snags (cssNested dbg false rules) f) :
    ∀ {args : List PNode} {ts : List Str}, (∀ n ∈ args, NoList n) → Pairs (ArgText dbg) args ts →
    Snags (cssNested dbg false (args ++ rules)) f
  | _, _, _, .nil => h
  | _, _, hna, .cons h1 hs => by
    rw [List.cons_append, cssNested_arg dbg _ _ _ (hna _ (by simp)), ← cssArg_text]
    exact .inr ⟨⟨_, h1⟩, fault_cssNest_args dbg h (fun n hn => hna n (by simp [hn])) hs⟩

mutual
theorem fault_cssRule (dbg : Str → Str) : ∀ {ns : List PNode} {f : Snag}, RuleFault dbg ns f → Snags (cssRule dbg ns) f
  | _, _, .empty => by simp [cssRule]
  | _, _, .head h rest hna => by
    have : h.atomic? = none := by
      cases ha : h.atomic? with
      | none => rfl
      | some a => exact absurd (isAtom_iff.1 ha) (hna a)
    rw [cssRule, this]
    simp
  | _, _, .bare h a sels last hat hnb hnl hall hl => by
    have hsp : cssIsSpecial a.value = false := by
      rw [Bool.eq_false_iff, Ne, special_split, not_or]; exact ⟨hnb, hnl⟩
    rw [cssRule, isAtom_iff.2 hat]
    simp only [hsp, Bool.false_eq_true, if_false]
    rw [snags_then, bare_snags dbg (selectors_all hall) hl]
  | _, _, .property h a sels props f hat hnb hnl hs hp hf => by
    have hsp : cssIsSpecial a.value = false := by
      rw [Bool.eq_false_iff, Ne, special_split, not_or]; exact ⟨hnb, hnl⟩
    have hne : props ≠ [] := by rintro rfl; cases hf
    have h3 := text_properties (sels := h :: sels) (props := props) (by
      intro n hn
      rcases List.mem_cons.1 hn with rfl | hn
      · exact isAtomic_true.2 ⟨a, hat⟩
      · exact isAtomic_true.2 (hs n hn)) hne (fun n hn => isAtomic_false.2 (hp n hn))
    rw [cssRule, isAtom_iff.2 hat]
    simp only [hsp, Bool.false_eq_true, if_false]
    rw [snags_then, ← List.cons_append, h3.2, cssProps_snags]
    exact hf
  | _, _, .line h a args f hat hl hf => by
    obtain ⟨hsp, hol⟩ := (oneline_iff _).2 hl
    rw [cssRule, isAtom_iff.2 hat]
    simp only [hsp, hol, if_true]
    rw [snags_then, cssOneline_snags]
    exact hf
  | _, _, .argument h a rest f hat hb hf => by
    obtain ⟨hsp, hol⟩ := (special_iff _).2 hb
    rw [cssRule, isAtom_iff.2 hat]
    simp only [hsp, hol, Bool.false_eq_true, if_true, if_false]
    rw [snags_then]
    exact fault_cssNest_arg dbg hf
  | _, _, .rule h a args rules ts f hat hb hna hts hr hf => by
    obtain ⟨hsp, hol⟩ := (special_iff _).2 hb
    have ih := fault_cssSheet dbg hf
    rw [cssRule, isAtom_iff.2 hat]
    simp only [hsp, hol, Bool.false_eq_true, if_true, if_false]
    rw [snags_then]
    exact fault_cssNest_args dbg ((cssNested_rules dbg rules f hr).2 (ih.2 rfl)) hna hts
theorem fault_cssSheet (dbg : Str → Str) : ∀ {msg : String} {ns : List PNode} {f : Snag}, SheetFault dbg msg ns f →
    (msg = "Node not expected here." → Snags (cssGenerate dbg ns) f) ∧
    (msg = "Expected list (i.e. a CSS rule) here!" → Snags (cssNested dbg true ns) f)
  | _, _, _, .other msg n ns hl => by
    constructor
    · rintro rfl
      cases n with
      | list => exact absurd rfl (hl _ _ _ _)
      | _ => simp [cssGenerate, PNode.site]
    · rintro rfl
      cases n with
      | list => exact absurd rfl (hl _ _ _ _)
      | _ => simp [cssNested, PNode.site]
  | _, _, _, .here msg rule s e w rest f h => by
    have ih := fault_cssRule dbg h
    constructor
    · intro _
      rw [cssGenerate, snags_bind]
      exact .inl ih
    · intro _
      simp only [cssNested]
      rw [snags_bind]
      exact .inl ih
  | _, _, _, .later msg rule s e w rest f t h hs => by
    have ih := fault_cssSheet dbg hs
    constructor
    · intro hm
      rw [cssGenerate, snags_bind]
      exact .inr ⟨t, text_cssRule dbg h, by rw [snags_then]; exact ih.1 hm⟩
    · intro hm
      simp only [cssNested]
      rw [snags_bind]
      exact .inr ⟨t, text_cssRule dbg h, by rw [snags_then]; exact ih.2 hm⟩
end

theorem cssGenerate_snags_iff (dbg : Str → Str) (ns : List PNode) (f : Snag) :
    Snags (cssGenerate dbg ns) f ↔ SheetFault dbg "Node not expected here." ns f :=
  ⟨cssGenerate_snags dbg ns f, fun h => (fault_cssSheet dbg h).1 rfl⟩

/-! ## HTML -/

theorem htmlAttrs_snags {f : Snag} : ∀ {ns : List PNode}, Snags (htmlAttrs ns) f ↔
    First (fun n => ∃ t, HtmlAttr n t) (AttrFault "Attribute cannot contain non-atomic data.") ns f
  | [] => by simp [htmlAttrs, first_nil]
  | .attr k v s w :: ns => by
    rw [htmlAttrs, first_cons, ← htmlAttrs_snags (ns := ns), attrFault_iff]
    cases ha : v.atomic? with
    | none =>
      simp only [snags_err, true_and, iff_self_or]
      rintro ⟨⟨t, h⟩, _⟩
      cases h with
      | mk _ _ a _ _ h => rw [isAtom_iff.2 h] at ha; cases ha
    | some a =>
      simp only [snags_then, reduceCtorEq, false_and, false_or]
      exact ⟨fun h => ⟨⟨_, .mk _ _ a _ _ (isAtom_iff.1 ha)⟩, h⟩, fun h => h.2⟩
  | .symbol a :: ns | .number a :: ns | .string a :: ns | .raw a :: ns | .list .. :: ns => by
    simp only [htmlAttrs, snags_ok, false_iff, first_cons]
    rintro (h | ⟨⟨t, h⟩, _⟩) <;> cases h

theorem htmlDecl_snags {f : Snag} : ∀ {ns : List PNode}, Snags (htmlDecl ns) f ↔ First (fun n => ∃ t, HtmlItem n t) HtmlItemFault ns f
  | [] => by simp [htmlDecl, first_nil]
  | n :: ns => by
    rw [htmlDecl, first_cons, ← htmlDecl_snags (ns := ns)]
    cases ha : n.symbolic? with
    | none =>
      have hn : (∀ a, n ≠ .symbol a) ∧ ∀ a, n ≠ .number a := by
        constructor <;> rintro a rfl <;> simp [PNode.symbolic?] at ha
      simp only [snags_err]
      constructor
      · rintro rfl; exact .inl (.mk n hn.1 hn.2)
      · rintro (h | ⟨⟨t, h⟩, _⟩)
        · cases h; rfl
        · cases h with
          | word a h => rcases h with h | h <;> simp [h] at hn
    | some a =>
      have hn : n = .symbol a ∨ n = .number a := by cases n <;> simp_all [PNode.symbolic?]
      simp only [snags_then]
      constructor
      · intro h; exact .inr ⟨⟨_, .word n a hn⟩, h⟩
      · rintro (h | h)
        · cases h with
          | mk h1 h2 => rcases hn with h | h <;> simp [h] at h1 h2
        · exact h.2

theorem rawText_snags (k : PNode) (e : Token) (f : Snag) : Snags (rawText (some k) e) f ↔ (∀ t, ¬ SourceText k e t) ∧ f = .crash := by
  have h : (∃ t, rawText (some k) e = .ok t) ∨ rawText (some k) e = .panic := by
    unfold rawText
    simp only []
    split
    · split
      · cases sliceBytes e.site.code (k.site.off - blen k.lw + (if k.lw.head? = some ' ' then 1 else 0)) e.site.off with
        | none => exact .inr rfl
        | some s => exact .inl ⟨s, rfl⟩
      · exact .inr rfl
    · exact .inr rfl
  rcases h with ⟨t, h⟩ | h
  · rw [h]
    simp only [snags_ok, false_iff]
    exact fun h' => h'.1 t ((rawText_source k e t).1 h)
  · rw [h]
    simp only [snags_panic]
    constructor
    · rintro rfl
      exact ⟨fun t ht => by rw [← rawText_source, h] at ht; simp at ht, rfl⟩
    · exact fun h => h.2

theorem sheet_adjust (dbg : Str → Str) (msg : String) (ks : List PNode) (f : Snag) :
    SheetFault dbg msg (adjustFirst ks) f ↔ SheetFault dbg msg ks f := by
  cases ks with
  | nil => rfl
  | cons n ns =>
    rw [adjustFirst]
    cases n with
    | list rule s e w =>
      rw [PNode.setLw]
      constructor
      · intro h
        cases h with
        | other _ _ _ h => exact absurd rfl (h _ _ _ _)
        | here _ _ _ _ _ _ _ h => exact .here _ _ _ _ _ _ _ h
        | later _ _ _ _ _ _ _ t h h' => exact .later _ _ _ _ _ _ _ t h h'
      · intro h
        cases h with
        | other _ _ _ h => exact absurd rfl (h _ _ _ _)
        | here _ _ _ _ _ _ _ h => exact .here _ _ _ _ _ _ _ h
        | later _ _ _ _ _ _ _ t h h' => exact .later _ _ _ _ _ _ _ t h h'
    | _ =>
      constructor
      · intro h
        cases h with
        | other => exact .other _ _ _ (by intros _ _ _ _; simp)
      · intro h
        cases h with
        | other => exact .other _ _ _ (by intros _ _ _ _; simp [PNode.setLw])

theorem style_snags (dbg : Str → Str) (ks : List PNode) (e : Token) (f : Snag) :
    Snags (htmlSpecialContent dbg (str! "style") ks e) f ↔ ContentFault dbg (str! "style") ks e f := by
  have hc : htmlSpecialContent dbg (str! "style") ks e = match adjustFirst ks with
    | [.string s] => .ok s.value
    | .string s :: _ => .err (genErr "A `style' tag can have CSS rules or a single string." s.site)
    | rest => (cssGenerate dbg rest >>= fun c => .ok ('\n' :: c)) := rfl
  rw [hc]
  by_cases hs : ∃ a rest, ks = .string a :: rest
  · obtain ⟨a, rest, rfl⟩ := hs
    cases rest with
    | nil =>
      simp only [adjustFirst, PNode.setLw, snags_ok, false_iff]
      intro h
      cases h with
      | style _ _ _ h => exact h _ (by simp) a rfl
      | xml _ _ _ _ h => exfalso; revert h; decide
      | html _ _ _ _ h => exfalso; revert h; decide
    | cons k ks =>
      simp only [adjustFirst, PNode.setLw, snags_err]
      constructor
      · rintro rfl; exact .string a k ks e
      · intro h
        cases h with
        | string => rfl
        | style _ _ _ h => exact absurd rfl (h _ (by simp) a)
        | xml _ _ _ _ h => exfalso; revert h; decide
        | html _ _ _ _ h => exfalso; revert h; decide
  · have hn : ∀ n ∈ ks.head?, ∀ a, n ≠ .string a := by
      rintro n hn a rfl
      cases ks with
      | nil => simp at hn
      | cons m ks => simp at hn; subst hn; exact hs ⟨a, ks, rfl⟩
    have hns := notString_adjust hn
    have : (match adjustFirst ks with
      | [.string s] => .ok s.value
      | .string s :: _ => .err (genErr "A `style' tag can have CSS rules or a single string." s.site)
      | rest => (cssGenerate dbg rest >>= fun c => .ok ('\n' :: c)) : Res Str) = (cssGenerate dbg (adjustFirst ks) >>= fun c => .ok ('\n' :: c)) := by
      split
      · rename_i h; exact absurd h (hns _ _)
      · rename_i h; exact absurd h (hns _ _)
      · rfl
    rw [this, snags_then, cssGenerate_snags_iff, sheet_adjust]
    constructor
    · intro h; exact .style ks e f hn h
    · intro h
      cases h with
      | string a k ks => exact absurd rfl (hn _ (by simp) a)
      | style _ _ _ _ h => exact h
      | xml _ _ _ _ h => exfalso; revert h; decide
      | html _ _ _ _ h => exfalso; revert h; decide

theorem special_snags (dbg : Str → Str) (tag : Str) (ks : List PNode) (e : Token) (f : Snag) (hs : tag ∈ otherContent) :
    Snags (htmlSpecialContent dbg tag ks e) f ↔ ContentFault dbg tag ks e f := by
  simp only [otherContent, List.mem_cons, List.not_mem_nil, or_false] at hs
  rcases hs with rfl | rfl | rfl | rfl | rfl | rfl | rfl
  · have hc : htmlSpecialContent dbg (str! "pre") ks e = rawText ks.head? e := rfl
    rw [hc]
    cases ks with
    | nil =>
      simp only [List.head?_nil, rawText, snags_ok, false_iff]
      intro h
      cases h with
      | xml _ _ _ _ h => exfalso; revert h; decide
      | html _ _ _ _ h => exfalso; revert h; decide
    | cons k ks =>
      rw [List.head?_cons, rawText_snags]
      constructor
      · rintro ⟨h, rfl⟩; exact .pre k ks e h
      · intro h
        cases h with
        | pre _ _ _ h => exact ⟨h, rfl⟩
        | xml _ _ _ _ h => exfalso; revert h; decide
        | html _ _ _ _ h => exfalso; revert h; decide
  · have hc : htmlSpecialContent dbg (str! "textarea") ks e = .ok (textNodes (adjustFirst ks)) := rfl
    rw [hc, snags_ok, false_iff]
    intro h
    cases h with
    | xml _ _ _ _ h => exfalso; revert h; decide
    | html _ _ _ _ h => exfalso; revert h; decide
  · have hc : htmlSpecialContent dbg (str! "title") ks e = .ok (textNodes (adjustFirst ks)) := rfl
    rw [hc, snags_ok, false_iff]
    intro h
    cases h with
    | xml _ _ _ _ h => exfalso; revert h; decide
    | html _ _ _ _ h => exfalso; revert h; decide
  · exact style_snags dbg ks e f
  · have hc : htmlSpecialContent dbg (str! "script") ks e = .ok (sexpNodes dbg (adjustFirst ks)) := rfl
    rw [hc, snags_ok, false_iff]
    intro h
    cases h with
    | xml _ _ _ _ h => exfalso; revert h; decide
    | html _ _ _ _ h => exfalso; revert h; decide
  · have hc : htmlSpecialContent dbg (str! "math") ks e = xmlGenerate (adjustFirst ks) := rfl
    rw [hc, xmlGenerate_snags_adjust]
    constructor
    · intro h; exact .xml _ _ _ _ (.inl rfl) h
    · intro h
      cases h with
      | xml _ _ _ _ _ h => exact h
      | html _ _ _ _ h => exfalso; revert h; decide
  · have hc : htmlSpecialContent dbg (str! "svg") ks e = xmlGenerate (adjustFirst ks) := rfl
    rw [hc, xmlGenerate_snags_adjust]
    constructor
    · intro h; exact .xml _ _ _ _ (.inr rfl) h
    · intro h
      cases h with
      | xml _ _ _ _ _ h => exact h
      | html _ _ _ _ h => exfalso; revert h; decide

/-- What an element consists of, whatever the whitespace before it. -/
theorem htmlNode_elem (dbg : Str → Str) (a : Node) (rest : List PNode) (s : Site) (e : Token) (w g : Str) (h1 : a.value ≠ [])
    (h2 : ∀ r, a.value ≠ '!' :: r) : ∃ open' close : Str → Str,
    htmlNode dbg g (.list (.symbol a :: rest) s e w) = (htmlAttrs rest >>= fun as =>
      if lower a.value ∈ voidNames then
        (match kids rest with
          | k :: _ => .err (genErr "A void element cannot have children." k.site)
          | [] => .ok (open' as))
      else (if lower a.value ∈ otherContent then htmlSpecialContent dbg (lower a.value) (kids rest) e
          else htmlKids dbg .lead rest) >>= fun cs => .ok (open' as ++ close cs)) := by
  obtain ⟨c, q, hv⟩ : ∃ c q, a.value = c :: q := by
    cases hv : a.value with
    | nil => exact absurd hv h1
    | cons c q => exact ⟨c, q, rfl⟩
  have hl : lower a.value = lowerChar c :: q.map lowerChar := by rw [hv]; rfl
  have hf : ¬ (lowerChar c == '!') = true := by
    intro hf
    rw [beq_iff_eq] at hf
    exact h2 q (by rw [hv, lowerChar_bang hf])
  refine ⟨fun as => g ++ '<' :: a.value ++ as ++ ['>'], fun cs => cs ++ closeWs (lower a.value) g e (firstOnNextLine (kids rest))
            ++ str! "</" ++ lower a.value ++ ['>'], ?_⟩
  rw [htmlNode]
  rw [hl]
  simp only []
  rw [if_neg hf, ← hl]
  congr 1
  funext as
  by_cases hvd : lower a.value ∈ voidNames
  · rw [if_pos hvd, void_iff, if_pos (by simpa using hvd)]
    cases kids rest <;> rfl
  · rw [if_neg hvd, void_iff, if_neg (by simpa using hvd)]
    by_cases hsc : lower a.value ∈ otherContent
    · rw [if_pos hsc, if_pos ((special_other _).2 hsc)]
      congr 1
      funext cs
      simp
    · rw [if_neg hsc, if_neg (fun h => hsc ((special_other _).1 h))]
      congr 1
      funext cs
      simp

theorem htmlNode_decl (dbg : Str → Str) (a : Node) (rest : List PNode) (s : Site) (e : Token) (w g r : Str)
    (h : a.value = '!' :: r) : htmlNode dbg g (.list (.symbol a :: rest) s e w) =
      (htmlDecl rest >>= fun d => .ok (g ++ '<' :: a.value ++ d ++ ['>'])) := by
  have hl : lower a.value = '!' :: r.map lowerChar := by rw [h]; rfl
  rw [htmlNode, hl]
  rfl

theorem htmlNode_noName (dbg : Str → Str) (a : Node) (rest : List PNode) (s : Site) (e : Token) (w g : Str)
    (h : a.value = []) : htmlNode dbg g (.list (.symbol a :: rest) s e w) = .panic := by
  have hl : lower a.value = [] := by rw [h]; rfl
  rw [htmlNode, hl]

/-- The three kinds of heads. -/
theorem head_cases (v : Str) : v = [] ∨ (∃ r, v = '!' :: r) ∨ v ≠ [] ∧ ∀ r, v ≠ '!' :: r := by
  by_cases h1 : v = []
  · exact .inl h1
  · by_cases h2 : ∃ r, v = '!' :: r
    · exact .inr (.inl h2)
    · exact .inr (.inr ⟨h1, fun r h => h2 ⟨r, h⟩⟩)

theorem htmlNode_ok_gap (dbg : Str → Str) (n : PNode) (g g' t : Str) (h : htmlNode dbg g n = .ok t) :
    ∃ t', htmlNode dbg g' n = .ok t' := by
  cases n with
  | list ns s e w =>
    cases ns with
    | nil => simp [htmlNode] at h
    | cons h' rest =>
      cases h' with
      | symbol a =>
        rcases head_cases a.value with hv | ⟨r, hv⟩ | ⟨h1, h2⟩
        · rw [htmlNode_noName dbg _ _ _ _ _ _ hv] at h; simp at h
        · rw [htmlNode_decl dbg _ _ _ _ _ _ r hv, Res.bind_eq_ok] at h
          obtain ⟨d, hd, _⟩ := h
          exact ⟨_, by rw [htmlNode_decl dbg _ _ _ _ _ _ r hv, hd]; rfl⟩
        · obtain ⟨o, c, h3⟩ := htmlNode_elem dbg a rest s e w g h1 h2
          obtain ⟨o', c', h3'⟩ := htmlNode_elem dbg a rest s e w g' h1 h2
          rw [h3, Res.bind_eq_ok] at h
          obtain ⟨as, has, h⟩ := h
          rw [h3', has, Res.ok_bind]
          by_cases hvd : lower a.value ∈ voidNames
          · rw [if_pos hvd] at h ⊢
            cases hk : kids rest with
            | nil => exact ⟨_, rfl⟩
            | cons k ks => rw [hk] at h; simp at h
          · rw [if_neg hvd, Res.bind_eq_ok] at h
            obtain ⟨cs, hcs, _⟩ := h
            rw [if_neg hvd, hcs]
            exact ⟨_, rfl⟩
      | _ => simp [htmlNode] at h
  | attr => simp [htmlNode] at h
  | _ => exact ⟨_, by rw [htmlNode]⟩

theorem htmlText_iff (dbg : Str → Str) (n : PNode) (g : Str) : (∃ t, HtmlText dbg n t) ↔ ∃ t, htmlNode dbg g n = .ok t := by
  constructor
  · rintro ⟨t, h⟩
    exact htmlNode_ok_gap dbg n _ g t (text_htmlNode dbg h)
  · rintro ⟨t, h⟩
    obtain ⟨t', h'⟩ := htmlNode_ok_gap dbg n g n.lw t h
    have := htmlNode_text dbg n n.lw t' h'
    rw [setLw_own] at this
    exact ⟨t', this⟩

theorem htmlFaults_cons {dbg : Str → Str} {n : PNode} {ns : List PNode} {f : Snag} :
    HtmlFaults dbg (n :: ns) f ↔ HtmlFault dbg n f ∨ (∃ t, HtmlText dbg n t) ∧ HtmlFaults dbg ns f := by
  constructor
  · intro h
    cases h with
    | here _ _ _ h => exact .inl h
    | later _ _ _ t h h' => exact .inr ⟨⟨t, h⟩, h'⟩
  · rintro (h | ⟨⟨t, h⟩, h'⟩)
    · exact .here _ _ _ h
    · exact .later _ _ _ t h h'

mutual
theorem htmlNode_snags (dbg : Str → Str) : ∀ (n : PNode) (g : Str) (f : Snag), Snags (htmlNode dbg g n) f → HtmlFault dbg n f
  | .symbol a, g, f, h | .number a, g, f, h | .string a, g, f, h | .raw a, g, f, h => by simp [htmlNode] at h
  | .attr k v s w, g, f, h => by simp only [htmlNode, snags_err] at h; subst h; exact .attr k v s w
  | .list [] s e w, g, f, h => by simp only [htmlNode, snags_err] at h; subst h; exact .empty s e w
  | .list (.symbol a :: rest) s e w, g, f, h => by
    have ih := htmlLead_snags dbg rest f
    rcases head_cases a.value with hv | ⟨r, hv⟩ | ⟨h1, h2⟩
    · rw [htmlNode_noName dbg _ _ _ _ _ _ hv, snags_panic] at h
      subst h
      exact .noName _ _ _ _ _ hv
    · rw [htmlNode_decl dbg _ _ _ _ _ _ r hv, snags_then, htmlDecl_snags] at h
      exact .item _ _ _ _ _ r _ hv h
    · obtain ⟨o, c, h3⟩ := htmlNode_elem dbg a rest s e w g h1 h2
      rw [h3, snags_bind] at h
      rcases h with h | ⟨as, ha, h⟩
      · exact .attribute _ _ _ _ _ _ h1 h2 (htmlAttrs_snags.1 h)
      · obtain ⟨attrs, hr, hat, hk⟩ := kids_split rest
        rw [hr] at ha
        obtain ⟨ts, hts, _⟩ := htmlAttrs_written attrs (kids rest) as hat hk ha
        by_cases hvd : lower a.value ∈ voidNames
        · rw [if_pos hvd] at h
          cases hkr : kids rest with
          | nil => rw [hkr] at h; simp at h
          | cons k ks =>
            rw [hkr] at h hr hk
            simp only [snags_err] at h
            subst h
            have := HtmlFault.void (quote := dbg) a attrs ks k s e w ts hvd hts (noAttr_of (hk k (by simp)))
            rwa [← hr] at this
        · rw [if_neg hvd, snags_then] at h
          have hc : ContentFault dbg (lower a.value) (kids rest) e f := by
            by_cases hsc : lower a.value ∈ otherContent
            · rw [if_pos hsc] at h
              exact (special_snags dbg _ _ _ _ hsc).1 h
            · rw [if_neg hsc] at h
              exact .html _ _ _ _ hsc (ih h)
          have := HtmlFault.content (quote := dbg) a attrs (kids rest) s e w ts f h1 h2 hvd hts
            (fun n hn => noAttr_of (hk n hn)) hc
          rwa [← hr] at this
  | .list (.number a :: rest) s e w, g, f, h | .list (.string a :: rest) s e w, g, f, h | .list (.raw a :: rest) s e w, g, f, h
  | .list (.list .. :: rest) s e w, g, f, h | .list (.attr .. :: rest) s e w, g, f, h => by
    simp only [htmlNode, snags_err] at h
    subst h
    exact .head _ _ _ _ _ (by simp)
theorem htmlLead_snags (dbg : Str → Str) : ∀ (ns : List PNode) (f : Snag), Snags (htmlKids dbg .lead ns) f → HtmlFaults dbg (kids ns) f
  | [], f, h => by simp [htmlKids] at h
  | n :: ns, f, h => by
    have i1 := htmlLead_snags dbg ns f
    have i2 := htmlNode_snags dbg n (firstLw n.lw) f
    have i3 := htmlRest_snags dbg ns f
    rw [htmlKids] at h
    unfold kids at i1 ⊢
    rw [List.dropWhile_cons]
    split at h
    · rename_i hn; rw [if_pos hn]; exact i1 h
    · rename_i hn
      rw [if_neg hn, htmlFaults_cons]
      rw [snags_bind] at h
      rcases h with h | ⟨t, h1, h2⟩
      · exact .inl (i2 h)
      · rw [snags_then] at h2
        exact .inr ⟨(htmlText_iff dbg n _).2 ⟨t, h1⟩, i3 h2⟩
theorem htmlRest_snags (dbg : Str → Str) : ∀ (ns : List PNode) (f : Snag), Snags (htmlKids dbg .rest ns) f → HtmlFaults dbg ns f
  | [], f, h => by simp [htmlKids] at h
  | n :: ns, f, h => by
    have i2 := htmlNode_snags dbg n n.lw f
    have i3 := htmlRest_snags dbg ns f
    rw [htmlKids, snags_bind] at h
    rw [htmlFaults_cons]
    rcases h with h | ⟨t, h1, h2⟩
    · exact .inl (i2 h)
    · rw [snags_then] at h2
      exact .inr ⟨(htmlText_iff dbg n _).2 ⟨t, h1⟩, i3 h2⟩
end

theorem void_head {v : Str} (h : lower v ∈ voidNames) : v ≠ [] ∧ ∀ r, v ≠ '!' :: r := by
  constructor
  · rintro rfl
    revert h; decide
  · rintro r rfl
    have : lower ('!' :: r) = '!' :: r.map lowerChar := rfl
    rw [this] at h
    simp [voidNames] at h

mutual
theorem fault_htmlNode (dbg : Str → Str) : ∀ {n : PNode} {f : Snag} (g : Str), HtmlFault dbg n f → Snags (htmlNode dbg g n) f
  | _, _, g, .attr k v s w => by simp [htmlNode]
  | _, _, g, .empty s e w => by simp [htmlNode]
  | _, _, g, .head m rest s e w h => by
    cases m with
    | symbol a => exact absurd rfl (h a)
    | _ => simp [htmlNode]
  | _, _, g, .noName a rest s e w h => by rw [htmlNode_noName dbg _ _ _ _ _ _ h]; simp
  | _, _, g, .item a rest s e w r f h h' => by
    rw [htmlNode_decl dbg _ _ _ _ _ _ r h, snags_then, htmlDecl_snags]
    exact h'
  | _, _, g, .attribute a rest s e w f h1 h2 h' => by
    obtain ⟨o, c, h3⟩ := htmlNode_elem dbg a rest s e w g h1 h2
    rw [h3, snags_bind]
    exact .inl (htmlAttrs_snags.2 h')
  | _, _, g, .void a attrs ks k s e w ts hvd hts hk => by
    have hvd' : lower a.value ∈ voidNames := hvd
    obtain ⟨h1, h2⟩ := void_head hvd'
    obtain ⟨o, c, h3⟩ := htmlNode_elem dbg a (attrs ++ k :: ks) s e w g h1 h2
    have hk' : ∀ n ∈ (k :: ks).head?, n.isAttr = false := by
      intro n hn
      simp at hn
      subst hn
      exact (noAttr_iff _).1 hk
    obtain ⟨h5, h6⟩ := text_htmlAttrs (k :: ks) hts hk'
    rw [h3, h5, Res.ok_bind, if_pos hvd', kids_append h6 hk']
    simp
  | _, _, g, .content a attrs ks s e w ts f h1 h2 hvd hts hk h' => by
    have hvd' : lower a.value ∉ voidNames := hvd
    have h'' : ContentFault dbg (lower a.value) ks e f := h'
    have ih := fun hn => fault_htmlContent dbg hn h'
    obtain ⟨o, c, h3⟩ := htmlNode_elem dbg a (attrs ++ ks) s e w g h1 h2
    have hk' : ∀ n ∈ ks.head?, n.isAttr = false := fun n hn => (noAttr_iff n).1 (hk n hn)
    obtain ⟨h5, h6⟩ := text_htmlAttrs ks hts hk'
    rw [h3, h5, Res.ok_bind, if_neg hvd', snags_then, kids_append h6 hk']
    by_cases hsc : lower a.value ∈ otherContent
    · rw [if_pos hsc]
      exact (special_snags dbg _ _ _ _ hsc).2 h''
    · rw [if_neg hsc, htmlLead_adjust dbg ks h6 hk']
      exact ih hsc
theorem fault_htmlContent (dbg : Str → Str) : ∀ {tag : Str} {ks : List PNode} {e : Token} {f : Snag}, tag ∉ otherContent →
    ContentFault dbg tag ks e f → Snags (htmlKids dbg .rest (adjustFirst ks)) f
  | _, _, _, _, hn, .pre .. => absurd (by decide) hn
  | _, _, _, _, hn, .string .. => absurd (by decide) hn
  | _, _, _, _, hn, .style .. => absurd (by decide) hn
  | _, _, _, _, hn, .xml _ _ _ _ ht _ => absurd (by rcases ht with rfl | rfl <;> decide) hn
  | _, _, _, _, _, .html tag ks e f _ h => by
    have := fault_htmlKids dbg true h
    rwa [if_pos rfl] at this
theorem fault_htmlKids (dbg : Str → Str) : ∀ {ns : List PNode} {f : Snag} (adjust : Bool), HtmlFaults dbg ns f →
    Snags (htmlKids dbg .rest (if adjust then adjustFirst ns else ns)) f
  | _, _, adjust, .here n ns f h => by
    have ih := fun g => fault_htmlNode dbg g h
    cases adjust with
    | true => rw [if_pos rfl, adjustFirst, htmlKids, snags_bind, htmlNode_setLw]; exact .inl (ih _)
    | false => rw [if_neg (by simp), htmlKids, snags_bind]; exact .inl (ih _)
  | _, _, adjust, .later n ns f t h hs => by
    have ih := fault_htmlKids dbg false hs
    rw [if_neg (by simp)] at ih
    have key : ∀ g, ∃ t, htmlNode dbg g n = .ok t := fun g => (htmlText_iff dbg n g).1 ⟨t, h⟩
    cases adjust with
    | true =>
      rw [if_pos rfl, adjustFirst, htmlKids, snags_bind, htmlNode_setLw]
      obtain ⟨t, ht⟩ := key (n.setLw (firstLw n.lw)).lw
      exact .inr ⟨t, ht, by rw [snags_then]; exact ih⟩
    | false =>
      rw [if_neg (by simp), htmlKids, snags_bind]
      obtain ⟨t, ht⟩ := key n.lw
      exact .inr ⟨t, ht, by rw [snags_then]; exact ih⟩
end

theorem htmlGenerate_snags (dbg : Str → Str) (ns : List PNode) (f : Snag) : Snags (htmlGenerate dbg ns) f ↔ HtmlFaults dbg ns f := by
  constructor
  · exact htmlRest_snags dbg ns f
  · intro h
    have := fault_htmlKids dbg false h
    rwa [if_neg (by simp)] at this

/-! ## Nothing else can happen -/

set_option linter.unusedVariables false

/-- Text, an error of the generator or a crash. -/
def Gens {α : Type} (r : Res α) : Prop := (∃ t, r = .ok t) ∨ ∃ f, Snags r f

section
variable {α β : Type}
theorem gens_ok (a : α) : Gens (.ok a) := .inl ⟨a, rfl⟩
theorem gens_err (m : String) (s : Site) : Gens (.err (genErr m s) : Res α) := .inr ⟨.error m s, rfl⟩
theorem gens_panic : Gens (.panic : Res α) := .inr ⟨.crash, rfl⟩
theorem gens_bind {x : Res α} {k : α → Res β} (h : Gens x) (hk : ∀ a, Gens (k a)) : Gens (x >>= k) := by
  rcases h with ⟨t, rfl⟩ | ⟨f, h⟩
  · exact hk t
  · exact .inr ⟨f, (snags_bind _ _ _).2 (.inl h)⟩
theorem gens_then {x : Res α} {k : α → β} (h : Gens x) : Gens (x >>= fun a => .ok (k a)) := gens_bind h fun _ => gens_ok _
end

theorem gens_xmlAttr (n : PNode) : Gens (xmlAttr n) := by
  unfold xmlAttr
  split
  · split
    · exact gens_ok _
    · exact gens_err _ _
  · exact gens_panic

theorem gens_xmlAttrs : ∀ ns : List PNode, Gens (xmlAttrs ns)
  | [] => gens_ok _
  | .attr k v s w :: ns => gens_bind (gens_xmlAttr _) fun _ => gens_then (gens_xmlAttrs ns)
  | .symbol a :: ns | .number a :: ns | .string a :: ns | .raw a :: ns | .list .. :: ns => gens_ok _

theorem gens_xmlDecl : ∀ ns : List PNode, Gens (xmlDecl ns)
  | [] => gens_ok _
  | .attr k v s w :: ns => gens_bind (gens_xmlAttr _) fun _ => gens_then (gens_xmlDecl ns)
  | .symbol a :: ns | .number a :: ns => gens_then (gens_xmlDecl ns)
  | .string a :: ns | .raw a :: ns | .list .. :: ns => gens_err _ _

mutual
theorem gens_xmlNode (g : Str) : ∀ n : PNode, Gens (xmlNode g n)
  | .symbol a | .number a | .string a => by rw [xmlNode]; exact gens_ok _
  | .raw a => by rw [xmlNode]; exact gens_err _ _
  | .attr .. => by rw [xmlNode]; exact gens_err _ _
  | .list [] s e w => by rw [xmlNode]; exact gens_err _ _
  | .list (.symbol a :: rest) s e w => by
    have ih := gens_xmlKids .lead rest
    rw [xmlNode]
    cases a.value with
    | nil => exact gens_panic
    | cons front r =>
      simp only []
      split
      · exact gens_then (gens_xmlDecl rest)
      · exact gens_bind (gens_xmlAttrs rest) fun _ => gens_then ih
  | .list (.number a :: rest) s e w | .list (.string a :: rest) s e w | .list (.raw a :: rest) s e w
  | .list (.list .. :: rest) s e w | .list (.attr .. :: rest) s e w => by simp only [xmlNode]; exact gens_err _ _
theorem gens_xmlKids : ∀ (m : KidMode) (ns : List PNode), Gens (xmlKids m ns)
  | m, [] => by rw [xmlKids]; exact gens_ok _
  | .lead, n :: ns => by
    have i1 := gens_xmlKids .lead ns
    have i2 := gens_xmlNode (firstLw n.lw) n
    have i3 := gens_xmlKids .rest ns
    rw [xmlKids]
    split
    · exact i1
    · exact gens_bind i2 fun _ => gens_then i3
  | .rest, n :: ns => by
    have i2 := gens_xmlNode n.lw n
    have i3 := gens_xmlKids .rest ns
    rw [xmlKids]
    exact gens_bind i2 fun _ => gens_then i3
end

mutual
theorem gens_cssValue (dbg : Str → Str) : ∀ n : PNode, Gens (cssValue dbg n)
  | .symbol a | .number a | .string a | .raw a => by rw [cssValue]; exact gens_ok _
  | .attr .. => by rw [cssValue]; exact gens_err _ _
  | .list [] s e w => by rw [cssValue]; exact gens_ok _
  | .list (n :: ns) s e w => by
    have i1 := gens_cssValue dbg n
    have i2 := gens_cssValues dbg ns
    rw [cssValue]
    exact gens_bind i1 fun _ => gens_then i2
theorem gens_cssValues (dbg : Str → Str) : ∀ ns : List PNode, Gens (cssValues dbg ns)
  | [] => by rw [cssValues]; exact gens_ok _
  | n :: ns => by
    have i1 := gens_cssValue dbg n
    have i2 := gens_cssValues dbg ns
    rw [cssValues]
    exact gens_bind i1 fun _ => gens_then i2
end

theorem gens_cssOneline (dbg : Str → Str) : ∀ ns : List PNode, Gens (cssOneline dbg ns)
  | [] => gens_ok _
  | .attr k v s w :: ns => gens_bind (gens_cssValue dbg _) fun _ => gens_then (gens_cssOneline dbg ns)
  | .symbol a :: ns | .number a :: ns | .string a :: ns | .raw a :: ns | .list .. :: ns =>
    gens_bind (gens_cssValue dbg _) fun _ => gens_then (gens_cssOneline dbg ns)

theorem gens_cssProps (dbg : Str → Str) : ∀ ns : List PNode, Gens (cssProps dbg ns)
  | [] => gens_ok _
  | .attr k v s w :: ns => gens_bind (gens_cssValue dbg _) fun _ => gens_then (gens_cssProps dbg ns)
  | .symbol a :: ns | .number a :: ns | .string a :: ns | .raw a :: ns | .list .. :: ns => gens_err _ _

mutual
theorem gens_cssRule (dbg : Str → Str) : ∀ ns : List PNode, Gens (cssRule dbg ns)
  | [] => by rw [cssRule]; exact gens_panic
  | m :: rest => by
    have ih := gens_cssNested dbg false rest
    rw [cssRule]
    cases m.atomic? with
    | none => exact gens_panic
    | some a =>
      simp only []
      split
      · split
        · exact gens_then (gens_cssOneline dbg rest)
        · exact gens_then ih
      · exact gens_then (gens_cssProps dbg _)
theorem gens_cssNested (dbg : Str → Str) : ∀ (rules : Bool) (ns : List PNode), Gens (cssNested dbg rules ns)
  | rules, [] => by rw [cssNested]; exact gens_ok _
  | rules, .list rule s e w :: rest => by
    have i1 := gens_cssRule dbg rule
    have i2 := gens_cssNested dbg true rest
    simp only [cssNested]
    exact gens_bind i1 fun _ => gens_then i2
  | rules, .attr .. :: rest => by
    have i2 := gens_cssNested dbg rules rest
    simp only [cssNested]
    split
    · exact gens_err _ _
    · exact gens_bind (gens_cssValue dbg _) fun _ => gens_then i2
  | rules, .symbol a :: rest | rules, .number a :: rest | rules, .string a :: rest | rules, .raw a :: rest => by
    have i2 := gens_cssNested dbg rules rest
    simp only [cssNested]
    split
    · exact gens_err _ _
    · exact gens_bind (gens_cssValue dbg _) fun _ => gens_then i2
end

theorem gens_cssGenerate (dbg : Str → Str) : ∀ ns : List PNode, Gens (cssGenerate dbg ns)
  | [] => gens_ok _
  | .list rule s e w :: ns => gens_bind (gens_cssRule dbg rule) fun _ => gens_then (gens_cssGenerate dbg ns)
  | .symbol a :: ns | .number a :: ns | .string a :: ns | .raw a :: ns | .attr .. :: ns => gens_err _ _

theorem gens_htmlAttrs : ∀ ns : List PNode, Gens (htmlAttrs ns)
  | [] => gens_ok _
  | .attr k v s w :: ns => by
    rw [htmlAttrs]
    cases v.atomic? with
    | none => exact gens_err _ _
    | some a => exact gens_then (gens_htmlAttrs ns)
  | .symbol a :: ns | .number a :: ns | .string a :: ns | .raw a :: ns | .list .. :: ns => gens_ok _

theorem gens_htmlDecl : ∀ ns : List PNode, Gens (htmlDecl ns)
  | [] => gens_ok _
  | n :: ns => by
    rw [htmlDecl]
    cases n.symbolic? with
    | none => exact gens_err _ _
    | some a => exact gens_then (gens_htmlDecl ns)

theorem gens_rawText (k : Option PNode) (e : Token) : Gens (rawText k e) := by
  unfold rawText
  cases k with
  | none => exact gens_ok _
  | some k =>
    simp only []
    split
    · split
      · cases sliceBytes e.site.code (k.site.off - blen k.lw + (if k.lw.head? = some ' ' then 1 else 0)) e.site.off with
        | none => exact gens_panic
        | some s => exact gens_ok s
      · exact gens_panic
    · exact gens_panic

theorem gens_special (dbg : Str → Str) (tag : Str) (ks : List PNode) (e : Token) : Gens (htmlSpecialContent dbg tag ks e) := by
  unfold htmlSpecialContent
  split
  · exact gens_rawText _ _
  · split
    · exact gens_ok _
    · split
      · split
        · exact gens_ok _
        · exact gens_err _ _
        · exact gens_then (gens_cssGenerate dbg _)
      · split
        · exact gens_ok _
        · exact gens_xmlKids .rest _

mutual
theorem gens_htmlNode (dbg : Str → Str) (g : Str) : ∀ n : PNode, Gens (htmlNode dbg g n)
  | .symbol a | .number a | .string a | .raw a => by rw [htmlNode]; exact gens_ok _
  | .attr .. => by rw [htmlNode]; exact gens_err _ _
  | .list [] s e w => by rw [htmlNode]; exact gens_err _ _
  | .list (.symbol a :: rest) s e w => by
    have ih := gens_htmlKids dbg .lead rest
    rcases head_cases a.value with hv | ⟨r, hv⟩ | ⟨h1, h2⟩
    · rw [htmlNode_noName dbg _ _ _ _ _ _ hv]; exact gens_panic
    · rw [htmlNode_decl dbg _ _ _ _ _ _ r hv]; exact gens_then (gens_htmlDecl rest)
    · obtain ⟨o, c, h3⟩ := htmlNode_elem dbg a rest s e w g h1 h2
      rw [h3]
      refine gens_bind (gens_htmlAttrs rest) fun as => ?_
      split
      · split
        · exact gens_err _ _
        · exact gens_ok _
      · refine gens_then ?_
        split
        · exact gens_special _ _ _ _
        · exact ih
  | .list (.number a :: rest) s e w | .list (.string a :: rest) s e w | .list (.raw a :: rest) s e w
  | .list (.list .. :: rest) s e w | .list (.attr .. :: rest) s e w => by simp only [htmlNode]; exact gens_err _ _
theorem gens_htmlKids (dbg : Str → Str) : ∀ (m : KidMode) (ns : List PNode), Gens (htmlKids dbg m ns)
  | m, [] => by rw [htmlKids]; exact gens_ok _
  | .lead, n :: ns => by
    have i1 := gens_htmlKids dbg .lead ns
    have i2 := gens_htmlNode dbg (firstLw n.lw) n
    have i3 := gens_htmlKids dbg .rest ns
    rw [htmlKids]
    split
    · exact i1
    · exact gens_bind i2 fun _ => gens_then i3
  | .rest, n :: ns => by
    have i2 := gens_htmlNode dbg n.lw n
    have i3 := gens_htmlKids dbg .rest ns
    rw [htmlKids]
    exact gens_bind i2 fun _ => gens_then i3
end

/-- The error of a generator. -/
theorem gens_error {α : Type} {r : Res α} (h : Gens r) (e : Err) : r = .err e ↔ e.stage = .gen ∧ Snags r (.error e.msg e.site) := by
  constructor
  · rintro rfl
    rcases h with ⟨t, h⟩ | ⟨f, h⟩
    · cases h
    · cases f with
      | error m s => simp only [Snags, Res.err.injEq] at h; subst h; exact ⟨rfl, rfl⟩
      | crash => simp [Snags] at h
  · rintro ⟨h1, h2⟩
    simp only [Snags] at h2
    rw [h2, genErr]
    cases e
    simp_all

theorem gens_crash {α : Type} {r : Res α} : r = .panic ↔ Snags r .crash := Iff.rfl

/-- The outcomes exclude each other. -/
theorem gens_one {α : Type} {r : Res α} {f g : Snag} (h : Snags r f) (h' : Snags r g) : f = g := by
  cases f <;> cases g <;> simp_all [Snags, genErr]

theorem xmlDocument_snags (tree : List PNode) (f : Snag) : Snags (xmlDocument tree) f ↔ XmlFaults tree f := by
  unfold xmlDocument
  cases tree with
  | nil => simp only [List.isEmpty_nil, if_true, snags_ok, false_iff]; intro h; cases h
  | cons n ns => rw [if_neg (by simp), snags_then, xmlGenerate_snags]

theorem cssDocument_snags (dbg : Str → Str) (tree : List PNode) (f : Snag) :
    Snags (cssDocument dbg tree) f ↔ SheetFault dbg "Node not expected here." tree f := by
  unfold cssDocument
  cases tree with
  | nil => simp only [List.isEmpty_nil, if_true, snags_ok, false_iff]; intro h; cases h
  | cons n ns => rw [if_neg (by simp), cssGenerate_snags_iff]

theorem htmlDocument_snags (dbg : Str → Str) (tree : List PNode) (f : Snag) :
    Snags (htmlDocument dbg tree) f ↔ HtmlFaults dbg tree f := by
  unfold htmlDocument
  cases tree with
  | nil => simp only [List.isEmpty_nil, if_true, snags_ok, false_iff]; intro h; cases h
  | cons n ns =>
    rw [if_neg (by simp)]
    dsimp only
    rw [snags_then, htmlGenerate_snags]

theorem gens_xmlDocument (tree : List PNode) : Gens (xmlDocument tree) := by
  unfold xmlDocument
  split
  · exact gens_ok _
  · exact gens_then (gens_xmlKids .rest tree)

theorem gens_cssDocument (dbg : Str → Str) (tree : List PNode) : Gens (cssDocument dbg tree) := by
  unfold cssDocument
  split
  · exact gens_ok _
  · exact gens_cssGenerate dbg tree

theorem gens_htmlDocument (dbg : Str → Str) (tree : List PNode) : Gens (htmlDocument dbg tree) := by
  unfold htmlDocument
  split
  · exact gens_ok _
  · dsimp only
    exact gens_then (gens_htmlKids dbg .rest tree)

end Seam
