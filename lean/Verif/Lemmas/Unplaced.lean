import Verif.Spec.Unplaced
import Verif.Lemmas.Css
import Verif.Model.Assemble

/-! The generators do not look at positions. -/

namespace Seam
open Spec

/-- The same value, if any. -/
def Agree {α : Type} (r r' : Res α) : Prop := ∀ a, r = .ok a ↔ r' = .ok a

theorem Agree.refl {α : Type} (r : Res α) : Agree r r := fun _ => Iff.rfl
theorem Agree.err {α : Type} (e e' : Err) : Agree (.err e : Res α) (.err e') := fun _ => by simp
theorem Agree.bind {α β : Type} {r r' : Res α} {f f' : α → Res β} (h : Agree r r') (hf : ∀ a, Agree (f a) (f' a)) :
    Agree (r >>= f) (r' >>= f') := by
  intro b
  simp only [Res.bind_eq_ok]
  constructor
  · rintro ⟨a, h1, h2⟩; exact ⟨a, (h a).1 h1, (hf a b).1 h2⟩
  · rintro ⟨a, h1, h2⟩; exact ⟨a, (h a).2 h1, (hf a b).2 h2⟩

theorem inLists_later {n m : PNode} {ns : List PNode} (h : InLists n ns) : InLists n (m :: ns) := by
  cases h with
  | here _ h => exact .here _ (List.mem_cons_of_mem _ h)
  | deeper _ ks s e w hm h => exact .deeper _ ks s e w (List.mem_cons_of_mem _ hm) h

theorem inLists_head {n m : PNode} {ns : List PNode} (h : InLists n [m]) : InLists n (m :: ns) := by
  cases h with
  | here _ h => simp at h; subst h; exact .here _ (by simp)
  | deeper _ ks s e w hm h => simp at hm; subst hm; exact .deeper _ ks s e w (by simp) h

theorem unplaced_lw (n : PNode) : (unplaced n).lw = n.lw := by cases n <;> simp [unplaced, PNode.lw]
theorem unplaced_isAttr (n : PNode) : (unplaced n).isAttr = n.isAttr := by
  cases n <;> simp [unplaced, PNode.isAttr, PNode.attribute?]
theorem unplaced_isAtomic (n : PNode) : (unplaced n).isAtomic = n.isAtomic := by
  cases n <;> simp [unplaced, PNode.isAtomic, PNode.atomic?]
theorem unplaced_atomic (n : PNode) : (unplaced n).atomic? = n.atomic?.map fun a => { a with site := default } := by
  cases n <;> simp [unplaced, PNode.atomic?]
theorem unplaced_symbolic (n : PNode) : (unplaced n).symbolic? = n.symbolic?.map fun a => { a with site := default } := by
  cases n <;> simp [unplaced, PNode.symbolic?]
theorem unplaced_setLw (w : Str) (n : PNode) : unplaced (n.setLw w) = (unplaced n).setLw w := by
  cases n <;> simp [unplaced, PNode.setLw]

theorem unplaceds_length : ∀ ns : List PNode, (unplaceds ns).length = ns.length
  | [] => rfl
  | n :: ns => by simp [unplaceds, unplaceds_length ns]
theorem unplaceds_takeWhile : ∀ ns : List PNode, (unplaceds ns).takeWhile PNode.isAtomic = unplaceds (ns.takeWhile PNode.isAtomic)
  | [] => rfl
  | n :: ns => by
    rw [unplaceds, List.takeWhile_cons, List.takeWhile_cons, unplaced_isAtomic]
    cases n.isAtomic
    · rfl
    · simp [unplaceds, unplaceds_takeWhile ns]
theorem unplaceds_drop : ∀ (k : Nat) (ns : List PNode), (unplaceds ns).drop k = unplaceds (ns.drop k)
  | 0, ns => by simp
  | k + 1, [] => by simp [unplaceds]
  | k + 1, n :: ns => by simp [unplaceds, unplaceds_drop k ns]
theorem unplaceds_kids : ∀ ns : List PNode, kids (unplaceds ns) = unplaceds (kids ns)
  | [] => rfl
  | n :: ns => by
    unfold kids
    rw [unplaceds, List.dropWhile_cons, List.dropWhile_cons, unplaced_isAttr]
    cases n.isAttr
    · simp [unplaceds]
    · have h := unplaceds_kids ns
      unfold kids at h
      simpa using h
theorem unplaceds_adjust (ns : List PNode) : adjustFirst (unplaceds ns) = unplaceds (adjustFirst ns) := by
  cases ns with
  | nil => rfl
  | cons n ns => simp [unplaceds, adjustFirst, unplaced_setLw, unplaced_lw]
theorem unplaceds_nextLine (ns : List PNode) : firstOnNextLine (unplaceds ns) = firstOnNextLine ns := by
  cases ns with
  | nil => rfl
  | cons n ns => simp [unplaceds, firstOnNextLine, unplaced_lw]

/-! ## Plain text, S-expressions -/

mutual
theorem unplaced_text : ∀ n : PNode, textNode (unplaced n) = textNode n
  | .symbol n | .number n | .string n | .raw n => by simp [unplaced, textNode]
  | .list ns s e w => by simp [unplaced, textNode, unplaceds_text ns]
  | .attr k n s w => by simp [unplaced, textNode, unplaced_text n]
theorem unplaceds_text : ∀ ns : List PNode, textNodes (unplaceds ns) = textNodes ns
  | [] => rfl
  | n :: ns => by rw [unplaceds, textNodes, textNodes, unplaced_text n, unplaceds_text ns]
end

mutual
theorem unplaced_sexp (dbg : Str → Str) : ∀ n : PNode, sexpNode dbg (unplaced n) = sexpNode dbg n
  | .symbol n | .number n | .string n | .raw n => by simp [unplaced, sexpNode]
  | .list ns s e w => by simp [unplaced, sexpNode, unplaceds_sexp dbg ns]
  | .attr k n s w => by simp [unplaced, sexpNode, unplaced_sexp dbg n]
theorem unplaceds_sexp (dbg : Str → Str) : ∀ ns : List PNode, sexpNodes dbg (unplaceds ns) = sexpNodes dbg ns
  | [] => rfl
  | n :: ns => by rw [unplaceds, sexpNodes, sexpNodes, unplaced_sexp dbg n, unplaceds_sexp dbg ns]
end

/-! ## CSS -/

mutual
theorem unplaced_value (dbg : Str → Str) : ∀ n : PNode, Agree (cssValue dbg (unplaced n)) (cssValue dbg n)
  | .symbol n | .number n | .string n | .raw n => by simp only [unplaced, cssValue]; exact .refl _
  | .list [] s e w => by simp only [unplaced, unplaceds, cssValue]; exact .refl _
  | .list (h :: t) s e w => by
    simp only [unplaced, unplaceds, cssValue]
    exact .bind (unplaced_value dbg h) fun _ => .bind (unplaced_values dbg t) fun _ => .refl _
  | .attr k n s w => by simp only [unplaced, cssValue]; exact .err _ _
theorem unplaced_values (dbg : Str → Str) : ∀ ns : List PNode, Agree (cssValues dbg (unplaceds ns)) (cssValues dbg ns)
  | [] => .refl _
  | n :: ns => by
    simp only [unplaceds, cssValues]
    exact .bind (unplaced_value dbg n) fun _ => .bind (unplaced_values dbg ns) fun _ => .refl _
end

theorem unplaced_oneline (dbg : Str → Str) : ∀ ns : List PNode, Agree (cssOneline dbg (unplaceds ns)) (cssOneline dbg ns)
  | [] => .refl _
  | n :: ns => by
    have hv := unplaced_value dbg n
    cases n with
    | attr k v s w =>
      simp only [unplaceds, unplaced, cssOneline]
      exact .bind (unplaced_value dbg v) fun _ => .bind (unplaced_oneline dbg ns) fun _ => .refl _
    | _ =>
      simp only [unplaceds, unplaced, cssOneline] at hv ⊢
      exact .bind hv fun _ => .bind (unplaced_oneline dbg ns) fun _ => .refl _

theorem unplaced_props (dbg : Str → Str) : ∀ ns : List PNode, Agree (cssProps dbg (unplaceds ns)) (cssProps dbg ns)
  | [] => .refl _
  | n :: ns => by
    cases n with
    | attr k v s w =>
      simp only [unplaceds, unplaced, cssProps]
      exact .bind (unplaced_value dbg v) fun _ => .bind (unplaced_props dbg ns) fun _ => .refl _
    | _ => simp only [unplaceds, unplaced, cssProps]; exact .err _ _

theorem unplaced_selectorText : ∀ ns : List PNode, cssSelectorText (unplaceds ns) = cssSelectorText ns
  | [] => rfl
  | n :: ns => by
    rw [unplaceds, cssSelectorText, cssSelectorText, unplaced_selectorText ns, unplaced_atomic]
    cases n.atomic? <;> rfl

theorem unplaced_selectors (ns : List PNode) : cssSelectors (unplaceds ns) = unplaceds (cssSelectors ns) :=
  unplaceds_takeWhile ns

theorem unplaced_properties (ns : List PNode) : cssProperties (unplaceds ns) = unplaceds (cssProperties ns) := by
  unfold cssProperties
  dsimp only
  rw [unplaced_selectors, unplaceds_length, unplaceds_length, unplaceds_drop]

mutual
theorem unplaced_rule (dbg : Str → Str) : ∀ ns : List PNode, Agree (cssRule dbg (unplaceds ns)) (cssRule dbg ns)
  | [] => by simp only [unplaceds]; exact .refl _
  | h :: rest => by
    rw [show unplaceds (h :: rest) = unplaced h :: unplaceds rest from rfl, cssRule, cssRule, unplaced_atomic]
    cases h.atomic? with
    | none => exact .refl _
    | some a =>
      simp only [Option.map_some]
      split
      · split
        · exact .bind (unplaced_oneline dbg rest) fun _ => .refl _
        · exact .bind (unplaced_nested dbg false rest) fun _ => .refl _
      · have h1 := unplaced_properties (h :: rest)
        have h2 := unplaced_selectors (h :: rest)
        rw [show unplaceds (h :: rest) = unplaced h :: unplaceds rest from rfl] at h1 h2
        rw [h1, h2, unplaced_selectorText]
        exact .bind (unplaced_props dbg _) fun _ => .refl _
theorem unplaced_nested (dbg : Str → Str) : ∀ (rules : Bool) (ns : List PNode),
    Agree (cssNested dbg rules (unplaceds ns)) (cssNested dbg rules ns)
  | _, [] => by simp only [unplaceds]; exact .refl _
  | rules, .list rule s e w :: rest => by
    simp only [unplaceds, unplaced, cssNested]
    exact .bind (unplaced_rule dbg rule) fun _ => .bind (unplaced_nested dbg true rest) fun _ => .refl _
  | rules, .attr k v s w :: rest => by
    simp only [unplaceds, unplaced, cssNested]
    split
    · exact .err _ _
    · exact .bind (unplaced_value dbg v) fun _ => .bind (unplaced_nested dbg rules rest) fun _ => .refl _
  | rules, .symbol n :: rest => by
    have hv := unplaced_value dbg (.symbol n)
    simp only [unplaceds, unplaced, cssNested] at hv ⊢
    split
    · exact .err _ _
    · exact .bind hv fun _ => .bind (unplaced_nested dbg rules rest) fun _ => .refl _
  | rules, .number n :: rest => by
    have hv := unplaced_value dbg (.number n)
    simp only [unplaceds, unplaced, cssNested] at hv ⊢
    split
    · exact .err _ _
    · exact .bind hv fun _ => .bind (unplaced_nested dbg rules rest) fun _ => .refl _
  | rules, .string n :: rest => by
    have hv := unplaced_value dbg (.string n)
    simp only [unplaceds, unplaced, cssNested] at hv ⊢
    split
    · exact .err _ _
    · exact .bind hv fun _ => .bind (unplaced_nested dbg rules rest) fun _ => .refl _
  | rules, .raw n :: rest => by
    have hv := unplaced_value dbg (.raw n)
    simp only [unplaceds, unplaced, cssNested] at hv ⊢
    split
    · exact .err _ _
    · exact .bind hv fun _ => .bind (unplaced_nested dbg rules rest) fun _ => .refl _
end

theorem unplaced_css (dbg : Str → Str) : ∀ ns : List PNode, Agree (cssGenerate dbg (unplaceds ns)) (cssGenerate dbg ns)
  | [] => .refl _
  | n :: ns => by
    cases n with
    | list rule s e w =>
      simp only [unplaceds, unplaced, cssGenerate]
      exact .bind (unplaced_rule dbg rule) fun _ => .bind (unplaced_css dbg ns) fun _ => .refl _
    | _ => simp only [unplaceds, unplaced, cssGenerate]; exact .err _ _

/-! ## XML -/

theorem unplaced_xmlAttr (k : Str) (v : PNode) (s s' : Site) (w : Str) :
    Agree (xmlAttr (.attr k (unplaced v) s' w)) (xmlAttr (.attr k v s w)) := by
  simp only [xmlAttr, unplaced_atomic]
  cases v.atomic? with
  | none => exact .err _ _
  | some a => exact .refl _

theorem unplaced_xmlAttrs : ∀ ns : List PNode, Agree (xmlAttrs (unplaceds ns)) (xmlAttrs ns)
  | [] => .refl _
  | n :: ns => by
    cases n with
    | attr k v s w =>
      simp only [unplaceds, unplaced, xmlAttrs]
      exact .bind (unplaced_xmlAttr k v s _ w) fun _ => .bind (unplaced_xmlAttrs ns) fun _ => .refl _
    | _ => simp only [unplaceds, unplaced, xmlAttrs]; exact .refl _

theorem unplaced_xmlDecl : ∀ ns : List PNode, Agree (xmlDecl (unplaceds ns)) (xmlDecl ns)
  | [] => .refl _
  | n :: ns => by
    cases n with
    | attr k v s w =>
      simp only [unplaceds, unplaced, xmlDecl]
      exact .bind (unplaced_xmlAttr k v s _ w) fun _ => .bind (unplaced_xmlDecl ns) fun _ => .refl _
    | symbol a | number a =>
      simp only [unplaceds, unplaced, xmlDecl]
      exact .bind (unplaced_xmlDecl ns) fun _ => .refl _
    | _ => simp only [unplaceds, unplaced, xmlDecl]; exact .err _ _

mutual
theorem unplaced_xmlNode : ∀ (g : Str) (n : PNode), Agree (xmlNode g (unplaced n)) (xmlNode g n)
  | _, .symbol n | _, .number n | _, .string n => by simp only [unplaced, xmlNode]; exact .refl _
  | _, .raw n => by simp only [unplaced, xmlNode]; exact .err _ _
  | _, .attr k n s w => by simp only [unplaced, xmlNode]; exact .err _ _
  | _, .list [] s e w => by simp only [unplaced, unplaceds, xmlNode]; exact .err _ _
  | g, .list (.symbol h :: rest) s e w => by
    simp only [unplaced, unplaceds, xmlNode]
    cases h.value with
    | nil => exact .refl _
    | cons c r =>
      simp only []
      split
      · exact .bind (unplaced_xmlDecl rest) fun _ => .refl _
      · refine .bind (unplaced_xmlAttrs rest) fun _ => .bind (unplaced_xmlKids .lead rest) fun _ => ?_
        rw [unplaceds_kids, unplaceds_nextLine]
        exact .refl _
  | _, .list (.number a :: rest) s e w => by simp only [unplaced, unplaceds, xmlNode]; exact .err _ _
  | _, .list (.string a :: rest) s e w => by simp only [unplaced, unplaceds, xmlNode]; exact .err _ _
  | _, .list (.raw a :: rest) s e w => by simp only [unplaced, unplaceds, xmlNode]; exact .err _ _
  | _, .list (.list _ _ _ _ :: rest) s e w => by simp only [unplaced, unplaceds, xmlNode]; exact .err _ _
  | _, .list (.attr _ _ _ _ :: rest) s e w => by simp only [unplaced, unplaceds, xmlNode]; exact .err _ _
theorem unplaced_xmlKids : ∀ (m : KidMode) (ns : List PNode), Agree (xmlKids m (unplaceds ns)) (xmlKids m ns)
  | _, [] => by simp only [unplaceds]; exact .refl _
  | .lead, n :: ns => by
    rw [unplaceds, xmlKids, xmlKids, unplaced_isAttr, unplaced_lw]
    split
    · exact unplaced_xmlKids .lead ns
    · exact .bind (unplaced_xmlNode _ n) fun _ => .bind (unplaced_xmlKids .rest ns) fun _ => .refl _
  | .rest, n :: ns => by
    rw [unplaceds, xmlKids, xmlKids, unplaced_lw]
    exact .bind (unplaced_xmlNode _ n) fun _ => .bind (unplaced_xmlKids .rest ns) fun _ => .refl _
end

/-! ## HTML -/

theorem unplaced_htmlDecl : ∀ ns : List PNode, Agree (htmlDecl (unplaceds ns)) (htmlDecl ns)
  | [] => .refl _
  | n :: ns => by
    rw [unplaceds, htmlDecl, htmlDecl, unplaced_symbolic]
    cases n.symbolic? with
    | none => exact .err _ _
    | some a => exact .bind (unplaced_htmlDecl ns) fun _ => .refl _

theorem unplaced_htmlAttrs : ∀ ns : List PNode, Agree (htmlAttrs (unplaceds ns)) (htmlAttrs ns)
  | [] => .refl _
  | n :: ns => by
    cases n with
    | attr k v s w =>
      simp only [unplaceds, unplaced, htmlAttrs, unplaced_atomic]
      cases v.atomic? with
      | none => exact .err _ _
      | some a => exact .bind (unplaced_htmlAttrs ns) fun _ => .refl _
    | _ => simp only [unplaceds, unplaced, htmlAttrs]; exact .refl _

theorem unplaced_special (dbg : Str → Str) (tag : Str) (hp : tag ≠ str! "pre") (ns : List PNode) (e e' : Token) :
    Agree (htmlSpecialContent dbg tag (unplaceds ns) e') (htmlSpecialContent dbg tag ns e) := by
  unfold htmlSpecialContent
  have hp' : (tag == str! "pre") = false := by simpa using hp
  simp only [hp', Bool.false_eq_true, if_false, unplaceds_adjust]
  split
  · rw [unplaceds_text]; exact .refl _
  split
  · generalize adjustFirst ns = ms
    have hcss := unplaced_css dbg ms
    match ms with
    | [] => exact .bind hcss fun _ => .refl _
    | [.string s] => exact .refl _
    | .string s :: m :: ms => simp only [unplaceds, unplaced]; exact .err _ _
    | .symbol s :: ms => exact .bind hcss fun _ => .refl _
    | .number s :: ms => exact .bind hcss fun _ => .refl _
    | .raw s :: ms => exact .bind hcss fun _ => .refl _
    | .list .. :: ms => exact .bind hcss fun _ => .refl _
    | .attr .. :: ms => exact .bind hcss fun _ => .refl _
  split
  · rw [unplaceds_sexp]; exact .refl _
  · exact unplaced_xmlKids .rest _

mutual
theorem unplaced_htmlNode (dbg : Str → Str) : ∀ (g : Str) (n : PNode),
    (∀ h rest s e w, InLists (.list (.symbol h :: rest) s e w) [n] → h.value.map lowerChar ≠ str! "pre") →
    Agree (htmlNode dbg g (unplaced n)) (htmlNode dbg g n)
  | _, .symbol n, _ | _, .number n, _ | _, .string n, _ | _, .raw n, _ => by simp only [unplaced, htmlNode]; exact .refl _
  | _, .attr k n s w, _ => by simp only [unplaced, htmlNode]; exact .err _ _
  | _, .list [] s e w, _ => by simp only [unplaced, unplaceds, htmlNode]; exact .err _ _
  | g, .list (.symbol h :: rest) s e w, hpre => by
    have hh := hpre h rest s e w (.here _ (by simp))
    have hk := unplaced_htmlKids dbg .lead rest fun h' rest' s' e' w' hi =>
      hpre h' rest' s' e' w' (.deeper _ (.symbol h :: rest) s e w (by simp) (inLists_later hi))
    simp only [unplaced, unplaceds, htmlNode]
    have hlow : lower h.value = h.value.map lowerChar := rfl
    cases hl : lower h.value with
    | nil => exact .refl _
    | cons c r =>
      simp only []
      split
      · exact .bind (unplaced_htmlDecl rest) fun _ => .refl _
      · refine .bind (unplaced_htmlAttrs rest) fun as => ?_
        rw [unplaceds_kids, unplaceds_nextLine]
        split
        · cases kids rest with
          | nil => exact .refl _
          | cons k ks => simp only [unplaceds]; exact .err _ _
        · split
          · exact .bind (unplaced_special dbg _ (by rw [← hl, hlow]; exact hh) _ _ _) fun _ => .refl _
          · exact .bind hk fun _ => .refl _
  | _, .list (.number a :: rest) s e w, _ => by simp only [unplaced, unplaceds, htmlNode]; exact .err _ _
  | _, .list (.string a :: rest) s e w, _ => by simp only [unplaced, unplaceds, htmlNode]; exact .err _ _
  | _, .list (.raw a :: rest) s e w, _ => by simp only [unplaced, unplaceds, htmlNode]; exact .err _ _
  | _, .list (.list _ _ _ _ :: rest) s e w, _ => by simp only [unplaced, unplaceds, htmlNode]; exact .err _ _
  | _, .list (.attr _ _ _ _ :: rest) s e w, _ => by simp only [unplaced, unplaceds, htmlNode]; exact .err _ _
theorem unplaced_htmlKids (dbg : Str → Str) : ∀ (m : KidMode) (ns : List PNode),
    (∀ h rest s e w, InLists (.list (.symbol h :: rest) s e w) ns → h.value.map lowerChar ≠ str! "pre") →
    Agree (htmlKids dbg m (unplaceds ns)) (htmlKids dbg m ns)
  | _, [], _ => by simp only [unplaceds]; exact .refl _
  | .lead, n :: ns, hpre => by
    rw [unplaceds, htmlKids, htmlKids, unplaced_isAttr, unplaced_lw]
    split
    · exact unplaced_htmlKids dbg .lead ns fun h rest s e w hi => hpre h rest s e w (inLists_later hi)
    · exact .bind (unplaced_htmlNode dbg _ n fun h rest s e w hi => hpre h rest s e w (inLists_head hi)) fun _ =>
        .bind (unplaced_htmlKids dbg .rest ns fun h rest s e w hi => hpre h rest s e w (inLists_later hi)) fun _ => .refl _
  | .rest, n :: ns, hpre => by
    rw [unplaceds, htmlKids, htmlKids, unplaced_lw]
    exact .bind (unplaced_htmlNode dbg _ n fun h rest s e w hi => hpre h rest s e w (inLists_head hi)) fun _ =>
        .bind (unplaced_htmlKids dbg .rest ns fun h rest s e w hi => hpre h rest s e w (inLists_later hi)) fun _ => .refl _
end

/-! ## Documents -/

theorem unplaced_headMatches (kind : SearchType) (value : Str) (ins : Bool) (ns : List PNode) :
    headMatches kind value ins (unplaceds ns) = headMatches kind value ins ns := by
  cases ns with
  | nil => rfl
  | cons n ns =>
    unfold headMatches
    simp only [unplaceds, List.head?_cons, Option.bind_some, unplaced_atomic]
    cases n.atomic? <;> rfl

mutual
theorem unplaced_search (kind : SearchType) (value : Str) (ins : Bool) : ∀ (n : PNode) (level : Nat),
    searchNode kind value ins (unplaced n) level = (searchNode kind value ins n level).map unplaced
  | n, 0 => by cases n <;> simp [unplaced, searchNode]
  | .symbol n, _ + 1 | .number n, _ + 1 | .string n, _ + 1 | .raw n, _ + 1 => by
    simp only [unplaced, searchNode]; split <;> simp [unplaced]
  | .list ns s e w, l + 1 => by
    simp only [unplaced, searchNode, unplaced_headMatches, unplaceds_search kind value ins ns l]
    split <;> simp [unplaced]
  | .attr k n s w, l + 1 => by
    simp only [unplaced, searchNode, unplaced_search kind value ins n l]
    split <;> simp
theorem unplaceds_search (kind : SearchType) (value : Str) (ins : Bool) : ∀ (ns : List PNode) (level : Nat),
    searchNodes kind value ins (unplaceds ns) level = (searchNodes kind value ins ns level).map unplaced
  | ns, 0 => by cases ns <;> simp [unplaceds, searchNodes]
  | [], _ + 1 => by simp [unplaceds, searchNodes]
  | n :: ns, l + 1 => by
    rw [unplaceds, searchNodes, searchNodes, unplaced_search kind value ins n (l + 1), unplaceds_search kind value ins ns (l + 1)]
    cases searchNode kind value ins n (l + 1) <;> simp
end

theorem unplaceds_isEmpty (ns : List PNode) : (unplaceds ns).isEmpty = ns.isEmpty := by cases ns <;> rfl

theorem unplaced_cssDocument (dbg : Str → Str) (ns : List PNode) : Agree (cssDocument dbg (unplaceds ns)) (cssDocument dbg ns) := by
  unfold cssDocument
  rw [unplaceds_isEmpty]
  split
  · exact .refl _
  · exact unplaced_css dbg ns

theorem unplaced_xmlDocument (ns : List PNode) : Agree (xmlDocument (unplaceds ns)) (xmlDocument ns) := by
  unfold xmlDocument
  rw [unplaceds_isEmpty]
  have h : xmlHasDecl (unplaceds ns) = xmlHasDecl ns := by
    match ns with
    | [] => rfl
    | .symbol _ :: _ | .number _ :: _ | .string _ :: _ | .raw _ :: _ | .attr .. :: _ => simp [unplaceds, unplaced, xmlHasDecl]
    | .list [] .. :: _ => simp [unplaceds, unplaced, xmlHasDecl]
    | .list (k :: ks) .. :: _ => cases k <;> simp [unplaceds, unplaced, xmlHasDecl]
  rw [h]
  split
  · exact .refl _
  · exact .bind (unplaced_xmlKids .rest ns) fun _ => .refl _

theorem unplaced_htmlDocument (dbg : Str → Str) (ns : List PNode)
    (hp : ∀ h rest s e w, InLists (.list (.symbol h :: rest) s e w) ns → h.value.map lowerChar ≠ str! "pre") :
    Agree (htmlDocument dbg (unplaceds ns)) (htmlDocument dbg ns) := by
  unfold htmlDocument
  rw [unplaceds_isEmpty]
  simp only [unplaceds_search, Option.isNone_map]
  split
  · exact .refl _
  · exact .bind (unplaced_htmlKids dbg .rest ns hp) fun _ => .refl _

theorem unplaceds_map : ∀ ns : List PNode, unplaceds ns = ns.map unplaced
  | [] => rfl
  | n :: ns => by rw [unplaceds, unplaceds_map ns, List.map_cons]

theorem inLists_unplaced {n : PNode} {ns : List PNode} (h : InLists n ns) : InLists (unplaced n) (unplaceds ns) := by
  induction h with
  | here ns h => exact .here _ (by rw [unplaceds_map]; exact List.mem_map_of_mem h)
  | deeper ns kids s e w h _ ih =>
    refine .deeper _ (unplaceds kids) default { (default : Token) with lw := e.lw } w ?_ ih
    rw [unplaceds_map]
    exact List.mem_map.2 ⟨_, h, by rw [unplaced]⟩

theorem unplaced_inLists {m : PNode} {ms : List PNode} (h : InLists m ms) : ∀ {ns : List PNode}, ms = unplaceds ns →
    ∃ n, InLists n ns ∧ unplaced n = m := by
  induction h with
  | here ms h =>
    rintro ns rfl
    rw [unplaceds_map] at h
    obtain ⟨n, h1, h2⟩ := List.mem_map.1 h
    exact ⟨n, .here _ h1, h2⟩
  | deeper ms kids s e w h _ ih =>
    rintro ns rfl
    rw [unplaceds_map] at h
    obtain ⟨n, h1, h2⟩ := List.mem_map.1 h
    cases n with
    | list ks s' e' w' =>
      rw [unplaced, PNode.list.injEq] at h2
      obtain ⟨k, h3, h4⟩ := ih h2.1.symm
      exact ⟨k, .deeper _ _ _ _ _ h1 h3, h4⟩
    | _ => simp [unplaced] at h2

/-- Elements have the same names in trees that are equal without positions. -/
theorem unplaceds_heads {a b : List PNode} (h : unplaceds a = unplaceds b) {P : Str → Prop}
    (hp : ∀ h rest s e w, InLists (.list (.symbol h :: rest) s e w) a → P h.value) :
    ∀ h rest s e w, InLists (.list (.symbol h :: rest) s e w) b → P h.value := by
  intro x rest s e w hi
  have h1 := inLists_unplaced hi
  rw [← h] at h1
  obtain ⟨n, h2, h3⟩ := unplaced_inLists h1 rfl
  rw [unplaced, unplaceds, unplaced] at h3
  match n, h3 with
  | .list (.symbol y :: r) s' e' w', h3 =>
    rw [unplaced, unplaceds, unplaced] at h3
    simp only [PNode.list.injEq, List.cons.injEq, PNode.symbol.injEq, Node.mk.injEq] at h3
    rw [← h3.1.1.1]
    exact hp _ _ _ _ _ h2
  | .list [] s' e' w', h3 => simp [unplaced, unplaceds] at h3
  | .list (.number y :: r) s' e' w', h3 => simp [unplaced, unplaceds] at h3
  | .list (.string y :: r) s' e' w', h3 => simp [unplaced, unplaceds] at h3
  | .list (.raw y :: r) s' e' w', h3 => simp [unplaced, unplaceds] at h3
  | .list (.list .. :: r) s' e' w', h3 => simp [unplaced, unplaceds] at h3
  | .list (.attr .. :: r) s' e' w', h3 => simp [unplaced, unplaceds] at h3

end Seam
