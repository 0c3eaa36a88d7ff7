import Verif.Spec.Both
import Verif.Lemmas.Layout
import Verif.Lemmas.Void
import Verif.Lemmas.Written
import Verif.Lemmas.Html

/-! HTML and XML of ordinary elements. -/

namespace Seam
open Spec

/-- A relation between texts that is kept when texts are put together. -/
structure Joins (E : Str → Str → Prop) : Prop where
  refl : ∀ x, E x x
  append : ∀ {a b c d}, E a b → E c d → E (a ++ c) (b ++ d)

theorem joins_same : Joins (· = ·) where
  refl _ := rfl
  append h h' := by rw [h, h']

theorem joins_squeezed : Joins fun x y => squeezed x = squeezed y where
  refl _ := rfl
  append h h' := by rw [squeezed_append, squeezed_append, h, h']

section
variable {E : Str → Str → Prop} {P : Str → Prop}

theorem SameMarkup.then {r r' : Res Str} {f f' : Str → Res Str} (h : SameMarkup E r r')
    (hf : ∀ x y, E x y → SameMarkup E (f x) (f' y)) : SameMarkup E (r >>= f) (r' >>= f') := by
  cases h with
  | ok x y h => exact hf x y h
  | err e e' h => exact .err _ _ h
  | panic => exact .panic

theorem attrs_both (hE : Joins E) (hP : ∀ w, P w → E (if w.isEmpty then [' '] else w) [' ']) : ∀ {rest : List PNode},
    (∀ k v s w, .attr k v s w ∈ rest → P w) → SameMarkup E (htmlAttrs rest) (xmlAttrs rest)
  | [], _ => .ok _ _ (hE.refl _)
  | .symbol _ :: _, _ => .ok _ _ (hE.refl _)
  | .number _ :: _, _ => .ok _ _ (hE.refl _)
  | .string _ :: _, _ => .ok _ _ (hE.refl _)
  | .raw _ :: _, _ => .ok _ _ (hE.refl _)
  | .list .. :: _, _ => .ok _ _ (hE.refl _)
  | .attr k n s w :: rest, h => by
    have ih := attrs_both hE hP (rest := rest) fun k v s w h' => h k v s w (List.mem_cons_of_mem _ h')
    simp only [htmlAttrs, xmlAttrs, xmlAttr]
    cases n.atomic? with
    | none => exact .err _ _ rfl
    | some a =>
      show SameMarkup E _ (xmlAttrs rest >>= fun b => .ok (' ' :: (k ++ str! "=\"" ++ a.value ++ ['"']) ++ b))
      refine SameMarkup.then ih fun x y hxy => .ok _ _ ?_
      have := hE.append (hP w (h k n s w (List.mem_cons_self ..))) (hE.append (hE.refl (k ++ str! "=\"" ++ a.value ++ ['"'])) hxy)
      simpa [List.append_assoc] using this

theorem shareds_attrs : ∀ {ns : List PNode}, Shareds P ns → ∀ k v s w, .attr k v s w ∈ ns → P w
  | _, .cons n ns h hs, k, v, s, w, hm => by
    rcases List.mem_cons.1 hm with rfl | hm
    · cases h; assumption
    · exact shareds_attrs hs k v s w hm

theorem special_text {name : Str} (h : htmlSpecial name = true) (hn : name ∉ textNames) : name = str! "svg" ∨ name = str! "math" := by
  simp only [htmlSpecial, Bool.or_eq_true, beq_iff_eq] at h
  simp only [textNames, List.mem_cons, List.not_mem_nil, or_false, not_or] at hn
  rcases h with (((((h | h) | h) | h) | h) | h) | h
  · exact absurd h hn.1
  · exact absurd h hn.2.1
  · exact absurd h hn.2.2.1
  · exact absurd h hn.2.2.2.1
  · exact absurd h hn.2.2.2.2
  · exact .inr h
  · exact .inl h

theorem xmlKids_adjust (ns : List PNode) : xmlKids .lead ns = xmlKids .rest (adjustFirst (kids ns)) := by
  have : ns = ns.takeWhile PNode.isAttr ++ kids ns := (List.takeWhile_append_dropWhile ..).symm
  conv => lhs; rw [this]
  refine xmlLead_adjust _ (fun n hn => List.all_eq_true.1 List.all_takeWhile n hn) fun n hn => ?_
  have := List.head?_dropWhile_not PNode.isAttr ns
  rw [show List.dropWhile PNode.isAttr ns = kids ns from rfl] at this
  cases hk : (kids ns).head? with
  | none => rw [hk] at hn; cases hn
  | some m =>
    rw [hk] at hn this
    cases hn
    simpa using this

theorem SameMarkup.bind_self {r : Res Str} {f : Str → Res Str} (h : SameMarkup E r r)
    (hf : ∀ x, SameMarkup E (f x) (f x)) : SameMarkup E (r >>= f) (r >>= f) := by
  cases h with
  | ok x y h => exact hf x
  | err e e' h => exact .err _ _ h
  | panic => exact .panic

theorem xmlAttrs_self (hE : Joins E) : ∀ ns : List PNode, SameMarkup E (xmlAttrs ns) (xmlAttrs ns)
  | [] => .ok _ _ (hE.refl _)
  | .symbol _ :: _ => .ok _ _ (hE.refl _)
  | .number _ :: _ => .ok _ _ (hE.refl _)
  | .string _ :: _ => .ok _ _ (hE.refl _)
  | .raw _ :: _ => .ok _ _ (hE.refl _)
  | .list .. :: _ => .ok _ _ (hE.refl _)
  | .attr k n s w :: rest => by
    simp only [xmlAttrs, xmlAttr]
    cases n.atomic? with
    | none => exact .err _ _ rfl
    | some a =>
      show SameMarkup E (xmlAttrs rest >>= fun b => .ok (' ' :: (k ++ str! "=\"" ++ a.value ++ ['"']) ++ b)) _
      exact SameMarkup.bind_self (xmlAttrs_self hE rest) fun x => .ok _ _ (hE.refl _)

theorem xmlDecl_self (hE : Joins E) : ∀ ns : List PNode, SameMarkup E (xmlDecl ns) (xmlDecl ns)
  | [] => .ok _ _ (hE.refl _)
  | .symbol _ :: ns => by simp only [xmlDecl]; exact SameMarkup.bind_self (xmlDecl_self hE ns) fun x => .ok _ _ (hE.refl _)
  | .number _ :: ns => by simp only [xmlDecl]; exact SameMarkup.bind_self (xmlDecl_self hE ns) fun x => .ok _ _ (hE.refl _)
  | .string _ :: _ => by simp only [xmlDecl]; exact .err _ _ rfl
  | .raw _ :: _ => by simp only [xmlDecl]; exact .err _ _ rfl
  | .list .. :: _ => by simp only [xmlDecl]; exact .err _ _ rfl
  | .attr k n s w :: rest => by
    simp only [xmlDecl, xmlAttr]
    cases n.atomic? with
    | none => exact .err _ _ rfl
    | some a =>
      show SameMarkup E (xmlDecl rest >>= fun b => .ok (' ' :: (k ++ str! "=\"" ++ a.value ++ ['"']) ++ b)) _
      exact SameMarkup.bind_self (xmlDecl_self hE rest) fun x => .ok _ _ (hE.refl _)

mutual
theorem xmlNode_self (hE : Joins E) (lw : Str) : ∀ n : PNode, SameMarkup E (xmlNode lw n) (xmlNode lw n)
  | .symbol a => by simp only [xmlNode]; exact .ok _ _ (hE.refl _)
  | .number a => by simp only [xmlNode]; exact .ok _ _ (hE.refl _)
  | .string a => by simp only [xmlNode]; exact .ok _ _ (hE.refl _)
  | .raw a => by simp only [xmlNode]; exact .err _ _ rfl
  | .attr .. => by simp only [xmlNode]; exact .err _ _ rfl
  | .list [] .. => by simp only [xmlNode]; exact .err _ _ rfl
  | .list (.symbol h :: rest) s e w => by
    simp only [xmlNode]
    split
    · exact .panic
    · split
      · exact SameMarkup.bind_self (xmlDecl_self hE rest) fun x => .ok _ _ (hE.refl _)
      · exact SameMarkup.bind_self (xmlAttrs_self hE rest) fun x =>
          SameMarkup.bind_self (xmlKids_self hE .lead rest) fun x => .ok _ _ (hE.refl _)
  | .list (.number h :: rest) s e w => by simp only [xmlNode]; exact .err _ _ rfl
  | .list (.string h :: rest) s e w => by simp only [xmlNode]; exact .err _ _ rfl
  | .list (.raw h :: rest) s e w => by simp only [xmlNode]; exact .err _ _ rfl
  | .list (.attr .. :: rest) s e w => by simp only [xmlNode]; exact .err _ _ rfl
  | .list (.list .. :: rest) s e w => by simp only [xmlNode]; exact .err _ _ rfl
theorem xmlKids_self (hE : Joins E) : ∀ (mode : KidMode) (ns : List PNode), SameMarkup E (xmlKids mode ns) (xmlKids mode ns)
  | _, [] => by simp only [xmlKids]; exact .ok _ _ (hE.refl _)
  | .lead, n :: ns => by
    simp only [xmlKids]
    split
    · exact xmlKids_self hE .lead ns
    · exact SameMarkup.bind_self (xmlNode_self hE _ n) fun x =>
        SameMarkup.bind_self (xmlKids_self hE .rest ns) fun x => .ok _ _ (hE.refl _)
  | .rest, n :: ns => by
    simp only [xmlKids]
    exact SameMarkup.bind_self (xmlNode_self hE _ n) fun x =>
      SameMarkup.bind_self (xmlKids_self hE .rest ns) fun x => .ok _ _ (hE.refl _)
end

/-- An element, given that its content is written alike. -/
theorem element_both (hE : Joins E) (hP : ∀ w, P w → E (if w.isEmpty then [' '] else w) [' ']) (dbg : Str → Str) (lw : Str)
    (h : Node) (rest : List PNode) (s : Site) (e : Token) (w : Str) (ho : EveryWay h.value)
    (ha : ∀ k v s w, .attr k v s w ∈ rest → P w)
    (hk : h.value ∈ [str! "svg", str! "math"] ∨ SameMarkup E (htmlKids dbg .lead rest) (xmlKids .lead rest)) :
    SameMarkup E (htmlNode dbg lw (.list (.symbol h :: rest) s e w)) (xmlNode lw (.list (.symbol h :: rest) s e w)) := by
  obtain ⟨h1, h2, h3, h4⟩ := ho
  have hl : lower h.value = h.value := h1
  simp only [htmlNode, xmlNode, hl]
  generalize hv : h.value = name at *
  rcases name with _ | ⟨c, cs⟩
  · exact .panic
  · have hc : (c == '!') = false := by simpa using fun hc => (h2 cs).1 (by rw [hc])
    have hc' : (c == '?') = false := by simpa using fun hc => (h2 cs).2 (by rw [hc])
    simp only [hc, hc', Bool.or_self, Bool.false_eq_true, if_false]
    refine SameMarkup.then (attrs_both hE hP ha) fun x y hxy => ?_
    rw [void_iff, decide_eq_false h3]
    simp only [Bool.false_eq_true, if_false]
    have hx : c :: cs = str! "svg" ∨ c :: cs = str! "math" →
        htmlSpecial (c :: cs) = true ∧ htmlSpecialContent dbg (c :: cs) (kids rest) e = xmlKids .lead rest := fun h => by
      rw [xmlKids_adjust]
      rcases h with h | h <;> rw [h] <;> exact ⟨rfl, rfl⟩
    have ht : ∀ {x' y'}, E x' y' → E (lw ++ '<' :: c :: cs ++ x ++ ['>'] ++ x' ++ closeWs (c :: cs) lw e (firstOnNextLine (kids rest))
          ++ str! "</" ++ c :: cs ++ ['>'])
        (lw ++ '<' :: c :: cs ++ y ++ ['>'] ++ y' ++ closeWs (c :: cs) lw e (firstOnNextLine (kids rest))
          ++ str! "</" ++ c :: cs ++ ['>']) := fun hxy' => by
      have := hE.append (hE.append (hE.append (hE.append (hE.refl (lw ++ '<' :: c :: cs)) hxy) (hE.refl ['>'])) hxy')
        (hE.refl (closeWs (c :: cs) lw e (firstOnNextLine (kids rest)) ++ str! "</" ++ c :: cs ++ ['>']))
      simpa [List.append_assoc] using this
    have hx' : c :: cs = str! "svg" ∨ c :: cs = str! "math" → _ := fun h =>
      SameMarkup.then (xmlKids_self hE .lead rest) fun x' y' hxy' => .ok _ _ (ht hxy')
    by_cases hs : htmlSpecial (c :: cs) = true
    · rw [if_pos hs, (hx (special_text hs h4)).2]
      exact hx' (special_text hs h4)
    · rw [if_neg hs]
      refine SameMarkup.then ?_ fun x' y' hxy' => .ok _ _ (ht hxy')
      rcases hk with hk | hk
      · simp only [List.mem_cons, List.not_mem_nil, or_false] at hk
        exact absurd (hx hk).1 hs
      · exact hk

mutual
theorem node_both (hE : Joins E) (hP : ∀ w, P w → E (if w.isEmpty then [' '] else w) [' ']) (dbg : Str → Str) (lw : Str) :
    ∀ (n : PNode), Shared P n → SameMarkup E (htmlNode dbg lw n) (xmlNode lw n)
  | _, .symbol a => by simp only [htmlNode, xmlNode]; exact .ok _ _ (hE.refl _)
  | _, .number a => by simp only [htmlNode, xmlNode]; exact .ok _ _ (hE.refl _)
  | _, .string a => by simp only [htmlNode, xmlNode]; exact .ok _ _ (hE.refl _)
  | _, .attr .. => by simp only [htmlNode, xmlNode]; exact .err _ _ rfl
  | _, .empty .. => by simp only [htmlNode, xmlNode]; exact .err _ _ rfl
  | _, .other n rest s e w h => by
    cases n with
    | symbol a => exact absurd rfl (h a)
    | _ => simp only [htmlNode, xmlNode]; exact .err _ _ rfl
  | _, .element h rest s e w ho hs => 
    element_both hE hP dbg lw h rest s e w ho (shareds_attrs hs) (.inr (kids_both hE hP dbg .lead rest hs))
  | _, .xml h rest s e w hn ha => by
    refine element_both hE hP dbg lw h rest s e w ?_ ha (.inl hn)
    simp only [List.mem_cons, List.not_mem_nil, or_false] at hn
    rcases hn with hn | hn <;> rw [hn] <;> exact ⟨rfl, fun _ => ⟨nofun, nofun⟩, by decide, by decide⟩
theorem kids_both (hE : Joins E) (hP : ∀ w, P w → E (if w.isEmpty then [' '] else w) [' ']) (dbg : Str → Str) :
    ∀ (mode : KidMode) (ns : List PNode), Shareds P ns → SameMarkup E (htmlKids dbg mode ns) (xmlKids mode ns)
  | _, _, .nil => by simp only [htmlKids, xmlKids]; exact .ok _ _ (hE.refl _)
  | .lead, _, .cons n ns h hs => by
    simp only [htmlKids, xmlKids]
    split
    · exact kids_both hE hP dbg .lead ns hs
    · exact SameMarkup.then (node_both hE hP dbg _ n h) fun x y hxy =>
        SameMarkup.then (kids_both hE hP dbg .rest ns hs) fun x' y' hxy' => .ok _ _ (hE.append hxy hxy')
  | .rest, _, .cons n ns h hs => by
    simp only [htmlKids, xmlKids]
    exact SameMarkup.then (node_both hE hP dbg _ n h) fun x y hxy =>
      SameMarkup.then (kids_both hE hP dbg .rest ns hs) fun x' y' hxy' => .ok _ _ (hE.append hxy hxy')
end
theorem shareds_mem : ∀ {ns : List PNode}, Shareds P ns → ∀ n ∈ ns, Shared P n
  | _, .cons n ns h hs, m, hm => by
    rcases List.mem_cons.1 hm with rfl | hm
    · exact h
    · exact shareds_mem hs m hm

theorem shared_name {h : Node} {rest : List PNode} {s : Site} {e : Token} {w : Str}
    (hs : Shared P (.list (.symbol h :: rest) s e w)) : ∀ r, h.value ≠ '!' :: r ∧ h.value ≠ '?' :: r := by
  cases hs with
  | element _ _ _ _ _ ho _ => exact ho.2.1
  | xml _ _ _ _ _ hn _ =>
    simp only [List.mem_cons, List.not_mem_nil, or_false] at hn
    rcases hn with hn | hn <;> rw [hn] <;> exact fun _ => ⟨nofun, nofun⟩
  | other _ _ _ _ _ hn => exact absurd rfl (hn h)

theorem lower_front {x : Str} {c : Char} {r : Str} (hc : c.toNat < 65 ∨ (90 < c.toNat ∧ c.toNat < 97) ∨ 122 < c.toNat)
    (h : x.map lowerChar = c :: r) : ∃ r', x = c :: r' := by
  cases x with
  | nil => cases h
  | cons d x =>
    injection h with h1 h2
    have h3 := (lowerChar_eq_iff (c := d) (d := c) hc).1 h1
    exact ⟨x, by rw [h3]⟩

theorem xmlRest_each : ∀ {ns : List PNode} {t : Str}, xmlKids .rest ns = .ok t → ∀ n ∈ ns, ∃ t', xmlNode n.lw n = .ok t'
  | n :: ns, t, h, m, hm => by
    rw [xmlKids] at h
    simp only [Res.bind_eq_ok] at h
    obtain ⟨a, ha, b, hb, _⟩ := h
    rcases List.mem_cons.1 hm with rfl | hm
    · exact ⟨a, ha⟩
    · exact xmlRest_each hb m hm

theorem shareds_undeclared {ns : List PNode} (h : Shareds P ns) {t : Str} (ht : xmlGenerate ns = .ok t) :
    ∀ n ∈ ns, ¬ Headed (str! "!doctype") n := by
  intro n hn hd
  obtain ⟨k, a, rest, s, e, w, rfl, hk, hv⟩ := hd
  obtain ⟨t', ht'⟩ := xmlRest_each ht _ hn
  rcases hk with rfl | rfl | rfl | rfl
  · obtain ⟨r, hr⟩ := lower_front (c := '!') (by decide) hv
    exact (shared_name (shareds_mem h _ hn) r).1 hr
  all_goals simp [xmlNode] at ht'

theorem shareds_unversioned {ns : List PNode} (h : Shareds P ns) {a : Node} {rest : List PNode} {s : Site} {e : Token} {w : Str}
    (hn : .list (.symbol a :: rest) s e w ∈ ns) : a.value.map lowerChar ≠ str! "?xml" := by
  intro hv
  obtain ⟨r, hr⟩ := lower_front (c := '?') (by decide) hv
  exact (shared_name (shareds_mem h _ hn) r).2 hr
end
end Seam
