import Verif.Lemmas.Runs
import Verif.Lemmas.Space
import Verif.Lemmas.EvalCheck
import Verif.Spec.Rename

/-!
Two runs of the expander, the second one on a program in which two names are exchanged.
-/

namespace Seam

open Spec

section names
variable {f g : Str}

theorem swapName_plain {x : Str} (h1 : x.head? ≠ some '%') (h2 : x.head? ≠ some '&') :
    swapName f g x = if x = f then g else if x = g then f else x := by
  cases x with
  | nil => rw [swapName] <;> simp
  | cons c x =>
    rw [swapName]
    · intro y e; cases e; exact h1 rfl
    · intro y e; cases e; exact h2 rfl

theorem swapName_head (hf : OwnName f) (hg : OwnName g) {x : Str} (h1 : x.head? ≠ some '%') (h2 : x.head? ≠ some '&') :
    (swapName f g x).head? ≠ some '%' ∧ (swapName f g x).head? ≠ some '&' := by
  rw [swapName_plain h1 h2]
  split
  · exact hg.mark
  · split
    · exact hf.mark
    · exact ⟨h1, h2⟩

theorem swapName_swap (hf : OwnName f) (hg : OwnName g) : ∀ x : Str, swapName f g (swapName f g x) = x
  | [] => by
    have h := swapName_head hf hg (x := []) (by simp) (by simp)
    rw [swapName_plain h.1 h.2, swapName_plain (by simp) (by simp)]
    by_cases h1 : ([] : Str) = f
    · subst h1; by_cases h2 : g = []
      · simp [h2]
      · simp [h2]
    · by_cases h2 : ([] : Str) = g
      · subst h2; simp [h1]
      · simp [h1, h2]
  | c :: x => by
    by_cases hc1 : c = '%'
    · subst hc1
      rw [swapName, swapName, swapName_swap hf hg x]
    · by_cases hc2 : c = '&'
      · subst hc2
        rw [swapName, swapName, swapName_swap hf hg x]
      · have a1 : (c :: x).head? ≠ some '%' := by simpa using hc1
        have a2 : (c :: x).head? ≠ some '&' := by simpa using hc2
        have h := swapName_head hf hg a1 a2
        rw [swapName_plain h.1 h.2, swapName_plain a1 a2]
        generalize c :: x = y
        by_cases h1 : y = f
        · subst h1; by_cases h2 : g = y
          · simp [h2]
          · simp [h2]
        · by_cases h2 : y = g
          · subst h2; simp [h1]
          · simp [h1, h2]

theorem swapName_inj (hf : OwnName f) (hg : OwnName g) {x y : Str} (h : swapName f g x = swapName f g y) : x = y := by
  rw [← swapName_swap hf hg x, h, swapName_swap hf hg y]

theorem swapName_iff (hf : OwnName f) (hg : OwnName g) {x y : Str} : swapName f g x = swapName f g y ↔ x = y :=
  ⟨swapName_inj hf hg, fun h => h ▸ rfl⟩

theorem swapName_fixed {x : Str} (h1 : x.head? ≠ some '%') (h2 : x.head? ≠ some '&') (h3 : x ≠ f) (h4 : x ≠ g) :
    swapName f g x = x := by
  rw [swapName_plain h1 h2, if_neg h3, if_neg h4]

theorem swapName_macro (hf : OwnName f) (hg : OwnName g) (x : Str) :
    macroName? (swapName f g x) = (macroName? x).map (swapName f g) := by
  cases x with
  | nil =>
    have h := swapName_head hf hg (x := []) (by simp) (by simp)
    revert h
    generalize swapName f g [] = y
    intro h
    cases y with
    | nil => rfl
    | cons d y =>
      rw [macroName?]
      · rfl
      · intro n e; cases e; exact h.1 rfl
  | cons c x =>
    by_cases hc1 : c = '%'
    · subst hc1; rfl
    · have e1 : macroName? (c :: x) = none := by
        rw [macroName?]; intro n e; cases e; exact hc1 rfl
      rw [e1]
      by_cases hc2 : c = '&'
      · subst hc2; rfl
      · have a1 : (c :: x).head? ≠ some '%' := by simpa using hc1
        have a2 : (c :: x).head? ≠ some '&' := by simpa using hc2
        have h := swapName_head hf hg a1 a2
        revert h
        generalize swapName f g (c :: x) = y
        intro h
        cases y with
        | nil => rfl
        | cons d y =>
          rw [macroName?]
          · rfl
          · intro n e; cases e; exact h.1 rfl

theorem startsWith_amp (x : Str) : startsWith ['&'] x = (x.head? == some '&') := by
  cases x with
  | nil => rfl
  | cons c x =>
    show (('&' == c) && List.isPrefixOf [] x) = _
    by_cases h : c = '&'
    · subst h; rfl
    · have h' : ('&' == c) = false := by simpa [beq_eq_false_iff_ne] using fun e => h e.symm
      have h'' : ((c :: x).head? == some '&') = false := by simpa using h
      rw [h', h'']; rfl

theorem swapName_amp (hf : OwnName f) (hg : OwnName g) (x : Str) :
    startsWith ['&'] (swapName f g x) = startsWith ['&'] x := by
  rw [startsWith_amp, startsWith_amp]
  by_cases h2 : x.head? = some '&'
  · cases x with
    | nil => cases h2
    | cons c x => cases h2; rfl
  · by_cases h1 : x.head? = some '%'
    · cases x with
      | nil => cases h1
      | cons c x => cases h1; rfl
    · have h := swapName_head hf hg h1 h2
      rw [beq_eq_false_iff_ne.2 h.2, beq_eq_false_iff_ne.2 h2]

theorem swapName_amp2 (hf : OwnName f) (hg : OwnName g) (x : Str) :
    startsWith ['&', '&'] (swapName f g x) = startsWith ['&', '&'] x := by
  have key : ∀ y : Str, y.head? ≠ some '&' → startsWith ['&', '&'] y = false := by
    intro y hy
    cases y with
    | nil => rfl
    | cons c y =>
      show (('&' == c) && _) = false
      have : ('&' == c) = false := by
        simp only [beq_eq_false_iff_ne]; intro e; exact hy (by rw [← e]; rfl)
      rw [this]; rfl
  by_cases h2 : x.head? = some '&'
  · cases x with
    | nil => cases h2
    | cons c x => cases h2; exact swapName_amp hf hg x
  · rw [key x h2]
    apply key
    have := swapName_amp hf hg x
    rw [startsWith_amp, startsWith_amp] at this
    intro e
    rw [e] at this
    simp at this
    exact h2 this

theorem swapName_drop {x : Str} (h : startsWith ['&'] x = true) : (swapName f g x).drop 1 = swapName f g (x.drop 1) := by
  rw [startsWith_amp] at h
  cases x with
  | nil => cases h
  | cons c x => simp at h; subst h; rfl

theorem swapName_drop2 {x : Str} (h : startsWith ['&', '&'] x = true) : (swapName f g x).drop 2 = swapName f g (x.drop 2) := by
  have h' : x.isPrefixOf x = true ∧ ∃ y, x = '&' :: '&' :: y := by
    refine ⟨by simp, ?_⟩
    have : ['&', '&'] <+: x := List.isPrefixOf_iff_prefix.1 h
    obtain ⟨y, hy⟩ := this
    exact ⟨y, hy.symm⟩
  obtain ⟨_, y, rfl⟩ := h'
  rfl

theorem swapName_builtin (hf : OwnName f) (hg : OwnName g) (x : Str) : builtin? (swapName f g x) = builtin? x := by
  have marked : ∀ y : Str, y.head? = some '%' ∨ y.head? = some '&' → builtin? y = none := by
    intro y hy
    have : ∀ t : List (Str × Builtin), (∀ e ∈ t, e.1.head? ≠ some '%' ∧ e.1.head? ≠ some '&') → amGet y t = none := by
      intro t ht
      induction t with
      | nil => rfl
      | cons e t ih =>
        obtain ⟨k, b⟩ := e
        have hk := ht _ (List.mem_cons_self ..)
        have hne : (k == y) = false := by
          simp only [beq_eq_false_iff_ne]
          intro e; subst e
          rcases hy with h | h
          · exact hk.1 h
          · exact hk.2 h
        rw [amGet, hne]
        exact ih fun e he => ht e (List.mem_cons_of_mem _ he)
    exact this builtinTable (by decide +kernel)
  by_cases h1 : x.head? = some '%'
  · rw [marked x (.inl h1)]
    apply marked
    cases x with
    | nil => cases h1
    | cons c x => cases h1; exact .inl rfl
  · by_cases h2 : x.head? = some '&'
    · rw [marked x (.inr h2)]
      apply marked
      cases x with
      | nil => cases h2
      | cons c x => cases h2; exact .inr rfl
    · rw [swapName_plain h1 h2]
      split
      · next e => rw [e, hf.own, hg.own]
      · split
        · next e => rw [e, hf.own, hg.own]
        · rfl

theorem swapName_known (hf : OwnName f) (hg : OwnName g) {x : Str} {b : Builtin} (h : builtin? x = some b) : swapName f g x = x := by
  have h0 := swapName_builtin hf hg x
  by_cases h1 : x.head? = some '%'
  · have : builtin? x = none := by
      cases x with
      | nil => cases h1
      | cons c x => cases h1; rfl
    rw [this] at h; cases h
  · by_cases h2 : x.head? = some '&'
    · have : builtin? x = none := by
        cases x with
        | nil => cases h2
        | cons c x => cases h2; rfl
      rw [this] at h; cases h
    · apply swapName_fixed h1 h2
      · intro e; rw [e, hf.own] at h; cases h
      · intro e; rw [e, hg.own] at h; cases h

theorem swapName_in (hf : OwnName f) (hg : OwnName g) (x : Str) : (swapName f g x == str! "in") = (x == str! "in") := by
  have e : swapName f g (str! "in") = str! "in" :=
    swapName_fixed (by decide) (by decide) hf.notIn.symm hg.notIn.symm
  by_cases h : x = str! "in"
  · rw [h, e]
  · have : swapName f g x ≠ str! "in" := by
      intro h'
      exact h (swapName_inj hf hg (h'.trans e.symm))
    rw [beq_eq_false_iff_ne.2 h, beq_eq_false_iff_ne.2 this]

theorem swapName_lambda (hf : OwnName f) (hg : OwnName g) (x : Str) :
    swapName f g (str! "__lambda" ++ x) = str! "__lambda" ++ x := by
  apply swapName_fixed
  · intro h; cases h
  · intro h; cases h
  · intro h; exact hf.notLambda ⟨x, h⟩
  · intro h; exact hg.notLambda ⟨x, h⟩

end names

section nodes
variable {f g : Str}

theorem swapNodes_map : ∀ ns : List PNode, swapNodes f g ns = ns.map (swapNode f g)
  | [] => rfl
  | n :: ns => by rw [swapNodes, swapNodes_map ns]; rfl

theorem swapNodes_append (a b : List PNode) : swapNodes f g (a ++ b) = swapNodes f g a ++ swapNodes f g b := by
  simp [swapNodes_map]

mutual
theorem swapNode_swap (hf : OwnName f) (hg : OwnName g) : ∀ n : PNode, swapNode f g (swapNode f g n) = n
  | .symbol a => by simp only [swapNode, swapName_swap hf hg]
  | .list ns s e w => by simp only [swapNode, swapNodes_swap hf hg ns]
  | .attr k n s w => by simp only [swapNode, swapNode_swap hf hg n, swapName_swap hf hg]
  | .string _ => rfl
  | .number _ => rfl
  | .raw _ => rfl
theorem swapNodes_swap (hf : OwnName f) (hg : OwnName g) : ∀ ns : List PNode, swapNodes f g (swapNodes f g ns) = ns
  | [] => rfl
  | n :: ns => by simp only [swapNodes, swapNode_swap hf hg n, swapNodes_swap hf hg ns]
end

mutual
theorem nameless_iff : ∀ n : PNode, nameless f g n = true ↔ swapNode f g n = n
  | .symbol a => by
    obtain ⟨v, s, w⟩ := a
    simp only [nameless, swapNode, beq_iff_eq, PNode.symbol.injEq, Node.mk.injEq, and_true]
  | .list ns s e w => by
    simp only [nameless, swapNode, PNode.list.injEq, namelesss_iff ns, and_true]
  | .attr k n s w => by
    simp only [nameless, swapNode, PNode.attr.injEq, nameless_iff n, and_true, Bool.and_eq_true, beq_iff_eq]
  | .string _ => by simp [nameless, swapNode]
  | .number _ => by simp [nameless, swapNode]
  | .raw _ => by simp [nameless, swapNode]
theorem namelesss_iff : ∀ ns : List PNode, namelesss f g ns = true ↔ swapNodes f g ns = ns
  | [] => by simp [namelesss, swapNodes]
  | n :: ns => by
    simp only [namelesss, swapNodes, Bool.and_eq_true, nameless_iff n, namelesss_iff ns, List.cons.injEq]
end

theorem swapNode_site (n : PNode) : (swapNode f g n).site = n.site := by cases n <;> rfl
theorem swapNode_lw (n : PNode) : (swapNode f g n).lw = n.lw := by cases n <;> rfl
theorem swapNode_setLw (n : PNode) (w : Str) : (swapNode f g n).setLw w = swapNode f g (n.setLw w) := by cases n <;> rfl
theorem swapNode_callNode (n : PNode) (v : Str) : callNode (swapNode f g n) v = callNode n v := by
  unfold callNode; rw [swapNode_site, swapNode_lw]

theorem swapNodes_first (w : Str) (ns : List PNode) : withFirstLw w (swapNodes f g ns) = swapNodes f g (withFirstLw w ns) := by
  cases ns with
  | nil => rfl
  | cons n ns => simp only [swapNodes, withFirstLw, swapNode_setLw]

theorem swapNodes_trim (ns : List PNode) : trimFirstParam (swapNodes f g ns) = swapNodes f g (trimFirstParam ns) := by
  cases ns with
  | nil => rfl
  | cons n ns => simp only [swapNodes, trimFirstParam, swapNode_setLw, swapNode_lw]

theorem swapNodes_splat : ∀ ns : List PNode, splat (swapNodes f g ns) = swapNodes f g (splat ns)
  | [] => rfl
  | .list ms s e w :: ns => by
    simp only [swapNodes, swapNode, splat, swapNodes_splat ns, swapNodes_append, swapNodes_first]
  | .symbol a :: ns => by simp only [swapNodes, swapNode, splat, swapNodes_splat ns]
  | .string a :: ns => by simp only [swapNodes, swapNode, splat, swapNodes_splat ns]
  | .number a :: ns => by simp only [swapNodes, swapNode, splat, swapNodes_splat ns]
  | .raw a :: ns => by simp only [swapNodes, swapNode, splat, swapNodes_splat ns]
  | .attr k n s w :: ns => by simp only [swapNodes, swapNode, splat, swapNodes_splat ns]

theorem swapNodes_layout (as bs : List PNode) :
    layoutOf (swapNodes f g as) (swapNodes f g bs) = swapNodes f g (layoutOf as bs) := by
  unfold layoutOf
  induction as generalizing bs with
  | nil => rfl
  | cons a as ih =>
    cases bs with
    | nil => rfl
    | cons b bs => simp only [swapNodes, List.zipWith, ih, swapNode_setLw, swapNode_lw]

theorem swapNodes_reverse (ns : List PNode) : (swapNodes f g ns).reverse = swapNodes f g ns.reverse := by
  simp [swapNodes_map]

theorem swapNode_isKwRest (hf : OwnName f) (hg : OwnName g) (n : PNode) : isKwRest (swapNode f g n) = isKwRest n := by
  cases n with
  | symbol a => exact swapName_amp2 hf hg a.value
  | _ => rfl

theorem swapNode_isRest (hf : OwnName f) (hg : OwnName g) (n : PNode) : isRest (swapNode f g n) = isRest n := by
  cases n with
  | symbol a => exact swapName_amp hf hg a.value
  | _ => rfl

theorem swapNode_null (n : PNode) : (swapNode f g n).null = n.null := by
  cases n with
  | list ns s e w => cases ns <;> rfl
  | _ => rfl

theorem swapNodes_isNull (ns : List PNode) : isNull (swapNodes f g ns) = isNull ns := by
  match ns with
  | [] => rfl
  | [n] => exact swapNode_null n
  | _ :: _ :: _ => rfl

theorem swapNodes_getLast (ns : List PNode) : (swapNodes f g ns).getLast? = ns.getLast?.map (swapNode f g) := by
  rw [swapNodes_map, List.getLast?_map]

end nodes

section maps
variable {f g : Str}

theorem swapMap_swap (hf : OwnName f) (hg : OwnName g) (l : List (Str × PNode)) : swapMap f g (swapMap f g l) = l := by
  unfold swapMap
  rw [List.map_map]
  conv => rhs; rw [← List.map_id l]
  apply List.map_congr_left
  intro e _
  obtain ⟨k, n⟩ := e
  simp only [Function.comp, swapName_swap hf hg, swapNode_swap hf hg, id]

theorem swapName_beq (hf : OwnName f) (hg : OwnName g) (x y : Str) : (swapName f g x == swapName f g y) = (x == y) := by
  by_cases h : x = y
  · subst h; simp
  · rw [beq_eq_false_iff_ne.2 h, beq_eq_false_iff_ne.2 fun e => h (swapName_inj hf hg e)]

theorem swapMap_insert (hf : OwnName f) (hg : OwnName g) (k : Str) (n : PNode) : ∀ l : List (Str × PNode),
    amInsert (swapName f g k) (swapNode f g n) (swapMap f g l) = swapMap f g (amInsert k n l)
  | [] => rfl
  | (k', n') :: l => by
    have ih := swapMap_insert hf hg k n l
    simp only [swapMap, List.map_cons, amInsert, swapName_beq hf hg] at ih ⊢
    split
    · rfl
    · rw [ih]; rfl

theorem swapMap_get (hf : OwnName f) (hg : OwnName g) (k : Str) : ∀ l : List (Str × PNode),
    amGet (swapName f g k) (swapMap f g l) = (amGet k l).map (swapNode f g)
  | [] => rfl
  | (k', n') :: l => by
    have ih := swapMap_get hf hg k l
    simp only [swapMap, List.map_cons, amGet, swapName_beq hf hg] at ih ⊢
    split
    · rfl
    · rw [ih]

theorem swapMap_remove (hf : OwnName f) (hg : OwnName g) (k : Str) : ∀ l : List (Str × PNode),
    amRemove (swapName f g k) (swapMap f g l) = swapMap f g (amRemove k l)
  | [] => rfl
  | (k', n') :: l => by
    have ih := swapMap_remove hf hg k l
    simp only [swapMap, List.map_cons, amRemove, swapName_beq hf hg] at ih ⊢
    split
    · rfl
    · rw [ih]; rfl

end maps

/-- The second computation does, with the names exchanged, what the first one does when that
comes to an end. -/
def SwapRel (f g : Str) {α : Type} (Q : α → α → Prop) (m m' : M α) : Prop :=
  ∀ s, (m s).1 ≠ .diverge → (m' (swapSt f g s)).2 = swapSt f g (m s).2 ∧ ResRel Q (m s).1 (m' (swapSt f g s)).1

section rel
variable {f g : Str}

theorem SwapRel.lift {α : Type} {Q : α → α → Prop} {r r' : Res α} (h : r ≠ .diverge → ResRel Q r r') :
    SwapRel f g Q (M.lift r) (M.lift r') := fun _ hd => ⟨rfl, h hd⟩

theorem SwapRel.fail {α : Type} {Q : α → α → Prop} (msg : String) (site : Site) :
    SwapRel f g Q (M.fail msg site) (M.fail msg site) := .lift fun _ => rfl

theorem SwapRel.panic {α : Type} {Q : α → α → Prop} : SwapRel f g Q (M.panic : M α) M.panic := .lift fun _ => trivial

theorem SwapRel.diverge {α : Type} {Q : α → α → Prop} {m : M α} : SwapRel f g Q (M.lift .diverge : M α) m :=
  fun _ h => (h rfl).elim

theorem SwapRel.pure {α : Type} {Q : α → α → Prop} {a b : α} (h : Q a b) : SwapRel f g Q (Pure.pure a : M α) (Pure.pure b) :=
  fun _ _ => ⟨rfl, h⟩

theorem SwapRel.same {α : Type} (r : Res α) : SwapRel f g Eq (M.lift r) (M.lift r) :=
  .lift fun h => by cases r <;> first | exact (h rfl).elim | simp [ResRel]

theorem SwapRel.bind {α β : Type} {R : α → α → Prop} {Q : β → β → Prop} {m m' : M α} {k k' : α → M β}
    (hm : SwapRel f g R m m') (hk : ∀ a b, R a b → SwapRel f g Q (k a) (k' b)) : SwapRel f g Q (m >>= k) (m' >>= k') := by
  intro s hd
  have h := hm s
  have hd' : ((M.bind m k) s).1 ≠ .diverge := hd
  show ((M.bind m' k') (swapSt f g s)).2 = swapSt f g ((M.bind m k) s).2 ∧ ResRel Q ((M.bind m k) s).1 ((M.bind m' k') (swapSt f g s)).1
  unfold M.bind at hd' ⊢
  generalize m s = a at h hd'
  generalize m' (swapSt f g s) = b at h
  obtain ⟨a1, a2⟩ := a
  obtain ⟨b1, b2⟩ := b
  cases a1 with
  | diverge => exact (hd' rfl).elim
  | ok x =>
    obtain ⟨h1, h2⟩ := h (fun e => by cases e)
    cases b1 <;> first | exact h2.elim | skip
    cases h1
    exact hk _ _ h2 a2 hd'
  | err e =>
    obtain ⟨h1, h2⟩ := h (fun e => by cases e)
    cases b1 <;> first | exact h2.elim | exact ⟨h1, h2⟩
  | panic =>
    obtain ⟨h1, h2⟩ := h (fun e => by cases e)
    cases b1 <;> first | exact h2.elim | exact ⟨h1, h2⟩

theorem SwapRel.mono {α : Type} {R Q : α → α → Prop} {m m' : M α} (h : SwapRel f g R m m') (hq : ∀ a b, R a b → Q a b) :
    SwapRel f g Q m m' := by
  intro s hd
  obtain ⟨h1, h2⟩ := h s hd
  refine ⟨h1, ?_⟩
  generalize (m s).1 = a at h2
  generalize (m' (swapSt f g s)).1 = b at h2
  cases a <;> cases b <;> first | exact hq _ _ h2 | exact h2

theorem SwapRel.seq {α β : Type} {Q : β → β → Prop} {m m' : M α} {k k' : α → M β}
    (hm : SwapRel f g Eq m m') (hk : ∀ a, SwapRel f g Q (k a) (k' a)) : SwapRel f g Q (m >>= k) (m' >>= k') :=
  hm.bind fun a _ e => e ▸ hk a

theorem SwapRel.inner {α : Type} {Q : α → α → Prop} {m m' : M α} (h : SwapRel f g Q m m') :
    SwapRel f g Q (M.inner m) (M.inner m') := by
  intro s hd
  obtain ⟨h1, h2⟩ := h s hd
  refine ⟨?_, h2⟩
  show { (m' (swapSt f g s)).2 with scope := (swapSt f g s).scope } = _
  rw [h1]
  rfl

theorem SwapRel.lookup (hf : OwnName f) (hg : OwnName g) (x : Str) :
    SwapRel f g (fun a b => b = a.map (swapMacro f g)) (M.lookup x) (M.lookup (swapName f g x)) := by
  intro s _
  refine ⟨rfl, ?_⟩
  show (s.scope (swapName f g (swapName f g x))).map _ = _
  rw [swapName_swap hf hg]

theorem SwapRel.define (hf : OwnName f) (hg : OwnName g) (x : Str) (m : Macro) :
    SwapRel f g Eq (M.define x m) (M.define (swapName f g x) (swapMacro f g m)) := by
  intro s _
  refine ⟨?_, rfl⟩
  show St.mk ((swapSt f g s).scope.insert (swapName f g x) (swapMacro f g m)) _ _ _ _ = St.mk (fun k => ((s.scope.insert x m) (swapName f g k)).map (swapMacro f g)) _ _ _ _
  congr 1
  funext k
  show (if k == swapName f g x then _ else _) = Option.map _ (if swapName f g k == x then _ else _)
  have e : (k == swapName f g x) = (swapName f g k == x) := by
    rw [← swapName_beq hf hg k, swapName_swap hf hg]
  rw [e]
  split <;> rfl

theorem SwapRel.iterate (hf : OwnName f) (hg : OwnName g) (l : List (Str × PNode)) :
    SwapRel f g (fun a b => b = swapMap f g a) (M.iterate l) (M.iterate (swapMap f g l)) := by
  intro s _
  refine ⟨rfl, ?_⟩
  show swapMap f g (s.order s.hashes (swapMap f g (swapMap f g l))) = _
  rw [swapMap_swap hf hg]

theorem SwapRel.firstEntry (hf : OwnName f) (hg : OwnName g) (l : List (Str × PNode)) :
    SwapRel f g (fun a b => b = a.map fun e => (swapName f g e.1, swapNode f g e.2)) (M.firstEntry l) (M.firstEntry (swapMap f g l)) := by
  intro s _
  refine ⟨rfl, ?_⟩
  show (swapMap f g (s.order s.hashes (swapMap f g (swapMap f g l)))).head? = _
  rw [swapMap_swap hf hg]
  exact List.head?_map

theorem SwapRel.rethrow {α : Type} {Q : α → α → Prop} {m m' : M α} (msg : String) (site : Site) (h : SwapRel f g Q m m') :
    SwapRel f g Q (Seam.rethrow msg site m) (Seam.rethrow msg site m') := by
  intro s hd
  have h := h s
  unfold Seam.rethrow at hd ⊢
  generalize m s = a at h hd
  generalize m' (swapSt f g s) = b at h
  obtain ⟨a1, a2⟩ := a
  obtain ⟨b1, b2⟩ := b
  cases a1 with
  | diverge => exact (hd rfl).elim
  | ok x =>
    obtain ⟨h1, h2⟩ := h (fun e => by cases e)
    cases b1 <;> first | exact h2.elim | exact ⟨h1, h2⟩
  | err e =>
    obtain ⟨h1, h2⟩ := h (fun e => by cases e)
    cases b1 <;> first | exact h2.elim | exact ⟨h1, rfl⟩
  | panic =>
    obtain ⟨h1, h2⟩ := h (fun e => by cases e)
    cases b1 <;> first | exact h2.elim | exact ⟨h1, h2⟩

theorem SwapRel.emit (l : LogLine) : SwapRel f g Eq (M.emit l) (M.emit l) := fun _ _ => ⟨rfl, rfl⟩
theorem SwapRel.tick : SwapRel f g Eq M.tick M.tick := fun _ _ => ⟨rfl, rfl⟩

end rel

section binding
variable {f g : Str} (hf : OwnName f) (hg : OwnName g)
include hf hg

theorem skipNamed_swap : ∀ (ns : List PNode) (named : List (Str × PNode)),
    skipNamed (swapMap f g named) (swapNodes f g ns) =
      (swapMap f g (skipNamed named ns).1, swapNodes f g (skipNamed named ns).2)
  | [], _ => rfl
  | .attr k n s w :: ns, named => by
    have := skipNamed_swap ns (amInsert k (.attr k n s w) named)
    rw [← swapMap_insert hf hg] at this
    exact this
  | .symbol _ :: _, _ => rfl
  | .string _ :: _, _ => rfl
  | .number _ :: _, _ => rfl
  | .raw _ :: _, _ => rfl
  | .list .. :: _, _ => rfl

theorem takeRest_swap : ∀ (ns : List PNode) (named : List (Str × PNode)),
    takeRest (swapMap f g named) (swapNodes f g ns) =
      (swapMap f g (takeRest named ns).1, swapNodes f g (takeRest named ns).2)
  | [], _ => rfl
  | .attr k n s w :: ns, named => by
    have := takeRest_swap ns (amInsert k (.attr k n s w) named)
    rw [← swapMap_insert hf hg] at this
    exact this
  | .symbol _ :: ns, named => by simp only [swapNodes, swapNode, takeRest, takeRest_swap ns named]
  | .string _ :: ns, named => by simp only [swapNodes, swapNode, takeRest, takeRest_swap ns named]
  | .number _ :: ns, named => by simp only [swapNodes, swapNode, takeRest, takeRest_swap ns named]
  | .raw _ :: ns, named => by simp only [swapNodes, swapNode, takeRest, takeRest_swap ns named]
  | .list .. :: ns, named => by simp only [swapNodes, swapNode, takeRest, takeRest_swap ns named]

theorem bindNamed_swap : ∀ (lhs rhs : List (Str × PNode)),
    SwapRel f g (fun a b => b = swapMap f g a) (bindNamed rhs lhs) (bindNamed (swapMap f g rhs) (swapMap f g lhs))
  | [], rhs => .pure rfl
  | (k, d) :: lhs, rhs => by
    show SwapRel f g _ (bindNamed rhs ((k, d) :: lhs)) (bindNamed (swapMap f g rhs) ((swapName f g k, swapNode f g d) :: swapMap f g lhs))
    rw [bindNamed, bindNamed]
    rw [swapMap_get hf hg, swapMap_remove hf hg]
    refine .seq ?_ fun _ => bindNamed_swap lhs _
    rcases amGet k rhs with _ | n
    · exact .define hf hg k _
    · cases n <;> exact .define hf hg k _

/-- The marks of the rest parameters. -/
structure AccMarks (acc : BindAcc) : Prop where
  rest : ∀ n, acc.rest = some n → startsWith ['&'] n = true
  kwRest : ∀ n, acc.kwRest = some n → startsWith ['&', '&'] n = true

/-- The variables of the loop with the names exchanged. -/
def swapAcc (f g : Str) (acc : BindAcc) : BindAcc :=
  { acc with rest := acc.rest.map (swapName f g), kwRest := acc.kwRest.map (swapName f g), rhs := swapMap f g acc.rhs, lhs := swapMap f g acc.lhs }

theorem bindEnd_swap (acc : BindAcc) (ha : AccMarks acc) (ns : List PNode) :
    SwapRel f g Eq (bindEnd acc ns) (bindEnd (swapAcc f g acc) (swapNodes f g ns)) := by
  have hk : ∀ rhs : List (Str × PNode), SwapRel f g Eq
      (bindNamed rhs acc.lhs >>= fun rhs => match acc.kwRest with
        | some name => do
          let entries ← M.iterate rhs
          M.define (name.drop 2) (Macro.var (entries.map (·.2)))
        | none =>
          if rhs.isEmpty then pure ()
          else do
            let entry ← M.firstEntry rhs
            match entry with
            | some (_, n) => M.fail "Unknown excess keywords provided." n.site
            | none => M.panic)
      (bindNamed (swapMap f g rhs) (swapMap f g acc.lhs) >>= fun rhs => match acc.kwRest.map (swapName f g) with
        | some name => do
          let entries ← M.iterate rhs
          M.define (name.drop 2) (Macro.var (entries.map (·.2)))
        | none =>
          if rhs.isEmpty then pure ()
          else do
            let entry ← M.firstEntry rhs
            match entry with
            | some (_, n) => M.fail "Unknown excess keywords provided." n.site
            | none => M.panic) := by
    intro rhs
    refine (bindNamed_swap hf hg acc.lhs rhs).bind fun a b hb => ?_
    subst hb
    rcases hkw : acc.kwRest with _ | nm
    · dsimp only [Option.map]
      have : (swapMap f g a).isEmpty = a.isEmpty := by cases a <;> rfl
      rw [this]
      split
      · exact .pure rfl
      · refine (SwapRel.firstEntry hf hg a).bind fun x y hxy => ?_
        subst hxy
        rcases x with _ | ⟨k, n⟩
        · exact .panic
        · dsimp only [Option.map]
          rw [swapNode_site]; exact .fail _ _
    · dsimp only [Option.map]
      refine (SwapRel.iterate hf hg a).bind fun x y hxy => ?_
      subst hxy
      rw [swapName_drop2 (ha.kwRest _ hkw)]
      have : Macro.var ((swapMap f g x).map (·.2)) = swapMacro f g (Macro.var (x.map (·.2))) := by
        unfold Macro.var swapMacro swapMap
        simp [swapNodes_map, swapNodes]
      rw [this]
      exact .define hf hg _ _
  unfold bindEnd
  dsimp only [swapAcc]
  rw [takeRest_swap hf hg]
  dsimp only
  rw [swapNodes_getLast]
  rcases hr : acc.rest with _ | nm
  · rcases (takeRest acc.rhs ns).2.getLast? with _ | n
    · exact hk _
    · dsimp only [Option.map]
      rw [swapNode_site]
      exact .seq (.fail _ _) fun _ => hk _
  · dsimp only [Option.map]
    refine .seq ?_ fun _ => hk _
    rw [swapName_drop (ha.rest _ hr)]
    exact .define hf hg _ _

mutual
theorem bind_swap : ∀ p v : PNode, SwapRel f g Eq (bind p v) (bind (swapNode f g p) (swapNode f g v))
  | .symbol a, v => by
    simp only [swapNode, bind]
    exact .define hf hg _ _
  | .attr k n s w, v => by
    cases v with
    | attr k' n' s' w' =>
      simp only [swapNode, bind, swapName_iff hf hg]
      split
      · exact bind_swap n n'
      · exact .fail _ _
    | _ => simp only [swapNode, bind]; exact .fail _ _
  | .list ps s e w, v => by
    cases v with
    | list vs s' e' w' =>
      simp only [swapNode, bind]
      exact bindLoop_swap (.list vs s' e' w') (.list (swapNodes f g vs) s' e' w') rfl BindAcc.init ⟨fun _ h => (by cases h), fun _ h => (by cases h)⟩ ps vs
    | _ => simp only [swapNode, bind]; exact .fail _ _
  | .number a, v => by
    cases v <;> simp only [swapNode, bind] <;> first | exact .fail _ _ | skip
    split
    · exact .pure rfl
    · exact .fail _ _
  | .string a, v => by
    cases v <;> simp only [swapNode, bind] <;> first | exact .fail _ _ | skip
    all_goals
      split
      · exact .pure rfl
      · exact .fail _ _
  | .raw a, v => by
    cases v <;> simp only [swapNode, bind] <;> first | exact .fail _ _ | skip
    all_goals
      split
      · exact .pure rfl
      · exact .fail _ _
theorem bindLoop_swap (c c' : PNode) (hc : c'.site = c.site) (acc : BindAcc) (ha : AccMarks acc) : ∀ ps vs : List PNode,
    SwapRel f g Eq (bindLoop c acc ps vs) (bindLoop c' (swapAcc f g acc) (swapNodes f g ps) (swapNodes f g vs))
  | [], vs => by
    simp only [swapNodes, bindLoop]
    exact bindEnd_swap hf hg acc ha vs
  | .attr k d s w :: ps, vs => by
    have := bindLoop_swap c c' hc { acc with lhs := amInsert k d acc.lhs } ⟨ha.rest, ha.kwRest⟩ ps vs
    unfold swapAcc at this
    dsimp only at this
    rw [← swapMap_insert hf hg] at this
    simp only [swapNodes, swapNode, bindLoop]
    exact this
  | .symbol a :: ps, vs => by
    simp only [swapNodes, swapNode]
    have k1 : isKwRest (.symbol { a with value := swapName f g a.value }) = isKwRest (.symbol a) :=
      swapNode_isKwRest hf hg (.symbol a)
    have k2 : isRest (.symbol { a with value := swapName f g a.value }) = isRest (.symbol a) :=
      swapNode_isRest hf hg (.symbol a)
    rw [bindLoop, bindLoop, k1, k2]
    rotate_left
    · intro _ _ _ _ h; cases h
    · intro _ _ _ _ h; cases h
    by_cases h1 : isKwRest (.symbol a) = true
    · rw [if_pos h1, if_pos h1]
      rcases hkw : acc.kwRest with _ | nm
      · have : (swapAcc f g acc).kwRest = none := by show acc.kwRest.map _ = _; rw [hkw]; rfl
        rw [this]
        exact bindLoop_swap c c' hc { acc with kwRest := some a.value } ⟨ha.rest, fun n hn => (by cases hn; exact h1)⟩ ps vs
      · have : (swapAcc f g acc).kwRest = some (swapName f g nm) := by show acc.kwRest.map _ = _; rw [hkw]; rfl
        rw [this]
        exact .fail _ _
    · rw [if_neg h1, if_neg h1]
      by_cases h2 : isRest (.symbol a) = true
      · rw [if_pos h2, if_pos h2]
        rcases hkw : acc.rest with _ | nm
        · have : (swapAcc f g acc).rest = none := by show acc.rest.map _ = _; rw [hkw]; rfl
          rw [this]
          exact bindLoop_swap c c' hc { acc with rest := some a.value } ⟨fun n hn => (by cases hn; exact h2), ha.kwRest⟩ ps vs
        · have : (swapAcc f g acc).rest = some (swapName f g nm) := by show acc.rest.map _ = _; rw [hkw]; rfl
          rw [this]
          exact .fail _ _
      · rw [if_neg h2, if_neg h2]
        have e := skipNamed_swap hf hg vs acc.rhs
        show SwapRel f g Eq _ (match skipNamed (swapMap f g acc.rhs) (swapNodes f g vs) with
          | (_, []) => _ | (rhs, v :: values) => _)
        rw [e]
        rcases skipNamed acc.rhs vs with ⟨m, _ | ⟨v, vs'⟩⟩
        · simp only [swapNodes, hc]; exact .fail _ _
        · simp only [swapNodes]
          refine .seq (bind_swap (.symbol a) v) fun _ => ?_
          exact bindLoop_swap c c' hc { acc with rhs := m, expected := acc.expected + 1 } ⟨ha.rest, ha.kwRest⟩ ps vs'
  | .string a :: ps, vs => by
    simp only [swapNodes, swapNode]
    have e := skipNamed_swap hf hg vs acc.rhs
    rw [bindLoop, bindLoop]
    · show SwapRel f g Eq _ (match skipNamed (swapMap f g acc.rhs) (swapNodes f g vs) with
          | (_, []) => _ | (rhs, v :: values) => _)
      rw [e]
      show SwapRel f g Eq (match skipNamed acc.rhs vs with
          | (_, []) => _ | (rhs, v :: values) => _) _
      rcases skipNamed acc.rhs vs with ⟨m, _ | ⟨v, vs'⟩⟩
      · simp only [swapNodes, hc]; exact .fail _ _
      · simp only [swapNodes]
        refine .seq (bind_swap (.string a) v) fun _ => ?_
        exact bindLoop_swap c c' hc { acc with rhs := m, expected := acc.expected + 1 } ⟨ha.rest, ha.kwRest⟩ ps vs'
    all_goals (intro _ _ _ _ h; cases h)
  | .number a :: ps, vs => by
    simp only [swapNodes, swapNode]
    have e := skipNamed_swap hf hg vs acc.rhs
    rw [bindLoop, bindLoop]
    · show SwapRel f g Eq _ (match skipNamed (swapMap f g acc.rhs) (swapNodes f g vs) with
          | (_, []) => _ | (rhs, v :: values) => _)
      rw [e]
      show SwapRel f g Eq (match skipNamed acc.rhs vs with
          | (_, []) => _ | (rhs, v :: values) => _) _
      rcases skipNamed acc.rhs vs with ⟨m, _ | ⟨v, vs'⟩⟩
      · simp only [swapNodes, hc]; exact .fail _ _
      · simp only [swapNodes]
        refine .seq (bind_swap (.number a) v) fun _ => ?_
        exact bindLoop_swap c c' hc { acc with rhs := m, expected := acc.expected + 1 } ⟨ha.rest, ha.kwRest⟩ ps vs'
    all_goals (intro _ _ _ _ h; cases h)
  | .raw a :: ps, vs => by
    simp only [swapNodes, swapNode]
    have e := skipNamed_swap hf hg vs acc.rhs
    rw [bindLoop, bindLoop]
    · show SwapRel f g Eq _ (match skipNamed (swapMap f g acc.rhs) (swapNodes f g vs) with
          | (_, []) => _ | (rhs, v :: values) => _)
      rw [e]
      show SwapRel f g Eq (match skipNamed acc.rhs vs with
          | (_, []) => _ | (rhs, v :: values) => _) _
      rcases skipNamed acc.rhs vs with ⟨m, _ | ⟨v, vs'⟩⟩
      · simp only [swapNodes, hc]; exact .fail _ _
      · simp only [swapNodes]
        refine .seq (bind_swap (.raw a) v) fun _ => ?_
        exact bindLoop_swap c c' hc { acc with rhs := m, expected := acc.expected + 1 } ⟨ha.rest, ha.kwRest⟩ ps vs'
    all_goals (intro _ _ _ _ h; cases h)
  | .list ms s' e' w :: ps, vs => by
    simp only [swapNodes, swapNode]
    have e := skipNamed_swap hf hg vs acc.rhs
    rw [bindLoop, bindLoop]
    · show SwapRel f g Eq _ (match skipNamed (swapMap f g acc.rhs) (swapNodes f g vs) with
          | (_, []) => _ | (rhs, v :: values) => _)
      rw [e]
      show SwapRel f g Eq (match skipNamed acc.rhs vs with
          | (_, []) => _ | (rhs, v :: values) => _) _
      rcases skipNamed acc.rhs vs with ⟨m, _ | ⟨v, vs'⟩⟩
      · simp only [swapNodes, hc]; exact .fail _ _
      · simp only [swapNodes]
        have := bind_swap (.list ms s' e' w) v
        simp only [swapNode] at this
        refine .seq this fun _ => ?_
        exact bindLoop_swap c c' hc { acc with rhs := m, expected := acc.expected + 1 } ⟨ha.rest, ha.kwRest⟩ ps vs'
    all_goals (intro _ _ _ _ h; cases h)
end

end binding

section arguments
variable {f g : Str} {P : PNode → Prop}

/-- The argument type does not look at names. -/
structure Blind (f g : Str) (t : ArgType) : Prop where
  check : ∀ n, t.check (swapNode f g n) = t.check n

/-- The arguments with the names exchanged. -/
def swapArgs (f g : Str) (p : ArgParser) : ArgParser :=
  { p with positional := p.positional.map fun e => (e.1, swapNode f g e.2), trailing := swapNodes f g p.trailing }

/-- Outcomes of argument checks. -/
def ArgsRel (f g : Str) (P : PNode → Prop) (a b : ArgLoop) : Prop :=
  (∀ e ∈ a.parser.positional, P e.2) ∧ b = { a with parser := swapArgs f g a.parser }

theorem positional_insert (i : Nat) (n : PNode) : ∀ l : List (Nat × PNode),
    amInsert i (swapNode f g n) (l.map fun e => (e.1, swapNode f g e.2)) = (amInsert i n l).map fun e => (e.1, swapNode f g e.2)
  | [] => rfl
  | (k, m) :: l => by
    have ih := positional_insert i n l
    simp only [List.map_cons, amInsert]
    split
    · rfl
    · rw [ih]; rfl

theorem amInsert_all {i : Nat} {n : PNode} : ∀ {l : List (Nat × PNode)}, (∀ e ∈ l, P e.2) → P n → ∀ e ∈ amInsert i n l, P e.2
  | [], _, hn => fun e he => by simp [amInsert] at he; subst he; exact hn
  | (k, m) :: l, h, hn => by
    intro e he
    rw [amInsert] at he
    split at he
    · rcases List.mem_cons.1 he with rfl | he
      · exact hn
      · exact h _ (List.mem_cons_of_mem _ he)
    · rcases List.mem_cons.1 he with rfl | he
      · exact h _ (List.mem_cons_self ..)
      · exact amInsert_all (fun e he => h e (List.mem_cons_of_mem _ he)) hn e he

theorem positional_mem {i : Nat} {n : PNode} : ∀ {l : List (Nat × PNode)}, amGet i l = some n → ∃ e ∈ l, e.2 = n
  | (k, m) :: l, h => by
    rw [amGet] at h
    split at h
    · cases h; exact ⟨_, List.mem_cons_self .., rfl⟩
    · obtain ⟨e, he, h⟩ := positional_mem h
      exact ⟨e, List.mem_cons_of_mem _ he, h⟩

theorem positional_get (i : Nat) : ∀ l : List (Nat × PNode),
    amGet i (l.map fun e => (e.1, swapNode f g e.2)) = (amGet i l).map (swapNode f g)
  | [] => rfl
  | (k, m) :: l => by
    have ih := positional_get i l
    simp only [List.map_cons, amGet]
    split
    · rfl
    · rw [ih]

/-- A schema without named arguments that does not look at names. -/
structure BlindRules (f g : Str) (P : PNode → Prop) (rules : ArgRules) : Prop where
  good : ∀ r ∈ rules.patterns, ∀ n, r.type.check n = .ok () → P n
  named : ∀ r ∈ rules.patterns, ∀ k, r.pattern (.str k) = false
  types : ∀ r ∈ rules.patterns, Blind f g r.type
  trailing : ∀ t, rules.trailing = some t → Blind f g t

theorem argStep_pos (rules : ArgRules) (st : ArgLoop) (n : PNode) (hn : ∀ k m s w, n ≠ .attr k m s w) :
    argStep rules st n = match rules.patterns.find? (fun r => r.pattern (.int (st.position + 1))) with
      | some rule => do
        let _ ← rule.type.check n
        .ok { parser := { st.parser with positional := amInsert (st.position + 1) n st.parser.positional },
              position := st.position + 1, count := if rule.mandatory then st.count + 1 else st.count }
      | none =>
        match rules.trailing with
        | some t => do
          let _ ← t.check n
          .ok { st with position := st.position + 1, parser := { st.parser with trailing := st.parser.trailing ++ [n] } }
        | none => .err (expErr "Unexpected argument." n.site) := by
  cases n with
  | attr k m s w => exact absurd rfl (hn k m s w)
  | _ => rfl

theorem argStep_attr {rules : ArgRules} (hr : BlindRules f g P rules) (st : ArgLoop) (k : Str) (n : PNode) (s : Site) (w : Str) :
    argStep rules st (.attr k n s w) = match rules.trailing with
        | some t => do
          let _ ← t.check (.attr k n s w)
          .ok { st with position := st.position, parser := { st.parser with trailing := st.parser.trailing ++ [.attr k n s w] } }
        | none => .err (expErr "Unexpected argument." s) := by
  have e : rules.patterns.find? (fun r => r.pattern (.str k)) = none := by
    rw [List.find?_eq_none]
    intro r hm
    rw [hr.named r hm k]; simp
  unfold argStep
  dsimp only
  rw [e]
  rfl

theorem argStep_swap {rules : ArgRules} (hr : BlindRules f g P rules) {a b : ArgLoop} (h : ArgsRel f g P a b) (n : PNode) :
    ResRel (ArgsRel f g P) (argStep rules a n) (argStep rules b (swapNode f g n)) := by
  obtain ⟨h0, rfl⟩ := h
  by_cases hn : ∃ k m s w, n = .attr k m s w
  · obtain ⟨k, m, s, w, rfl⟩ := hn
    have e2 := argStep_attr hr { a with parser := swapArgs f g a.parser } (swapName f g k) (swapNode f g m) s w
    simp only [swapNode] at e2 ⊢
    rw [argStep_attr hr, e2]
    rcases ht : rules.trailing with _ | t
    · rfl
    · have := (hr.trailing t ht).check (.attr k m s w)
      simp only [swapNode] at this
      dsimp only
      rw [this]
      cases t.check (.attr k m s w) with
      | ok _ =>
        refine ⟨h0, ?_⟩
        simp only [swapArgs, swapNodes_append]; rfl
      | _ => first | rfl | trivial
  · have hn1 : ∀ k m s w, n ≠ .attr k m s w := fun k m s w e => hn ⟨k, m, s, w, e⟩
    have hn2 : ∀ k m s w, swapNode f g n ≠ .attr k m s w := by
      intro k m s w e
      cases n <;> simp only [swapNode] at e <;> cases e
      exact hn1 _ _ _ _ rfl
    rw [argStep_pos _ _ _ hn1, argStep_pos _ _ _ hn2]
    dsimp only
    rcases hfd : rules.patterns.find? (fun r => r.pattern (.int (a.position + 1))) with _ | rule
    · simp only [hfd]
      rcases ht : rules.trailing with _ | t
      · show _ = _
        rw [swapNode_site]
      · have := (hr.trailing t ht).check n
        simp only
        rw [this]
        cases t.check n with
        | ok _ =>
          refine ⟨h0, ?_⟩
          simp only [swapArgs, swapNodes_append]; rfl
        | _ => first | rfl | trivial
    · have := (hr.types rule (List.mem_of_find?_eq_some hfd)).check n
      simp only [hfd]
      rw [this]
      cases hck : rule.type.check n with
      | ok _ =>
        refine ⟨?_, ?_⟩
        · exact amInsert_all h0 (hr.good rule (List.mem_of_find?_eq_some hfd) n hck)
        · simp only [swapArgs]
          rw [positional_insert]
      | _ => first | rfl | trivial

theorem argLoop_swap {rules : ArgRules} (hr : BlindRules f g P rules) : ∀ (ns : List PNode) {a b : ArgLoop}, ArgsRel f g P a b →
    ResRel (ArgsRel f g P) (argLoop rules a ns) (argLoop rules b (swapNodes f g ns))
  | [], _, _, h => h
  | n :: ns, a, b, h => by
    have h1 := argStep_swap hr h n
    simp only [swapNodes, argLoop]
    generalize argStep rules a n = x at h1
    generalize argStep rules b (swapNode f g n) = y at h1
    cases x <;> cases y <;> first | exact h1.elim | exact h1 | skip
    exact argLoop_swap hr ns h1

theorem argNew_swap {rules : ArgRules} (hr : BlindRules f g P rules) (call : PNode) (ns : List PNode) :
    ResRel (fun a b => (∀ e ∈ a.positional, P e.2) ∧ b = swapArgs f g a) (ArgParser.new rules call ns) (ArgParser.new rules (swapNode f g call) (swapNodes f g ns)) := by
  have h1 := argLoop_swap hr ns (a := { parser := { positional := [], named := [], trailing := [] }, position := 0, count := 0 })
    (b := { parser := { positional := [], named := [], trailing := [] }, position := 0, count := 0 }) ⟨fun _ h => (by cases h), rfl⟩
  unfold ArgParser.new
  generalize argLoop rules _ ns = x at h1
  generalize argLoop rules _ (swapNodes f g ns) = y at h1
  cases x <;> cases y <;> first | exact h1.elim | exact h1 | skip
  rename_i x y
  obtain ⟨h0, rfl⟩ := h1
  simp only [Res.ok_bind]
  split
  · show expErr _ _ = expErr _ _
    congr 1
    rw [swapNodes_getLast]
    rcases ns.getLast? with _ | n
    · exact (swapNode_site call).symm
    · exact (swapNode_site n).symm
  · exact ⟨h0, rfl⟩

theorem arguments_swap {ps : List ArgRule} {tr : Option ArgType} (hr : BlindRules f g P { patterns := ps, trailing := tr })
    (call : PNode) (ns : List PNode) : SwapRel f g (fun a b => (∀ e ∈ a.positional, P e.2) ∧ b = swapArgs f g a) (arguments ps tr call ns)
      (arguments ps tr (swapNode f g call) (swapNodes f g ns)) := .lift fun _ => argNew_swap hr call ns

theorem blind_any : Blind f g (.any []) := ⟨fun n => by cases n <;> simp [swapNode, ArgType.check, checkAll]⟩

theorem blind_symbol : Blind f g (.symbol []) := ⟨fun n => by cases n <;> simp [swapNode, ArgType.check, checkAll]⟩

theorem blind_list : Blind f g (.list []) := ⟨fun n => by
  cases n <;> simp [swapNode, ArgType.check, ArgType.checkZip]⟩

theorem blind_in (hf : OwnName f) (hg : OwnName g) : Blind f g (.symbol [.exactly (str! "in")]) := ⟨fun n => by
  cases n with
  | symbol a =>
    have := swapName_in hf hg a.value
    show checkAll _ _ = checkAll _ _
    have e : ∀ b : Bool, ∀ n : PNode, n.site = a.site → [ArgPred.exactly (str! "in")].any (·.check n) = b →
        checkAll [.exactly (str! "in")] n = if b then .ok () else .err (expErr "This argument's value did not satisfy one of the following:" a.site) := by
      intro b n hs hb
      unfold checkAll
      rw [hb, hs]
      rfl
    rw [e (a.value == str! "in") _ rfl (by show ((swapName f g a.value == str! "in") || false) = _; rw [this, Bool.or_false]),
      e (a.value == str! "in") _ rfl (by show ((a.value == str! "in") || false) = _; rw [Bool.or_false])]
  | _ => simp [swapNode, ArgType.check]⟩

theorem blind_pos {i : Nat} {t : ArgType} {tr : Option ArgType} (h : Blind f g t) (ht : ∀ t, tr = some t → Blind f g t)
    (hp : ∀ n, t.check n = .ok () → P n) : BlindRules f g P { patterns := [mandatory i t], trailing := tr } where
  named r hr k := by simp at hr; subst hr; rfl
  types r hr := by simp at hr; subst hr; exact h
  trailing := ht
  good r hr := by simp at hr; subst hr; exact hp

theorem pos_swap (p : ArgParser) (hp : ∀ e ∈ p.positional, P e.2) (call : PNode) (i : Nat) :
    ResRel (fun a b => P a ∧ b = swapNode f g a) (p.pos call i) ((swapArgs f g p).pos (swapNode f g call) i) := by
  unfold ArgParser.pos swapArgs
  dsimp only
  rw [positional_get]
  rcases hg : amGet i p.positional with _ | n
  · show _ = _
    rw [swapNode_site]
  · obtain ⟨e, he, rfl⟩ := positional_mem hg
    exact ⟨hp e he, rfl⟩

theorem posList_swap (p : ArgParser) (call : PNode) (i : Nat) :
    ResRel (fun a b => b = swapNodes f g a) (p.posList call i) ((swapArgs f g p).posList (swapNode f g call) i) := by
  have h := pos_swap (f := f) (g := g) (P := fun _ => True) p (fun _ _ => trivial) call i
  unfold ArgParser.posList
  generalize p.pos call i = x at h
  generalize (swapArgs f g p).pos (swapNode f g call) i = y at h
  cases x <;> cases y <;> first | exact h.elim | exact h | skip
  rename_i n m
  obtain ⟨_, rfl⟩ := h
  cases n <;> first | rfl | trivial

/-- An argument that is a symbol. -/
theorem posSymbol_swap (p : ArgParser) (hp : ∀ e ∈ p.positional, ∃ a, e.2 = .symbol a) (call : PNode) (i : Nat) :
    ResRel (fun a b => b = { a with value := swapName f g a.value }) (p.posNode call i)
      ((swapArgs f g p).posNode (swapNode f g call) i) := by
  have h := pos_swap (f := f) (g := g) (P := fun n => ∃ a, n = .symbol a) p hp call i
  unfold ArgParser.posNode
  generalize p.pos call i = x at h
  generalize (swapArgs f g p).pos (swapNode f g call) i = y at h
  cases x <;> cases y <;> first | exact h.elim | exact h | skip
  obtain ⟨⟨a, rfl⟩, rfl⟩ := h
  rfl

/-- Whether an argument is atomic. -/
theorem posNode_swap (p : ArgParser) (call : PNode) (i : Nat) :
    ResRel (fun _ _ => True) (p.posNode call i) ((swapArgs f g p).posNode (swapNode f g call) i) := by
  have h := pos_swap (f := f) (g := g) (P := fun _ => True) p (fun _ _ => trivial) call i
  unfold ArgParser.posNode
  generalize p.pos call i = x at h
  generalize (swapArgs f g p).pos (swapNode f g call) i = y at h
  cases x <;> cases y <;> first | exact h.elim | exact h | skip
  rename_i n m
  obtain ⟨_, rfl⟩ := h
  cases n <;> trivial

theorem symbol_checked {n : PNode} (h : ArgType.check (.symbol []) n = .ok ()) : ∃ a, n = .symbol a := by
  cases n <;> simp [ArgType.check, checkAll] at h ⊢

end arguments

/-- The call with the names exchanged. -/
def swapCall (f g : Str) : Call → Call
  | .node n => .node (swapNode f g n)
  | .invoke name call params => .invoke (swapName f g name) (swapNode f g call) (swapNodes f g params)

/-- Lists of nodes with the names exchanged. -/
def NodesRel (f g : Str) (a b : List PNode) : Prop := b = swapNodes f g a

/-- The same lists of nodes, without the names. -/
def CleanRel (f g : Str) (a b : List PNode) : Prop := b = a ∧ swapNodes f g a = a

/-- Recursive calls that do the same with the names exchanged. -/
def SwapRec (f g : Str) (rec rec' : Rec) : Prop := ∀ c, SwapRel f g (NodesRel f g) (rec c) (rec' (swapCall f g c))

/-- Recursive calls that do the same with the names exchanged, and whose values have not got the names. -/
def CleanRec (f g : Str) (rec rec' : Rec) : Prop := ∀ c, SwapRel f g (CleanRel f g) (rec c) (rec' (swapCall f g c))

section steps
variable {f g : Str} {rec rec' : Rec}

theorem expandNodes_swap (hr : SwapRec f g rec rec') : ∀ ns : List PNode,
    SwapRel f g (NodesRel f g) (expandNodes rec ns) (expandNodes rec' (swapNodes f g ns))
  | [] => .pure rfl
  | n :: ns => by
    simp only [swapNodes, expandNodes]
    refine (hr (.node n)).bind fun a b hb => ?_
    refine (expandNodes_swap hr ns).bind fun c d hd => ?_
    cases hb; cases hd
    exact .pure (swapNodes_append _ _).symm

theorem expandNodes_clean (hr : CleanRec f g rec rec') : ∀ ns : List PNode,
    SwapRel f g (CleanRel f g) (expandNodes rec ns) (expandNodes rec' (swapNodes f g ns))
  | [] => .pure ⟨rfl, rfl⟩
  | n :: ns => by
    simp only [swapNodes, expandNodes]
    refine (hr (.node n)).bind fun a b hb => ?_
    refine (expandNodes_clean hr ns).bind fun c d hd => ?_
    obtain ⟨rfl, hb⟩ := hb
    obtain ⟨rfl, hd⟩ := hd
    exact .pure ⟨rfl, by rw [swapNodes_append, hb, hd]⟩

variable (hf : OwnName f) (hg : OwnName g)
include hf hg

theorem createMacro_swap (x : Str) (ps body : List PNode) :
    SwapRel f g Eq (createMacro x ps body) (createMacro (swapName f g x) (swapNodes f g ps) (swapNodes f g body)) := by
  have e1 : restParams (swapNodes f g ps) = swapNodes f g (restParams ps) := by
    unfold restParams
    rw [swapNodes_map, swapNodes_map, List.filter_map]
    congr 2
    funext n
    simp only [Function.comp, swapNode_isRest hf hg, swapNode_isKwRest hf hg]
  have e2 : kwRestParams (swapNodes f g ps) = swapNodes f g (kwRestParams ps) := by
    unfold kwRestParams
    rw [swapNodes_map, swapNodes_map, List.filter_map]
    congr 2
    funext n
    simp only [Function.comp, swapNode_isKwRest hf hg]
  have hk : SwapRel f g Eq (match kwRestParams ps with
      | _ :: excess :: _ => M.fail "Excess `&&`-variadic named argument capture variables." excess.site
      | _ => M.define x { params := ps, body := body }) (match swapNodes f g (kwRestParams ps) with
      | _ :: excess :: _ => M.fail "Excess `&&`-variadic named argument capture variables." excess.site
      | _ => M.define (swapName f g x) { params := swapNodes f g ps, body := swapNodes f g body }) := by
    rcases kwRestParams ps with _ | ⟨a, _ | ⟨b, c⟩⟩
    · exact .define hf hg _ _
    · exact .define hf hg _ _
    · simp only [swapNodes, swapNode_site]; exact .fail _ _
  unfold createMacro
  rw [e1, e2]
  rcases restParams ps with _ | ⟨a, _ | ⟨b, c⟩⟩
  · exact hk
  · exact hk
  · simp only [swapNodes, swapNode_site]; exact .fail _ _

theorem matchLoop_swap (hr : SwapRec f g rec rec') (expr : PNode) : ∀ ps : List PNode,
    SwapRel f g (NodesRel f g) (matchLoop rec expr ps) (matchLoop rec' (swapNode f g expr) (swapNodes f g ps))
  | [] => .pure rfl
  | .list [] s e w :: ps => by simp only [swapNodes, swapNode, matchLoop]; exact .fail _ _
  | .list (pat :: value) s e w :: ps => by
    simp only [swapNodes, swapNode, matchLoop]
    refine (hr (.node pat)).bind fun a b hb => ?_
    cases hb
    rcases a with _ | ⟨p, _ | ⟨q, r⟩⟩
    · simp only [swapNodes, swapNode_site]; exact .fail _ _
    · simp only [swapNodes]
      intro st hd
      have h1 := bind_swap hf hg p expr st
      dsimp only at hd ⊢
      generalize bind p expr st = x at h1 hd
      generalize bind (swapNode f g p) (swapNode f g expr) (swapSt f g st) = y at h1
      obtain ⟨x1, x2⟩ := x
      obtain ⟨y1, y2⟩ := y
      cases x1 with
      | diverge => exact (hd rfl).elim
      | ok u =>
        obtain ⟨h1, h2⟩ := h1 (fun e => by cases e)
        cases y1 <;> first | exact h2.elim | skip
        cases h1
        have h3 := expandNodes_swap hr value x2
        have hd' : (expandNodes rec value x2).1 ≠ .diverge := hd
        obtain ⟨h3, h4⟩ := h3 hd'
        refine ⟨?_, h4⟩
        show { (expandNodes rec' (swapNodes f g value) (swapSt f g x2)).2 with scope := (swapSt f g st).scope } = _
        rw [h3]
        rfl
      | err e =>
        obtain ⟨h1, h2⟩ := h1 (fun e => by cases e)
        cases y1 <;> first | exact h2.elim | skip
        cases h1
        exact matchLoop_swap hr expr ps { x2 with scope := st.scope } hd
      | panic =>
        obtain ⟨h1, h2⟩ := h1 (fun e => by cases e)
        cases y1 <;> first | exact h2.elim | skip
        cases h1
        exact ⟨rfl, trivial⟩
    · simp only [swapNodes, swapNode_site]; exact .fail _ _
  | .symbol _ :: ps => by simp only [swapNodes, swapNode, matchLoop]; exact .fail _ _
  | .string _ :: ps => by simp only [swapNodes, swapNode, matchLoop]; exact .fail _ _
  | .number _ :: ps => by simp only [swapNodes, swapNode, matchLoop]; exact .fail _ _
  | .raw _ :: ps => by simp only [swapNodes, swapNode, matchLoop]; exact .fail _ _
  | .attr .. :: ps => by simp only [swapNodes, swapNode, matchLoop]; exact .fail _ _

theorem matchMacro_swap (hr : SwapRec f g rec rec') (call : PNode) (ps : List PNode) :
    SwapRel f g (NodesRel f g) (matchMacro rec call ps) (matchMacro rec' (swapNode f g call) (swapNodes f g ps)) := by
  cases ps with
  | nil => simp only [swapNodes, matchMacro, swapNode_site]; exact .fail _ _
  | cons p ps =>
    simp only [swapNodes, matchMacro]
    refine (hr (.node p)).bind fun a b hb => ?_
    cases hb
    rcases a with _ | ⟨q, _ | ⟨q', r⟩⟩
    · simp only [swapNodes, swapNode_site]; exact .fail _ _
    · exact matchLoop_swap hf hg hr q ps
    · simp only [swapNodes, swapNode_site]; exact .fail _ _

theorem define_swap (hr : SwapRec f g rec rec') (call : PNode) (ps : List PNode) :
    SwapRel f g (NodesRel f g) (defineMacro rec call ps) (defineMacro rec' (swapNode f g call) (swapNodes f g ps)) := by
  cases ps with
  | nil => simp only [swapNodes, defineMacro, swapNode_site]; exact .fail _ _
  | cons p ps =>
    cases p with
    | symbol v =>
      simp only [swapNodes, swapNode, defineMacro]
      refine (expandNodes_swap hr ps).bind fun a b hb => ?_
      cases hb
      exact .seq (createMacro_swap hf hg v.value [] a) fun _ => .pure rfl
    | list ns s e w =>
      cases ns with
      | nil => simp only [swapNodes, swapNode, defineMacro]; exact .fail _ _
      | cons n ns =>
        cases n <;> simp only [swapNodes, swapNode, defineMacro] <;> first
          | exact .seq (createMacro_swap hf hg _ ns ps) fun _ => .pure rfl
          | exact .fail _ _
    | _ => simp only [swapNodes, swapNode, defineMacro]; exact .fail _ _

theorem ifdef_swap (hr : SwapRec f g rec rec') (call : PNode) (ps : List PNode) (ht : textCondition ps = false) :
    SwapRel f g (NodesRel f g) (ifdefMacro rec call ps) (ifdefMacro rec' (swapNode f g call) (swapNodes f g ps)) := by
  have first : ∀ a b, NodesRel f g a b → SwapRel f g (NodesRel f g) (pure (withFirstLw call.lw a)) (pure (withFirstLw (swapNode f g call).lw b)) := by
    intro a b h
    cases h
    rw [swapNode_lw]
    exact .pure (swapNodes_first _ _)
  unfold ifdefMacro
  match ps, ht with
  | [], _ => simp only [swapNodes, swapNode_site]; exact .fail _ _
  | [a], _ => simp only [swapNodes, swapNode_site]; exact .fail _ _
  | [c, t], ht =>
    cases c <;> first | cases ht | skip
    · simp only [swapNodes, swapNode, PNode.atomic?]
      refine (SwapRel.lookup hf hg _).bind fun x y hxy => ?_
      subst hxy
      rcases x with _ | m
      · exact .bind (R := NodesRel f g) (.pure rfl) first
      · exact .bind (hr (.node t)) first
    · simp only [swapNodes, swapNode, PNode.atomic?]; exact .fail _ _
    · simp only [swapNodes, swapNode, PNode.atomic?]; exact .fail _ _
  | [c, t, e], ht =>
    cases c <;> first | cases ht | skip
    · simp only [swapNodes, swapNode, PNode.atomic?]
      refine (SwapRel.lookup hf hg _).bind fun x y hxy => ?_
      subst hxy
      rcases x with _ | m
      · exact .bind (hr (.node e)) first
      · exact .bind (hr (.node t)) first
    · simp only [swapNodes, swapNode, PNode.atomic?]; exact .fail _ _
    · simp only [swapNodes, swapNode, PNode.atomic?]; exact .fail _ _
  | _ :: _ :: _ :: _ :: _, _ => simp only [swapNodes, swapNode_site]; exact .fail _ _

theorem forLoop_swap (hr : SwapRec f g rec rec') (it : PNode) (body : List PNode) : ∀ items : List PNode,
    SwapRel f g (NodesRel f g) (forLoop rec it body items) (forLoop rec' (swapNode f g it) (swapNodes f g body) (swapNodes f g items))
  | [] => .pure rfl
  | n :: ns => by
    simp only [swapNodes, forLoop]
    refine .seq (bind_swap hf hg it n) fun _ => ?_
    refine (expandNodes_swap hr body).bind fun a b hb => ?_
    refine (forLoop_swap hr it body ns).bind fun c d hd => ?_
    cases hb; cases hd
    exact .pure (swapNodes_append _ _).symm

theorem for_swap (hr : SwapRec f g rec rec') (call : PNode) (ps : List PNode) :
    SwapRel f g (NodesRel f g) (forMacro rec call ps) (forMacro rec' (swapNode f g call) (swapNodes f g ps)) := by
  have hb : BlindRules f g (fun _ => True) { patterns := forSchema, trailing := some (.any []) } := {
    good := fun _ _ _ _ => trivial
    named := by
      intro r hr k
      simp only [forSchema, List.mem_cons, List.not_mem_nil, or_false] at hr
      rcases hr with rfl | rfl | rfl <;> rfl
    types := by
      intro r hr
      simp only [forSchema, List.mem_cons, List.not_mem_nil, or_false] at hr
      rcases hr with rfl | rfl | rfl
      · exact blind_any
      · exact blind_in hf hg
      · exact blind_list
    trailing := by intro t ht; cases ht; exact blind_any }
  unfold forMacro
  refine (arguments_swap hb call ps).bind fun a b hab => ?_
  obtain ⟨h0, rfl⟩ := hab
  refine (SwapRel.lift fun _ => pos_swap (P := fun _ => True) a h0 call 1).bind fun it it' hit => ?_
  obtain ⟨_, rfl⟩ := hit
  refine (SwapRel.lift fun _ => posNode_swap a call 2).bind fun _ _ _ => ?_
  refine (SwapRel.lift fun _ => posList_swap a call 3).bind fun l l' hl => ?_
  subst hl
  refine (expandNodes_swap hr l).bind fun l l' hl => ?_
  cases hl
  exact .inner (forLoop_swap hf hg hr it a.trailing l)

omit hf hg in
theorem reverse_swap (hr : SwapRec f g rec rec') (call : PNode) (ps : List PNode) :
    SwapRel f g (NodesRel f g) (reverseMacro rec call ps) (reverseMacro rec' (swapNode f g call) (swapNodes f g ps)) := by
  unfold reverseMacro
  refine (expandNodes_swap hr ps).bind fun a b hb => ?_
  cases hb
  refine (arguments_swap (blind_pos (P := fun _ => True) blind_list (fun _ h => by cases h) fun _ _ => trivial) call a).bind fun x y hxy => ?_
  obtain ⟨h0, rfl⟩ := hxy
  refine (SwapRel.lift fun _ => posList_swap x call 1).bind fun l l' hl => ?_
  subst hl
  match a with
  | [] => exact .panic
  | .list ns s e w :: as =>
    refine .pure ?_
    show [PNode.list (layoutOf (swapNodes f g l) (swapNodes f g l).reverse) s e w] = _
    rw [swapNodes_reverse, swapNodes_layout]
    rfl
  | .symbol _ :: _ => exact .panic
  | .string _ :: _ => exact .panic
  | .number _ :: _ => exact .panic
  | .raw _ :: _ => exact .panic
  | .attr .. :: _ => exact .panic

omit hf hg in
theorem mapLoop_swap (hr : SwapRec f g rec rec') (call : PNode) (x : Str) : ∀ ns : List PNode,
    SwapRel f g (NodesRel f g) (mapLoop rec call x ns) (mapLoop rec' (swapNode f g call) (swapName f g x) (swapNodes f g ns))
  | [] => .pure rfl
  | n :: ns => by
    simp only [swapNodes, mapLoop]
    refine (hr (.invoke x call [n])).bind fun a b hb => ?_
    refine (mapLoop_swap hr call x ns).bind fun c d hd => ?_
    cases hb; cases hd
    exact .pure (swapNodes_append _ _).symm

omit hf hg in
theorem filterLoop_swap (hr : SwapRec f g rec rec') (call : PNode) (x : Str) : ∀ ns : List PNode,
    SwapRel f g (NodesRel f g) (filterLoop rec call x ns) (filterLoop rec' (swapNode f g call) (swapName f g x) (swapNodes f g ns))
  | [] => .pure rfl
  | n :: ns => by
    simp only [swapNodes, filterLoop]
    refine (hr (.invoke x call [n])).bind fun a b hb => ?_
    refine (filterLoop_swap hr call x ns).bind fun c d hd => ?_
    cases hb; cases hd
    rw [swapNodes_isNull]
    refine .pure ?_
    show (if _ then _ else _) = swapNodes f g (if _ then _ else _)
    split
    · rfl
    · exact (swapNodes_append _ _).symm

omit hf hg in
/-- `%apply`, `%map` and `%filter`. -/
theorem higher_swap (hr : SwapRec f g rec rec') (call : PNode) (ps : List PNode) (k k' : Str → List PNode → M (List PNode))
    (hk : ∀ x ns, SwapRel f g (NodesRel f g) (k x ns) (k' (swapName f g x) (swapNodes f g ns))) :
    SwapRel f g (NodesRel f g)
      (do let params ← expandNodes rec ps
          let args ← arguments [mandatory 1 (.symbol [])] (some (.any [])) call params
          let h ← M.lift (args.posNode call 1)
          k h.value args.trailing)
      (do let params ← expandNodes rec' (swapNodes f g ps)
          let args ← arguments [mandatory 1 (.symbol [])] (some (.any [])) (swapNode f g call) params
          let h ← M.lift (args.posNode (swapNode f g call) 1)
          k' h.value args.trailing) := by
  refine (expandNodes_swap hr ps).bind fun a b hb => ?_
  cases hb
  refine (arguments_swap (blind_pos (P := fun n => ∃ a, n = .symbol a) blind_symbol (fun _ h => by cases h; exact blind_any)
    fun _ h => symbol_checked h) call a).bind fun x y hxy => ?_
  obtain ⟨h0, rfl⟩ := hxy
  refine (SwapRel.lift fun _ => posSymbol_swap x h0 call 1).bind fun l l' hl => ?_
  subst hl
  exact hk _ _

theorem lambda_swap (ext : Ext) (call : PNode) (ps : List PNode) :
    SwapRel f g (NodesRel f g) (lambdaMacro ext call ps) (lambdaMacro ext (swapNode f g call) (swapNodes f g ps)) := by
  unfold lambdaMacro
  refine (arguments_swap (blind_pos (P := fun _ => True) blind_any (fun _ h => by cases h; exact blind_any) fun _ _ => trivial) call ps).bind
    fun x y hxy => ?_
  obtain ⟨h0, rfl⟩ := hxy
  refine (SwapRel.lift fun _ => pos_swap (P := fun _ => True) x h0 call 1).bind fun h h' hh => ?_
  obtain ⟨_, rfl⟩ := hh
  rw [swapNode_site]
  have hn := swapName_lambda hf hg (ext.uuid call.site)
  generalize str! "__lambda" ++ ext.uuid call.site = name at hn
  have hk : ∀ ns : List PNode, SwapRel f g (NodesRel f g)
      (createMacro name ns x.trailing >>= fun _ => pure [.symbol (callNode call name)])
      (createMacro name (swapNodes f g ns) (swapArgs f g x).trailing >>= fun _ => pure [.symbol (callNode (swapNode f g call) name)]) := by
    intro ns
    have := createMacro_swap hf hg name ns x.trailing
    rw [hn] at this
    refine .seq this fun _ => .pure ?_
    rw [swapNode_callNode]
    show _ = [PNode.symbol { callNode call name with value := swapName f g name }]
    rw [hn]
    rfl
  cases h with
  | list ns s e w => exact hk ns
  | symbol a => exact hk [.symbol a]
  | _ => exact .bind (R := NodesRel f g) (.fail _ _) fun _ _ h => by cases h; exact hk _

theorem userMacro_swap (hr : SwapRec f g rec rec') (name : Str) (call : PNode) (ps : List PNode) :
    SwapRel f g (NodesRel f g) (userMacro rec name call ps) (userMacro rec' (swapName f g name) (swapNode f g call) (swapNodes f g ps)) := by
  unfold userMacro
  refine (expandNodes_swap hr ps).bind fun a b hb => ?_
  cases hb
  refine (SwapRel.lookup hf hg name).bind fun x y hxy => ?_
  subst hxy
  rcases x with _ | m
  · dsimp only [Option.map]; rw [swapNode_site]; exact .fail _ _
  · refine .inner (.seq ?_ fun _ => expandNodes_swap hr m.body)
    exact bindLoop_swap hf hg call (swapNode f g call) (swapNode_site call) BindAcc.init
      ⟨fun _ h => (by cases h), fun _ h => (by cases h)⟩ m.params a

theorem expandNode_swap (hr : SwapRec f g rec rec') (n : PNode) :
    SwapRel f g (NodesRel f g) (expandNode rec n) (expandNode rec' (swapNode f g n)) := by
  cases n with
  | symbol a =>
    simp only [swapNode, expandNode, swapName_macro hf hg]
    rcases macroName? a.value with _ | name
    · exact .pure rfl
    · dsimp only [Option.map]
      unfold expandVariable
      refine (SwapRel.lookup hf hg name).bind fun x y hxy => ?_
      subst hxy
      rcases x with _ | m
      · exact .fail _ _
      · have : (swapMacro f g m).params.isEmpty = m.params.isEmpty := by
          unfold swapMacro
          cases m.params <;> rfl
        dsimp only [Option.map]
        rw [this]
        split
        · refine (expandNodes_swap hr m.body).bind fun a b hb => ?_
          cases hb
          exact .pure (swapNodes_first _ _)
        · exact .fail _ _
  | list ns s e w =>
    cases ns with
    | nil => exact .pure rfl
    | cons h t =>
      have plain : SwapRel f g (NodesRel f g) (do let ns ← expandNodes rec (h :: t); pure [.list ns s e w])
          (do let ns ← expandNodes rec' (swapNodes f g (h :: t)); pure [.list ns s e w]) := by
        refine (expandNodes_swap hr (h :: t)).bind fun a b hb => ?_
        cases hb
        exact .pure rfl
      have call : ∀ name, SwapRel f g (NodesRel f g) (rec (.invoke name (.list (h :: t) s e w) (trimFirstParam t)))
          (rec' (.invoke (swapName f g name) (.list (swapNodes f g (h :: t)) s e w) (trimFirstParam (swapNodes f g t)))) := by
        intro name
        rw [swapNodes_trim]
        exact hr (.invoke name (.list (h :: t) s e w) (trimFirstParam t))
      simp only [swapNode, swapNodes] at plain call ⊢
      unfold expandNode
      cases h with
      | symbol a =>
        simp only [swapNode, PNode.symbol?, Option.bind, swapName_macro hf hg] at plain call ⊢
        rcases macroName? a.value with _ | name
        · exact plain
        · exact call name
      | _ => exact plain
  | attr k n s w =>
    simp only [swapNode, expandNode]
    refine (hr (.node n)).bind fun a b hb => ?_
    cases hb
    cases a with
    | nil => exact .panic
    | cons x xs => exact .pure rfl
  | _ => exact .pure rfl

end steps

section texts
variable {f g : Str} {rec rec' : Rec}

/-- What `dropNames` leaves. -/
theorem SwapRel.drop {m m' : M (List PNode)} (h : SwapRel f g Eq m m') : SwapRel f g (CleanRel f g) (dropNames f g m) m' := by
  intro s hd
  have h := h s
  unfold dropNames at hd ⊢
  generalize m s = a at h hd ⊢
  generalize m' (swapSt f g s) = b at h
  obtain ⟨a1, a2⟩ := a
  obtain ⟨b1, b2⟩ := b
  cases a1 with
  | diverge => exact (hd rfl).elim
  | ok x =>
    obtain ⟨h1, h2⟩ := h (fun e => by cases e)
    cases b1 <;> first | exact h2.elim | skip
    dsimp only at hd ⊢
    by_cases hc : namelesss f g x = true
    · rw [if_pos hc] at hd ⊢
      cases h2
      exact ⟨h1, rfl, (namelesss_iff x).1 hc⟩
    · rw [if_neg hc] at hd; exact (hd rfl).elim
  | err e =>
    obtain ⟨h1, h2⟩ := h (fun e => by cases e)
    cases b1 <;> first | exact h2.elim | exact ⟨h1, h2⟩
  | panic =>
    obtain ⟨h1, h2⟩ := h (fun e => by cases e)
    cases b1 <;> first | exact h2.elim | exact ⟨h1, h2⟩

/-- The same from a relation with the names exchanged. -/
theorem SwapRel.dropSwap {m m' : M (List PNode)} (h : SwapRel f g (NodesRel f g) m m') :
    SwapRel f g (CleanRel f g) (dropNames f g m) m' := by
  intro s hd
  have h := h s
  unfold dropNames at hd ⊢
  generalize m s = a at h hd ⊢
  generalize m' (swapSt f g s) = b at h
  obtain ⟨a1, a2⟩ := a
  obtain ⟨b1, b2⟩ := b
  cases a1 with
  | diverge => exact (hd rfl).elim
  | ok x =>
    obtain ⟨h1, h2⟩ := h (fun e => by cases e)
    cases b1 <;> first | exact h2.elim | skip
    dsimp only at hd ⊢
    by_cases hc : namelesss f g x = true
    · rw [if_pos hc] at hd ⊢
      cases h2
      have := (namelesss_iff x).1 hc
      exact ⟨h1, this, this⟩
    · rw [if_neg hc] at hd; exact (hd rfl).elim
  | err e =>
    obtain ⟨h1, h2⟩ := h (fun e => by cases e)
    cases b1 <;> first | exact h2.elim | exact ⟨h1, h2⟩
  | panic =>
    obtain ⟨h1, h2⟩ := h (fun e => by cases e)
    cases b1 <;> first | exact h2.elim | exact ⟨h1, h2⟩

theorem CleanRel.nodes {a b : List PNode} (h : CleanRel f g a b) : NodesRel f g a b := h.1.trans h.2.symm

theorem guard_node (hr : SwapRec f g rec rec') (n : PNode) :
    SwapRel f g (CleanRel f g) (guardNames f g rec (.node n)) (rec' (.node (swapNode f g n))) := (hr (.node n)).dropSwap

theorem guard_invoke (hr : SwapRec f g rec rec') (name : Str) (call : PNode) (ps : List PNode) :
    SwapRel f g (CleanRel f g) (guardNames f g rec (.invoke name call ps)) (rec' (.invoke name (swapNode f g call) ps)) := by
  by_cases h : (swapName f g name == name && namelesss f g ps) = true
  · rw [guardNames, if_pos h]
    simp only [Bool.and_eq_true, beq_iff_eq, namelesss_iff] at h
    have := (hr (.invoke name call ps)).dropSwap
    simp only [swapCall, h.1, h.2] at this
    exact this
  · rw [guardNames, if_neg h]
    exact .diverge

theorem strict_node (hr : SwapRec f g rec rec') (n : PNode) :
    SwapRel f g (CleanRel f g) (strictNames f g rec (.node n)) (rec' (.node n)) := by
  by_cases h : nameless f g n = true
  · rw [strictNames, if_pos h]
    have := guard_node hr n
    rw [(nameless_iff n).1 h] at this
    exact this
  · rw [strictNames, if_neg h]
    exact .diverge

theorem strict_swap (hr : SwapRec f g rec rec') (n : PNode) :
    SwapRel f g (CleanRel f g) (strictNames f g rec (.node n)) (rec' (.node (swapNode f g n))) := by
  by_cases h : nameless f g n = true
  · have := strict_node hr n
    rw [(nameless_iff n).1 h]
    exact this
  · rw [strictNames, if_neg h]
    exact .diverge

theorem expandNodes_of {F : PNode → PNode} (hr : ∀ n, SwapRel f g (CleanRel f g) (rec (.node n)) (rec' (.node (F n)))) :
    ∀ ns : List PNode, SwapRel f g (CleanRel f g) (expandNodes rec ns) (expandNodes rec' (ns.map F))
  | [] => .pure ⟨rfl, rfl⟩
  | n :: ns => by
    simp only [List.map_cons, expandNodes]
    refine (hr n).bind fun a b hb => ?_
    refine (expandNodes_of hr ns).bind fun c d hd => ?_
    obtain ⟨rfl, hb⟩ := hb
    obtain ⟨rfl, hd⟩ := hd
    exact .pure ⟨rfl, by rw [swapNodes_append, hb, hd]⟩

theorem guard_expand (hr : SwapRec f g rec rec') (ns : List PNode) :
    SwapRel f g Eq (expandNodes (guardNames f g rec) ns) (expandNodes rec' (swapNodes f g ns)) := by
  rw [swapNodes_map]
  exact (expandNodes_of (guard_node hr) ns).mono fun _ _ h => h.1.symm

theorem new_call (rules : ArgRules) (call : PNode) (ps : List PNode) :
    ArgParser.new rules (swapNode f g call) ps = ArgParser.new rules call ps := by
  unfold ArgParser.new; simp only [swapNode_site]

theorem arguments_call (ps : List ArgRule) (tr : Option ArgType) (call : PNode) (ns : List PNode) :
    arguments ps tr (swapNode f g call) ns = arguments ps tr call ns := by unfold arguments; rw [new_call]

theorem pos_call (p : ArgParser) (call : PNode) (i : Nat) : p.pos (swapNode f g call) i = p.pos call i := by
  unfold ArgParser.pos; rw [swapNode_site]

theorem posNode_call (p : ArgParser) (call : PNode) (i : Nat) : p.posNode (swapNode f g call) i = p.posNode call i := by
  unfold ArgParser.posNode; rw [pos_call]

/-- Splits a computation without effects into its parts. -/
macro "quiet" : tactic => `(tactic| repeat (first
  | exact SwapRel.same _ | exact SwapRel.fail _ _ | exact SwapRel.panic | exact SwapRel.pure rfl | exact SwapRel.emit _
  | refine SwapRel.seq ?_ fun _ => ?_
  | split))

theorem SwapRel.arguments (ps : List ArgRule) (tr : Option ArgType) (call : PNode) (ns : List PNode) :
    SwapRel f g Eq (arguments ps tr call ns) (Seam.arguments ps tr call ns) := .same _

theorem SwapRel.timezone (ext : Ext) (tz : Option Node) : SwapRel f g Eq (timezone ext tz) (Seam.timezone ext tz) := by
  unfold Seam.timezone
  quiet

variable (hr : SwapRec f g rec rec') (ext : Ext) (call : PNode) (ps : List PNode)
include hr

theorem get_swap : SwapRel f g Eq (getMacro (guardNames f g rec) call ps) (getMacro rec' (swapNode f g call) (swapNodes f g ps)) := by
  unfold getMacro
  simp only [arguments_call, pos_call, posNode_call]
  refine .seq (guard_expand hr ps) fun _ => ?_
  refine .seq (.arguments _ _ _ _) fun _ => ?_
  quiet

theorem raw_swap : SwapRel f g Eq (rawMacro (guardNames f g rec) call ps) (rawMacro rec' (swapNode f g call) (swapNodes f g ps)) := by
  unfold rawMacro
  simp only [swapNode_callNode]
  refine .seq (guard_expand hr ps) fun _ => ?_
  quiet

theorem string_swap : SwapRel f g Eq (stringMacro (guardNames f g rec) call ps) (stringMacro rec' (swapNode f g call) (swapNodes f g ps)) := by
  unfold stringMacro
  simp only [swapNode_callNode]
  refine .seq (guard_expand hr ps) fun _ => ?_
  quiet

theorem number_swap : SwapRel f g Eq (numberMacro (guardNames f g rec) call ps) (numberMacro rec' (swapNode f g call) (swapNodes f g ps)) := by
  unfold numberMacro
  simp only [arguments_call]
  refine .seq (guard_expand hr ps) fun _ => ?_
  refine .seq (.arguments _ _ _ _) fun _ => ?_
  quiet

theorem symbol_swap : SwapRel f g Eq (symbolMacro (guardNames f g rec) call ps) (symbolMacro rec' (swapNode f g call) (swapNodes f g ps)) := by
  unfold symbolMacro
  simp only [arguments_call]
  refine .seq (guard_expand hr ps) fun _ => ?_
  refine .seq (.arguments _ _ _ _) fun _ => ?_
  quiet

theorem embed_swap : SwapRel f g Eq (embedMacro ext (guardNames f g rec) call ps) (embedMacro ext rec' (swapNode f g call) (swapNodes f g ps)) := by
  unfold embedMacro
  simp only [swapNode_callNode, swapNode_site]
  refine .seq (guard_expand hr ps) fun _ => ?_
  quiet

theorem glob_swap : SwapRel f g Eq (globMacro ext (guardNames f g rec) call ps) (globMacro ext rec' (swapNode f g call) (swapNodes f g ps)) := by
  unfold globMacro
  simp only [arguments_call, posNode_call]
  refine .seq (guard_expand hr ps) fun _ => ?_
  refine .seq (.arguments _ _ _ _) fun _ => ?_
  quiet

theorem date_swap : SwapRel f g Eq (dateMacro ext (guardNames f g rec) call ps) (dateMacro ext rec' (swapNode f g call) (swapNodes f g ps)) := by
  unfold dateMacro
  simp only [arguments_call, posNode_call, swapNode_callNode, swapNode_site]
  refine .seq (guard_expand hr ps) fun _ => ?_
  refine .seq (.arguments _ _ _ _) fun _ => ?_
  refine .seq (.same _) fun _ => .seq (.same _) fun _ => .seq (.same _) fun _ => .seq (.timezone ext _) fun _ => ?_
  quiet

theorem timestamp_swap : SwapRel f g Eq (timestampMacro ext (guardNames f g rec) call ps)
    (timestampMacro ext rec' (swapNode f g call) (swapNodes f g ps)) := by
  unfold timestampMacro
  simp only [arguments_call, posNode_call, swapNode_callNode, swapNode_site]
  refine .seq (guard_expand hr ps) fun _ => ?_
  refine .seq (.arguments _ _ _ _) fun _ => ?_
  refine .seq (.same _) fun _ => .seq (.same _) fun _ => .seq (.same _) fun _ => .seq (.timezone ext _) fun _ => ?_
  quiet

theorem join_swap : SwapRel f g Eq (joinMacro (guardNames f g rec) call ps) (joinMacro rec' (swapNode f g call) (swapNodes f g ps)) := by
  unfold joinMacro
  simp only [arguments_call, posNode_call, swapNode_callNode]
  refine .seq (guard_expand hr ps) fun _ => ?_
  refine .seq (.arguments _ _ _ _) fun _ => ?_
  quiet

theorem concat_swap : SwapRel f g Eq (concatMacro (guardNames f g rec) call ps) (concatMacro rec' (swapNode f g call) (swapNodes f g ps)) := by
  unfold concatMacro
  simp only [arguments_call, swapNode_callNode]
  refine .seq (guard_expand hr ps) fun _ => ?_
  refine .seq (.arguments _ _ _ _) fun _ => ?_
  quiet

theorem log_swap : SwapRel f g Eq (logMacro (guardNames f g rec) call ps) (logMacro rec' (swapNode f g call) (swapNodes f g ps)) := by
  unfold logMacro
  simp only [swapNode_site]
  refine .seq (guard_expand hr ps) fun _ => ?_
  quiet

theorem osEnv_swap : SwapRel f g Eq (osEnvMacro ext (guardNames f g rec) call ps) (osEnvMacro ext rec' (swapNode f g call) (swapNodes f g ps)) := by
  unfold osEnvMacro
  simp only [swapNode_site]
  refine .seq (guard_expand hr ps) fun _ => ?_
  quiet

theorem format_swap : SwapRel f g Eq (formatMacro ext (guardNames f g rec) call ps) (formatMacro ext rec' (swapNode f g call) (swapNodes f g ps)) := by
  unfold formatMacro
  simp only [swapNode_site, swapNode_callNode]
  refine .seq (guard_expand hr ps) fun _ => ?_
  quiet

theorem sortKeys_swap (keyFn : Str) (keySite : Site) : ∀ ns : List PNode,
    SwapRel f g Eq (sortKeys (guardNames f g rec) call keyFn keySite ns) (sortKeys rec' (swapNode f g call) keyFn keySite ns)
  | [] => .pure rfl
  | n :: ns => by
    simp only [sortKeys]
    refine (SwapRel.rethrow _ _ (guard_invoke hr keyFn call [n])).bind fun a b hab => ?_
    obtain ⟨rfl, _⟩ := hab
    split
    · exact .fail _ _
    · split
      · exact .fail _ _
      · exact .seq (sortKeys_swap keyFn keySite ns) fun _ => .pure rfl
    · exact .fail _ _

theorem sort_swap : SwapRel f g Eq (sortMacro ext (guardNames f g rec) call ps) (sortMacro ext rec' (swapNode f g call) (swapNodes f g ps)) := by
  unfold sortMacro
  simp only [arguments_call, pos_call, swapNode_site, swapNode_lw]
  refine .seq (guard_expand hr ps) fun _ => ?_
  refine .seq (.arguments _ _ _ _) fun _ => ?_
  refine .seq (.same _) fun x => .seq (.same _) fun _ => .seq (.same _) fun _ => ?_
  cases x with
  | list ns s e w => exact .seq (sortKeys_swap hr call _ _ ns) fun _ => .pure rfl
  | _ => exact .fail _ _

theorem include_swap : SwapRel f g (NodesRel f g) (includeMacro ext (strictNames f g rec) call ps)
    (includeMacro ext rec' (swapNode f g call) (swapNodes f g ps)) := by
  unfold includeMacro
  simp only [swapNode_site, swapNode_lw]
  have h1 := expandNodes_of (strict_swap hr) ps
  rw [← swapNodes_map] at h1
  refine .seq (h1.mono fun _ _ h => h.1.symm) fun a => ?_
  split
  · split
    · exact .fail _ _
    · split
      · exact .fail _ _
      · refine .seq .tick fun no => ?_
        split
        · exact .fail _ _
        · exact .panic
        · exact .diverge
        · rename_i tree _
          have h2 := expandNodes_of (F := id) (strict_node hr) tree
          rw [List.map_id] at h2
          refine h2.bind fun x y hxy => ?_
          refine .pure ?_
          obtain ⟨rfl, hx⟩ := hxy
          show _ = _
          rw [← swapNodes_first, hx]
  · exact .fail _ _

end texts

section run
variable {f g : Str} (hf : OwnName f) (hg : OwnName g)
include hf hg

theorem moves_swap {rec rec' : Rec} (hr : SwapRec f g rec rec') (ext : Ext) (b : Builtin) (hb : movesNodes b = true) (call : PNode)
    (ps : List PNode) (ht : (b == .ifdef && textCondition ps) = false) :
    SwapRel f g (NodesRel f g) (runBuiltin ext rec b call ps) (runBuiltin ext rec' b (swapNode f g call) (swapNodes f g ps)) := by
  cases b <;> first | cases hb | skip
  · exact define_swap hf hg hr call ps
  · exact matchMacro_swap hf hg hr call ps
  · exact ifdef_swap hf hg hr call ps (by simpa using ht)
  · exact expandNodes_swap hr ps
  · exact for_swap hf hg hr call ps
  · exact reverse_swap hr call ps
  · exact higher_swap hr call ps _ _ fun x ns => mapLoop_swap hr call x ns
  · exact higher_swap hr call ps _ _ fun x ns => filterLoop_swap hr call x ns
  · refine (expandNodes_swap hr ps).bind fun a b hb => ?_
    cases hb
    exact .pure (swapNodes_splat a)
  · refine (expandNodes_swap hr ps).bind fun a b hb => ?_
    cases hb
    cases call <;> first | exact .panic | exact .pure rfl
  · refine (expandNodes_swap hr ps).bind fun a b hb => ?_
    cases hb
    exact .pure (swapNodes_first _ a)
  · exact higher_swap hr call ps (fun x ns => rec (.invoke x call ns)) (fun x ns => rec' (.invoke x (swapNode f g call) ns))
      fun x ns => hr (.invoke x call ns)
  · exact lambda_swap hf hg ext call ps

omit hf hg in
theorem texts_swap {rec rec' : Rec} (hr : SwapRec f g rec rec') (ext : Ext) (b : Builtin) (h1 : movesNodes b = false)
    (h2 : makesNames b = false) (h3 : (b == .include_) = false) (call : PNode) (ps : List PNode) :
    SwapRel f g Eq (runBuiltin ext (guardNames f g rec) b call ps) (runBuiltin ext rec' b (swapNode f g call) (swapNodes f g ps)) := by
  cases b <;> first | exact absurd h1 (by decide) | exact absurd h2 (by decide) | exact absurd h3 (by decide) | skip
  · exact get_swap hr call ps
  · exact raw_swap hr call ps
  · exact string_swap hr call ps
  · exact number_swap hr call ps
  · exact symbol_swap hr call ps
  · exact embed_swap hr ext call ps
  · exact glob_swap hr ext call ps
  · exact sort_swap hr ext call ps
  · exact date_swap hr ext call ps
  · exact timestamp_swap hr ext call ps
  · exact join_swap hr call ps
  · exact concat_swap hr call ps
  · exact log_swap hr call ps
  · exact format_swap hr ext call ps
  · exact osEnv_swap hr ext call ps

theorem swapRun_swap (ext : Ext) : ∀ fuel : Nat, SwapRec f g (swapRun ext f g fuel) (run ext fuel)
  | 0, _ => by unfold swapRun; exact .diverge
  | fuel + 1, .node n => by
    simp only [swapRun]
    exact expandNode_swap hf hg (swapRun_swap ext fuel) n
  | fuel + 1, .invoke name call ps => by
    have ih := swapRun_swap ext fuel
    simp only [swapRun, swapCall, run, step, expandInvocation]
    rw [swapName_builtin hf hg]
    rcases builtin? name with _ | b
    · exact userMacro_swap hf hg ih name call ps
    · dsimp only
      by_cases h1 : (makesNames b || (b == .ifdef && textCondition ps)) = true
      · rw [if_pos h1]; exact .diverge
      · rw [if_neg h1]
        rw [Bool.not_eq_true, Bool.or_eq_false_iff] at h1
        by_cases h2 : movesNodes b = true
        · rw [if_pos h2]
          exact moves_swap hf hg ih ext b h2 call ps h1.2
        · rw [if_neg h2]
          by_cases h3 : (b == .include_) = true
          · rw [if_pos h3]
            have : b = .include_ := by simpa using h3
            subst this
            exact include_swap ih ext call ps
          · rw [if_neg h3]
            exact (texts_swap ih ext b (by simpa using h2) h1.1 (by simpa using h3) call ps).drop.mono fun _ _ h => h.nodes

/-- Expansion with the names exchanged. -/
theorem swapEvals_evals {ext : Ext} {ns : List PNode} {s t : St} {r : Res (List PNode)} (h : SwapEvals ext f g ns s r t) :
    Evals ext (swapNodes f g ns) (swapSt f g s) (swapRes f g r) (swapSt f g t) := by
  obtain ⟨hd, fuel, e⟩ := h
  have h1 := expandNodes_swap (swapRun_swap hf hg ext fuel) ns s
  rw [e] at h1
  obtain ⟨h1, h2⟩ := h1 hd
  refine ⟨?_, fuel, ?_⟩
  · cases r <;> first | exact (hd rfl).elim | (intro h; cases h)
  · generalize expandNodes (run ext fuel) (swapNodes f g ns) (swapSt f g s) = x at h1 h2
    obtain ⟨x1, x2⟩ := x
    cases h1
    cases r <;> cases x1 <;> first | exact h2.elim | exact (hd rfl).elim | (cases h2; rfl) | rfl

end run

/-! ## Runs of the expander -/

theorem dropNames_le {f g : Str} {m m' : M (List PNode)} (h : Le m m') : Le (dropNames f g m) m' := by
  intro s
  unfold dropNames
  rcases h s with h | h
  · left
    generalize m s = x at h
    obtain ⟨x, t⟩ := x
    cases h
    rfl
  · rw [← h]
    rcases m s with ⟨x, t⟩
    cases x with
    | ok ns =>
      dsimp only
      split
      · exact .inr rfl
      · exact .inl rfl
    | _ => exact .inr rfl

theorem guardNames_le {f g : Str} {rec rec' : Rec} (h : LeRec rec rec') : LeRec (guardNames f g rec) rec'
  | .node n => dropNames_le (h (.node n))
  | .invoke name call ps => by
    rw [guardNames]
    split
    · exact dropNames_le (h (.invoke name call ps))
    · exact fun _ => .inl rfl

theorem strictNames_le {f g : Str} {rec rec' : Rec} (h : LeRec rec rec') : LeRec (strictNames f g rec) rec'
  | .node n => by
    rw [strictNames]
    split
    · exact guardNames_le h (.node n)
    · exact fun _ => .inl rfl
  | .invoke name call ps => fun _ => .inl rfl

theorem swapRun_le {ext : Ext} {f g : Str} : ∀ fuel, LeRec (swapRun ext f g fuel) (run ext fuel)
  | 0, _ => fun _ => .inl rfl
  | fuel + 1, .node n => step_le (swapRun_le fuel) (.node n)
  | fuel + 1, .invoke name call ps => by
    rw [swapRun]
    split
    · exact step_le (swapRun_le fuel) (.invoke name call ps)
    · split
      · exact fun _ => .inl rfl
      · split
        · exact step_le (swapRun_le fuel) (.invoke name call ps)
        · split
          · exact step_le (strictNames_le (swapRun_le fuel)) (.invoke name call ps)
          · exact dropNames_le (step_le (guardNames_le (swapRun_le fuel)) (.invoke name call ps))

theorem swap_evals {ext : Ext} {f g : Str} {ns : List PNode} {s s' : St} {r : Res (List PNode)} (h : SwapEvals ext f g ns s r s') :
    Evals ext ns s r s' := by
  obtain ⟨hd, fuel, h⟩ := h
  refine ⟨hd, fuel, ?_⟩
  rcases expandNodes_le (swapRun_le (ext := ext) fuel) ns s with hx | hx
  · rw [h] at hx; exact absurd hx hd
  · rw [← hx, h]

theorem swap_ok_of {ext : Ext} {f g : Str} {ns : List PNode} {s : St} (fuel : Nat) (p : List PNode → St → Bool)
    (h : (expandNodes (swapRun ext f g fuel) ns s).1.okP (fun out => p out (expandNodes (swapRun ext f g fuel) ns s).2) = true) :
    ∃ out t, SwapEvals ext f g ns s (.ok out) t ∧ p out t = true := by
  obtain ⟨a, h1, h2⟩ := Res.okP_elim h
  exact ⟨a, _, ⟨by simp, fuel, Prod.ext h1 rfl⟩, h2⟩

/-! ## States and orders -/

theorem swapSt_init (f g : Str) (order : Order) : swapSt f g (St.init order) = St.init (swapOrder f g order) := rfl

theorem swapOrder_fair {f g : Str} (hf : OwnName f) (hg : OwnName g) {order : Order} (h : Fair order) : Fair (swapOrder f g order) := by
  intro i l
  have := (h i (swapMap f g l)).map fun e => (swapName f g e.1, swapNode f g e.2)
  refine this.trans ?_
  show (swapMap f g (swapMap f g l)).Perm l
  rw [swapMap_swap hf hg]

theorem hasName_plain {f x : Str} (h1 : x.head? ≠ some '%') (h2 : x.head? ≠ some '&') : hasName f x = (x == f) := by
  cases x with
  | nil => rw [hasName] <;> simp
  | cons c x =>
    rw [hasName]
    · intro y e; cases e; exact h1 rfl
    · intro y e; cases e; exact h2 rfl

theorem rehasName_plain {f g x : Str} (h1 : x.head? ≠ some '%') (h2 : x.head? ≠ some '&') :
    renamed f g x = if x = f then g else x := by
  cases x with
  | nil => rw [renamed] <;> simp
  | cons c x =>
    rw [renamed]
    · intro y e; cases e; exact h1 rfl
    · intro y e; cases e; exact h2 rfl

theorem swapName_eq_iff {f g : Str} (hfg : f ≠ g) : ∀ x : Str, swapName f g x = x ↔ hasName f x = false ∧ hasName g x = false
  | [] => by
    rw [swapName_plain (by simp) (by simp), hasName_plain (by simp) (by simp), hasName_plain (by simp) (by simp)]
    generalize ([] : Str) = y
    by_cases h1 : y = f
    · rw [if_pos h1]; simp [h1, hfg.symm]
    · by_cases h2 : y = g
      · rw [if_neg h1, if_pos h2]
        simp [h2, hfg]
      · rw [if_neg h1, if_neg h2]; simp [h1, h2]
  | c :: x => by
    have ih := swapName_eq_iff hfg x
    by_cases h1 : c = '%'
    · subst h1; rw [swapName, hasName, hasName]; simpa using ih
    · by_cases h2 : c = '&'
      · subst h2; rw [swapName, hasName, hasName]; simpa using ih
      · have a1 : (c :: x).head? ≠ some '%' := by simpa using h1
        have a2 : (c :: x).head? ≠ some '&' := by simpa using h2
        rw [swapName_plain a1 a2, hasName_plain a1 a2, hasName_plain a1 a2]
        generalize c :: x = y
        by_cases h1 : y = f
        · rw [if_pos h1]; simp [h1, hfg.symm]
        · by_cases h2 : y = g
          · rw [if_neg h1, if_pos h2]
            simp [h2, hfg]
          · rw [if_neg h1, if_neg h2]; simp [h1, h2]

theorem renamed_swap {f g : Str} : ∀ {x : Str}, hasName g x = false → renamed f g x = swapName f g x
  | [], h => by
    rw [hasName_plain (by simp) (by simp)] at h
    rw [swapName_plain (by simp) (by simp), rehasName_plain (by simp) (by simp)]
    have : ([] : Str) ≠ g := by simpa using h
    rw [if_neg this]
  | c :: x, h => by
    by_cases h1 : c = '%'
    · subst h1; rw [hasName] at h; rw [swapName, renamed, renamed_swap h]
    · by_cases h2 : c = '&'
      · subst h2; rw [hasName] at h; rw [swapName, renamed, renamed_swap h]
      · have a1 : (c :: x).head? ≠ some '%' := by simpa using h1
        have a2 : (c :: x).head? ≠ some '&' := by simpa using h2
        rw [hasName_plain a1 a2] at h
        rw [swapName_plain a1 a2, rehasName_plain a1 a2]
        have : c :: x ≠ g := by simpa using h
        rw [if_neg this]

mutual
theorem renameNode_swap {f g : Str} : ∀ {n : PNode}, occurs g n = false → renameNode f g n = swapNode f g n
  | .symbol a, h => by simp only [renameNode, swapNode, renamed_swap (show hasName g a.value = false from h)]
  | .list ns s e w, h => by simp only [renameNode, swapNode, renameNodes_swap (show occurss g ns = false from h)]
  | .attr k n s w, h => by
    simp only [occurs, Bool.or_eq_false_iff] at h
    simp only [renameNode, swapNode, renameNode_swap h.2, renamed_swap h.1]
  | .string _, _ => rfl
  | .number _, _ => rfl
  | .raw _, _ => rfl
theorem renameNodes_swap {f g : Str} : ∀ {ns : List PNode}, occurss g ns = false → renameNodes f g ns = swapNodes f g ns
  | [], _ => rfl
  | n :: ns, h => by
    simp only [occurss, Bool.or_eq_false_iff] at h
    simp only [renameNodes, swapNodes, renameNode_swap h.1, renameNodes_swap h.2]
end

mutual
theorem nameless_occurs {f g : Str} (hfg : f ≠ g) : ∀ {n : PNode}, occurs f n = false → occurs g n = false → swapNode f g n = n
  | .symbol a, h1, h2 => by
    obtain ⟨v, s, w⟩ := a
    simp only [swapNode, (swapName_eq_iff hfg v).2 ⟨h1, h2⟩]
  | .list ns s e w, h1, h2 => by
    simp only [swapNode, nameless_occurss hfg (show occurss f ns = false from h1) (show occurss g ns = false from h2)]
  | .attr k n s w, h1, h2 => by
    simp only [occurs, Bool.or_eq_false_iff] at h1 h2
    simp only [swapNode, nameless_occurs hfg h1.2 h2.2, (swapName_eq_iff hfg k).2 ⟨h1.1, h2.1⟩]
  | .string _, _, _ => rfl
  | .number _, _, _ => rfl
  | .raw _, _, _ => rfl
theorem nameless_occurss {f g : Str} (hfg : f ≠ g) : ∀ {ns : List PNode}, occurss f ns = false → occurss g ns = false →
    swapNodes f g ns = ns
  | [], _, _ => rfl
  | n :: ns, h1, h2 => by
    simp only [occurss, Bool.or_eq_false_iff] at h1 h2
    simp only [swapNodes, nameless_occurs hfg h1.1 h2.1, nameless_occurss hfg h1.2 h2.2]
end

theorem ownCard : OwnName (str! "card") ∧ OwnName (str! "box") :=
  ⟨⟨rfl, by decide, by decide, by decide⟩, ⟨rfl, by decide, by decide, by decide⟩⟩

end Seam
