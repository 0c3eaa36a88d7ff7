import Verif.Spec.Sayable
import Verif.Lemmas.Dom
import Verif.Lemmas.Written
import Verif.Props.Tree
import Verif.Lemmas.Eval

/-! Each document has a program. -/

namespace Seam
open Spec

/-! ## Values -/

theorem decoded_esc {t v : Str} (h : EscText t v) : decoded 0 t = v := by
  induction h with
  | nil => rfl
  | plain c t v hc _ ih =>
    have : (entities.find? fun e => e.2.isPrefixOf (c :: t)) = none := by
      have h1 := hc _ (List.mem_of_elem_eq_true (a := ('&', str! "&amp;")) (as := entities) (by decide))
      have h2 : (('&' : Char) == c) = false := by rw [beq_eq_false_iff_ne]; exact fun e => h1 e.symm
      simp [entities, List.find?, List.isPrefixOf, h2]
    rw [decoded, this, ih]
  | entity c e t v he _ ih =>
    simp only [entities, List.mem_cons, Prod.mk.injEq, List.not_mem_nil, or_false] at he
    rcases he with ⟨rfl, rfl⟩ | ⟨rfl, rfl⟩ | ⟨rfl, rfl⟩ | ⟨rfl, rfl⟩ | ⟨rfl, rfl⟩ <;> rw [← ih] <;> rfl

theorem esc_noQuote {t v : Str} (h : EscText t v) : '"' ∉ t := by
  induction h with
  | nil => simp
  | plain c t v hc _ ih =>
    have h1 := hc _ (List.mem_of_elem_eq_true (a := ('"', str! "&quot;")) (as := entities) (by decide))
    intro h
    rcases List.mem_cons.1 h with h | h
    · exact h1 h.symm
    · exact ih h
  | entity c e t v he _ ih =>
    intro h
    rcases List.mem_append.1 h with h | h
    · simp only [entities, List.mem_cons, Prod.mk.injEq, List.not_mem_nil, or_false] at he
      rcases he with ⟨rfl, rfl⟩ | ⟨rfl, rfl⟩ | ⟨rfl, rfl⟩ | ⟨rfl, rfl⟩ | ⟨rfl, rfl⟩ <;> revert h <;> decide
    · exact ih h

theorem backslashed_cons (c : Char) (v : Str) :
    backslashed (c :: v) = (if c = '"' ∨ c = '\\' then ['\\', c] else [c]) ++ backslashed v := rfl

theorem body_backslashed : ∀ v : Str, Body q1 (backslashed v)
  | [] => .nil
  | c :: v => by
    rw [backslashed_cons]
    split
    · exact .esc c _ (body_backslashed v)
    · rename_i h
      refine .plain c _ (fun e => h (.inr e)) ?_ (body_backslashed v)
      rintro ⟨r, hr⟩
      simp only [q1, List.cons_append, List.nil_append, List.cons.injEq] at hr
      exact h (.inl hr.1.symm)

/-- A text as a string literal. -/
def literally (v : Str) : Str := '"' :: backslashed v ++ ['"']

/-! ## Trees -/

/-- Attributes as nodes. -/
inductive SaysAttrs : List (Str × Str) → List PNode → Prop
  | nil : SaysAttrs [] []
  | cons (k v : Str) (a : Node) (s : Site) (as : List (Str × Str)) (ns : List PNode) : a.value = escapeXml v → SaysAttrs as ns →
      SaysAttrs ((k, v) :: as) (.attr k (.string a) s [' '] :: ns)

mutual
/-- A node for a part of a document, with the whitespace `w` before it. -/
inductive Says : Dom → Str → PNode → Prop
  | char (c : Char) (w : Str) (a : Node) : a.value = [c] → a.lw = w → Says (.char c) w (.string a)
  | elem (name : Str) (as : List (Str × Str)) (inner : List Dom) (w : Str) (h : Node) (attrs kids : List PNode) (s : Site) (e : Token) :
      h.value = name → SaysAttrs as attrs → SaysAll inner [' '] kids → e.lw = [] →
      Says (.elem name as inner) w (.list (.symbol h :: (attrs ++ kids)) s e w)
/-- Nodes for a document, with whitespace before the first. -/
inductive SaysAll : List Dom → Str → List PNode → Prop
  | nil (w : Str) : SaysAll [] w []
  | cons (x : Dom) (xs : List Dom) (w : Str) (n : PNode) (ns : List PNode) : Says x w n → SaysAll xs [] ns →
      SaysAll (x :: xs) w (n :: ns)
end

/-- The tree for an attribute. -/
def sayAttr (p : Str × Str) : PNode := .attr p.1 (.string ⟨escapeXml p.2, default, [' ']⟩) default [' ']

mutual
/-- The tree for a part of a document. -/
def sayNode (w : Str) : Dom → PNode
  | .char c => .string ⟨[c], default, w⟩
  | .elem name as inner => .list (.symbol ⟨name, default, []⟩ :: (as.map sayAttr ++ sayNodes [' '] inner)) default default w
  | .decl _ => .list [] default default w
/-- The tree for a document. -/
def sayNodes (w : Str) : List Dom → List PNode
  | [] => []
  | x :: xs => sayNode w x :: sayNodes [] xs
end

theorem sayNode_lw (w : Str) (x : Dom) : (sayNode w x).lw = w := by
  cases x <;> simp [sayNode, PNode.lw]

theorem printables_cons {u : Unescape} {dbg : Str → Str} {n : PNode} {ns : List PNode} (h : Printable u dbg n) (hs : Printables u dbg ns)
    (ha : ∀ m ∈ ns.head?, Apart dbg n m) : Printables u dbg (n :: ns) := by
  cases ns with
  | nil => exact .one _ h
  | cons m ms => exact .cons _ _ _ h (ha m rfl) hs

theorem blank_blanks : Blanks [' '] := by intro c hc; simp at hc; subst hc; rfl
theorem nil_blanks : Blanks ([] : Str) := by intro c hc; cases hc

theorem printable_attr {u : Unescape} (hu : UnescapesQuotes u) {p : Str × Str} (hk : ∀ c ∈ p.1, identChar c = true) :
    Printable u literally (sayAttr p) := by
  refine .attr _ _ _ _ blank_blanks hk (.string _ _ blank_blanks rfl (body_backslashed _) (hu _)) ?_
  intro h
  exact absurd h (by simp [PNode.lw])

theorem printables_attrs {u : Unescape} (hu : UnescapesQuotes u) {ks : List PNode} (hks : Printables u literally ks)
    (hh : ∀ m ∈ ks.head?, m.lw = [' ']) : ∀ {as : List (Str × Str)}, (∀ a ∈ as, ∀ c ∈ a.1, identChar c = true) →
    Printables u literally (as.map sayAttr ++ ks) ∧ ∀ m ∈ (as.map sayAttr ++ ks).head?, m.lw = [' ']
  | [], _ => ⟨hks, hh⟩
  | p :: as, h => by
    obtain ⟨h1, h2⟩ := printables_attrs hu hks hh (as := as) fun a ha => h a (List.mem_cons_of_mem _ ha)
    refine ⟨printables_cons (printable_attr hu (h p (List.mem_cons_self ..))) h1 ?_, ?_⟩
    · intro m hm e
      rw [h2 m hm] at e
      cases e
    · intro m hm
      cases hm
      rfl

mutual
theorem printable_say {u : Unescape} (hu : UnescapesQuotes u) {d : Dialect} {sp : Str → Bool} : ∀ {x : Dom} (w : Str), Blanks w →
    Sayable d sp x → Printable u literally (sayNode w x)
  | _, w, hw, .char c => by
    rw [sayNode]
    exact .string _ _ hw rfl (body_backslashed _) (hu _)
  | _, w, hw, .elem name as inner _ h2 _ _ _ h6 h7 => by
    rw [sayNode]
    obtain ⟨g1, g2⟩ := printables_attrs hu (printables_say hu [' '] blank_blanks h7)
      (by
        intro m hm
        cases inner with
        | nil => simp [sayNodes] at hm
        | cons x xs =>
          simp only [sayNodes, List.head?_cons, Option.mem_def, Option.some.injEq] at hm
          subst hm
          exact sayNode_lw _ _)
      (fun a ha => (h6 a ha).2)
    refine .list _ _ _ _ hw nil_blanks (printables_cons (.symbol _ nil_blanks h2) g1 ?_)
    intro m hm e
    rw [g2 m hm] at e
    cases e
theorem printables_say {u : Unescape} (hu : UnescapesQuotes u) {d : Dialect} {sp : Str → Bool} : ∀ {xs : List Dom} (w : Str), Blanks w →
    Sayables d sp xs → Printables u literally (sayNodes w xs)
  | _, w, hw, .nil => by rw [sayNodes]; exact .nil
  | _, w, hw, .cons x xs h hs => by
    have h1 := printable_say hu w hw h
    have h2 := printables_say hu [] nil_blanks hs
    rw [sayNodes]
    refine printables_cons h1 h2 ?_
    intro m _ _
    cases h with
    | char c =>
      simp only [sayNode, endsInWord, endsInEmptyString, literally, Bool.false_eq_true, false_and, not_false_eq_true,
        true_and]
      rintro ⟨e, _⟩
      have e := of_decide_eq_true e
      rw [backslashed_cons] at e
      split at e <;> simp [backslashed] at e
    | elem name as inner _ _ _ _ _ _ _ => simp [sayNode, endsInWord, endsInEmptyString]
end

theorem sameNodes_append : ∀ {as bs cs : List PNode}, SameNodes (as ++ bs) cs →
    ∃ as' bs', cs = as' ++ bs' ∧ SameNodes as as' ∧ SameNodes bs bs'
  | [], bs, cs, h => ⟨[], cs, rfl, trivial, h⟩
  | a :: as, bs, [], h => h.elim
  | a :: as, bs, c :: cs, h => by
    obtain ⟨h1, h2⟩ := h
    obtain ⟨as', bs', rfl, g1, g2⟩ := sameNodes_append h2
    exact ⟨c :: as', bs', rfl, ⟨h1, g1⟩, g2⟩

theorem says_attrs : ∀ {as : List (Str × Str)} {ns : List PNode}, SameNodes (as.map sayAttr) ns → SaysAttrs as ns
  | [], [], _ => .nil
  | [], _ :: _, h => h.elim
  | _ :: _, [], h => h.elim
  | (k, v) :: as, n :: ns, h => by
    obtain ⟨h1, h2⟩ := h
    cases n with
    | attr k' m s w =>
      obtain ⟨e1, e2, e3⟩ := h1
      cases m with
      | string b =>
        obtain ⟨e4, e5⟩ := e2
        simp only at e1 e3 e4
        subst e1
        subst e3
        exact .cons _ _ _ _ _ _ e4.symm (says_attrs h2)
      | _ => simp [SameNode] at e2
    | _ => simp [sayAttr, SameNode] at h1

mutual
theorem says_same {d : Dialect} {sp : Str → Bool} : ∀ {x : Dom} {w : Str} {n : PNode}, Sayable d sp x → SameNode (sayNode w x) n → Says x w n
  | _, w, n, .char c, h => by
    cases n with
    | string b =>
      simp only [sayNode, SameNode] at h
      exact .char c w b h.1.symm h.2.symm
    | _ => simp [sayNode, SameNode] at h
  | _, w, n, .elem name as inner _ _ _ _ _ _ h7, h => by
    cases n with
    | list ns s e w' =>
      simp only [sayNode, SameNode] at h
      obtain ⟨h1, h2, h3⟩ := h
      cases ns with
      | nil => exact h1.elim
      | cons m ms =>
        obtain ⟨h4, h5⟩ := h1
        cases m with
        | symbol b =>
          obtain ⟨as', bs', rfl, g1, g2⟩ := sameNodes_append h5
          subst h3
          exact .elem name as inner w b as' bs' s e h4.1.symm (says_attrs g1) (saysAll_same h7 g2) h2.symm
        | _ => simp [SameNode] at h4
    | _ => simp [sayNode, SameNode] at h
theorem saysAll_same {d : Dialect} {sp : Str → Bool} : ∀ {xs : List Dom} {w : Str} {ns : List PNode}, Sayables d sp xs →
    SameNodes (sayNodes w xs) ns → SaysAll xs w ns
  | _, w, [], .nil, _ => .nil w
  | _, w, _ :: _, .nil, h => by rw [sayNodes] at h; exact h.elim
  | _, w, [], .cons x xs hx hxs, h => by rw [sayNodes] at h; exact h.elim
  | _, w, n :: ns, .cons x xs hx hxs, h => by
    rw [sayNodes] at h
    obtain ⟨h1, h2⟩ := h
    exact .cons x xs w n ns (says_same hx h1) (saysAll_same hxs h2)
end

/-- There is a text that is read as a tree for the document. -/
theorem says_source {u : Unescape} (hu : UnescapesQuotes u) {d : Dialect} {sp : Str → Bool} {xs : List Dom} (h : Sayables d sp xs)
    (path : Str) (id : Nat) : ∃ ns, parse u { path := path, id := id, code := sexpNodes literally (sayNodes [] xs) } = .ok ns ∧ SaysAll xs [] ns := by
  obtain ⟨ns, h1, h2⟩ := C14_sexp_reads_back u literally _ (printables_say hu [] nil_blanks h) path id
  exact ⟨ns, h1, saysAll_same h h2⟩

/-! ## What the tree is -/

theorem says_lw {x : Dom} {w : Str} {n : PNode} (h : Says x w n) : n.lw = w ∧ gap n = w := by
  cases h with
  | char c w a _ h => exact ⟨h, h⟩
  | elem => exact ⟨rfl, rfl⟩

theorem says_noAttr {x : Dom} {w : Str} {n : PNode} (h : Says x w n) : NoAttr n := by
  cases h <;> intro _ _ _ _ e <;> cases e

theorem saysAll_noAttr {xs : List Dom} {w : Str} {ns : List PNode} (h : SaysAll xs w ns) : ∀ n ∈ ns.head?, NoAttr n := by
  intro n hn
  cases h with
  | nil => cases hn
  | cons x xs w n ns h _ => cases hn; exact says_noAttr h

theorem says_gap {x : Dom} {w : Str} {n : PNode} (h : Says x w n) (v : Str) : Says x v (withGap v n) := by
  cases h with
  | char c w a ha _ => exact .char c v { a with lw := v } ha rfl
  | elem name as inner w h attrs kids s e h0 h1 h2 h3 => exact .elem name as inner v h attrs kids s e h0 h1 h2 h3

theorem saysAll_settled {xs : List Dom} {ns ms : List PNode} (h : SaysAll xs [' '] ns) (hs : Settled ns ms) : SaysAll xs [] ms := by
  cases h with
  | nil => cases hs; exact .nil []
  | cons x xs w n ns h hs' =>
    cases hs with
    | keep _ _ hn => rw [(says_lw h).2] at hn; simp at hn
    | drop _ _ hn => exact .cons _ _ _ _ _ (says_gap h []) hs'

theorem saysAttrs_gives {as : List (Str × Str)} {ns : List PNode} (h : SaysAttrs as ns) :
    GivesAttrs ns (as.map fun p => (p.1, escapeXml p.2)) := by
  induction h with
  | nil => exact .nil
  | cons k v a s as ns hv _ ih =>
    rw [List.map_cons]
    simp only
    rw [← hv]
    exact .cons _ _ _ _ _ _ _ (.inr (.inr (.inl rfl))) ih

theorem givesAttrs_unique : ∀ {ns : List PNode} {as bs : List (Str × Str)}, GivesAttrs ns as → GivesAttrs ns bs → as = bs
  | _, _, _, .nil, .nil => rfl
  | _, _, _, .cons k v a s w ns as ha h, .cons _ _ b _ _ _ bs hb h' => by
    have : a = b := by rcases ha with rfl | rfl | rfl | rfl <;> rcases hb with e | e | e | e <;> cases e <;> rfl
    rw [this, givesAttrs_unique h h']

theorem saysAttrs_ordinary {d : Dialect} {sp : Str → Bool} {as : List (Str × Str)} {ns ks : List PNode} (h : SaysAttrs as ns)
    (hk : ∀ a ∈ as, NameOk a.1) (hs : Ordinaries d sp ks) : Ordinaries d sp (ns ++ ks) := by
  induction h with
  | nil => exact hs
  | cons k v a s as ns hv _ ih =>
    refine .cons _ _ (.attr _ _ _ _ blank_blanks (hk (k, v) (List.mem_cons_self ..)) ?_) (ih fun a ha => hk a (List.mem_cons_of_mem _ ha))
    intro b hb
    rcases hb with e | e | e | e <;> cases e
    rw [hv]
    exact esc_noQuote (escapeXml_escText v)

mutual
theorem says_ordinary {d : Dialect} {sp : Str → Bool} : ∀ {x : Dom} {w : Str} {n : PNode}, Blanks w → Sayable d sp x → Says x w n →
    Ordinary d sp n
  | _, w, n, hw, hx, h => by
    match hx with
    | .char _ =>
      cases h with
      | char _ _ a _ h => exact .string a (by rw [h]; exact hw)
    | .elem _ _ _ h1 _ _ h4 _ h6 h7 =>
      cases h with
      | elem _ _ _ w h attrs kids s e g0 g1 g2 g3 =>
        exact .elem h _ s e w hw (by rw [g3]; exact nil_blanks) (by rw [g0]; exact h1) (by rw [g0]; exact h4)
          (saysAttrs_ordinary g1 (fun a ha => (h6 a ha).1) (saysAll_ordinary blank_blanks h7 g2))
theorem saysAll_ordinary {d : Dialect} {sp : Str → Bool} : ∀ {xs : List Dom} {w : Str} {ns : List PNode}, Blanks w → Sayables d sp xs →
    SaysAll xs w ns → Ordinaries d sp ns
  | _, _, _, _, .nil, .nil _ => .nil
  | _, _, _, hw, .cons _ _ hx hxs, .cons _ _ _ n ns h hs =>
    .cons _ _ (says_ordinary hw hx h) (saysAll_ordinary nil_blanks hxs hs)
end

theorem macrosFree_append {as bs : List PNode} (h : MacrosFree as) (h' : MacrosFree bs) : MacrosFree (as ++ bs) :=
  match h with
  | .nil => h'
  | .cons _ _ h1 h2 => .cons _ _ h1 (macrosFree_append h2 h')

theorem saysAttrs_free {as : List (Str × Str)} {ns : List PNode} (h : SaysAttrs as ns) : MacrosFree ns := by
  induction h with
  | nil => exact .nil
  | cons k v a s as ns hv _ ih => exact .cons _ _ (.attr _ _ _ _ (.string _)) ih

mutual
theorem says_free {d : Dialect} {sp : Str → Bool} : ∀ {x : Dom} {w : Str} {n : PNode}, Sayable d sp x → Says x w n → MacroFree n
  | _, _, _, .char _, .char _ _ a _ _ => .string a
  | _, _, _, .elem _ _ _ _ _ h3 _ _ _ h7, .elem _ _ _ w h attrs kids s e g0 g1 g2 _ =>
    .list _ _ _ _ (.cons _ _ (.symbol h (by intro name e; rw [← g0, e] at h3; exact h3 rfl))
      (macrosFree_append (saysAttrs_free g1) (saysAll_free h7 g2)))
theorem saysAll_free {d : Dialect} {sp : Str → Bool} : ∀ {xs : List Dom} {w : Str} {ns : List PNode}, Sayables d sp xs →
    SaysAll xs w ns → MacrosFree ns
  | _, _, _, .nil, .nil _ => .nil
  | _, _, _, .cons _ _ hx hxs, .cons _ _ _ n ns h hs => .cons _ _ (says_free hx h) (saysAll_free hxs hs)
end

/-! ## What the tree stands for -/

theorem split_attrs : ∀ {as as' ks ks' : List PNode}, (∀ n ∈ as, n.isAttr = true) → (∀ n ∈ as', n.isAttr = true) →
    (∀ n ∈ ks.head?, NoAttr n) → (∀ n ∈ ks'.head?, NoAttr n) → as ++ ks = as' ++ ks' → as = as' ∧ ks = ks'
  | [], [], _, _, _, _, _, _, h => ⟨rfl, h⟩
  | [], a :: as', ks, ks', _, h2, h3, _, h => by
    have e : ks = a :: (as' ++ ks') := h
    have := (noAttr_iff a).1 (h3 a (by rw [e]; rfl))
    rw [h2 a (List.mem_cons_self ..)] at this
    cases this
  | a :: as, [], ks, ks', h1, _, _, h4, h => by
    have e : a :: (as ++ ks) = ks' := h
    have := (noAttr_iff a).1 (h4 a (by rw [← e]; rfl))
    rw [h1 a (List.mem_cons_self ..)] at this
    cases this
  | a :: as, b :: as', ks, ks', h1, h2, h3, h4, h => by
    simp only [List.cons_append, List.cons.injEq] at h
    obtain ⟨e1, e2⟩ := split_attrs (fun n hn => h1 n (List.mem_cons_of_mem _ hn)) (fun n hn => h2 n (List.mem_cons_of_mem _ hn)) h3 h4 h.2
    exact ⟨by rw [h.1, e1], e2⟩

theorem domOf_list {d : Dialect} {f : Str → Str} {n : PNode} {es : List Dom} (h : DomOf d f n es) {hd : Node} {rest : List PNode} {s : Site}
    {e : Token} {w : Str} (hn : n = .list (.symbol hd :: rest) s e w) :
    (∃ attrs kids kids' g raw ds, rest = attrs ++ kids ∧ d.void hd.value = false ∧ GivesAttrs attrs raw ∧ (∀ n ∈ kids.head?, NoAttr n) ∧
      Settled kids kids' ∧ DomsOf d f kids' ds ∧ CloseGap (d.close hd.value) w e kids g ∧
      es = Dom.text w ++ [.elem hd.value (readValues f raw) (ds ++ Dom.text g)]) ∨
    (∃ raw, d.void hd.value = true ∧ GivesAttrs rest raw ∧ es = Dom.text w ++ [.elem hd.value (readValues f raw) []]) ∨
    Starts d.decl hd.value := by
  cases h with
  | text n a h => rcases h with rfl | rfl | rfl <;> cases hn
  | elem h attrs kids kids' s e w g as ds h1 h2 h3 h4 h5 h6 =>
    cases hn
    exact .inl ⟨attrs, kids, kids', g, as, ds, rfl, h1, h2, h3, h4, h5, h6, rfl⟩
  | void h attrs s e w as h1 h2 => cases hn; exact .inr (.inl ⟨as, h1, h2, rfl⟩)
  | decl h rest s e w body h1 h2 => cases hn; exact .inr (.inr h1)

theorem readValues_esc (as : List (Str × Str)) : readValues (decoded 0) (as.map fun p => (p.1, escapeXml p.2)) = as := by
  induction as with
  | nil => rfl
  | cons p as ih =>
    unfold readValues at ih ⊢
    rw [List.map_cons, List.map_cons, ih]
    simp only
    rw [decoded_esc (escapeXml_escText p.2)]

theorem closeGap_nil {tag : Str} {e : Token} {ks : List PNode} {g : Str} (he : e.lw = []) (h : CloseGap tag [] e ks g) : g = [] := by
  cases h with
  | own h => exact absurd he h
  | line _ _ => rfl
  | none _ _ _ => rfl

mutual
theorem says_dom {d : Dialect} {sp : Str → Bool} (hd : ∀ c, nameChar c = true → d.decl c = false) : ∀ {x : Dom} {n : PNode} {es : List Dom},
    Sayable d sp x → Says x [] n → DomOf d (decoded 0) n es → es = [x]
  | _, _, es, .char c, .char _ _ a ha hw, he => by
    cases he with
    | text _ b hb =>
      have : b = a := by rcases hb with e | e | e <;> cases e; rfl
      rw [this, hw, ha]
      rfl
  | _, _, es, .elem _ _ _ h1 _ _ _ h5 _ h7, .elem _ _ _ _ h attrs kids s e g0 g1 g2 g3, he => by
    have ga := saysAttrs_gives g1
    subst g0
    rcases domOf_list he rfl with ⟨attrs', kids1, kids', g, raw, ds, e1, e2, e3, e4, e5, e6, e7, rfl⟩ | ⟨raw, e2, e3, rfl⟩ | hs
    · obtain ⟨rfl, rfl⟩ := split_attrs (gives_isAttr ga) (gives_isAttr e3) (saysAll_noAttr g2) e4 e1
      rw [givesAttrs_unique e3 ga, readValues_esc, closeGap_nil g3 e7, saysAll_dom hd h7 (saysAll_settled g2 e5) e6]
      simp [Dom.text]
    · have hi := h5 e2
      subst hi
      cases g2
      rw [List.append_nil] at e3
      rw [givesAttrs_unique e3 ga, readValues_esc]
      rfl
    · obtain ⟨c, t, hv, hc⟩ := nameOk_front h1
      rw [hv] at hs
      have hs : d.decl c = true := hs
      rw [hd c hc] at hs
      cases hs
theorem saysAll_dom {d : Dialect} {sp : Str → Bool} (hd : ∀ c, nameChar c = true → d.decl c = false) : ∀ {xs : List Dom} {ns : List PNode} {es : List Dom},
    Sayables d sp xs → SaysAll xs [] ns → DomsOf d (decoded 0) ns es → es = xs
  | _, _, _, .nil, .nil _, he => by cases he; rfl
  | _, _, _, .cons _ _ hx hxs, .cons _ _ _ n ns h hs, he => by
    cases he with
    | cons _ _ ds es h1 h2 =>
      rw [says_dom hd hx h h1, saysAll_dom hd hxs hs h2]
      rfl
end

/-! ## It is written -/

theorem saysAttrs_html {as : List (Str × Str)} {ns : List PNode} (h : SaysAttrs as ns) : ∃ ts, Pairs HtmlAttr ns ts := by
  induction h with
  | nil => exact ⟨[], .nil⟩
  | cons k v a s as ns hv _ ih =>
    obtain ⟨ts, ih⟩ := ih
    exact ⟨_, .cons (.mk k _ a s _ (.inr (.inr (.inl rfl)))) ih⟩

theorem saysAttrs_xml {as : List (Str × Str)} {ns : List PNode} (h : SaysAttrs as ns) : ∃ ts, Pairs XmlAttr ns ts := by
  induction h with
  | nil => exact ⟨[], .nil⟩
  | cons k v a s as ns hv _ ih =>
    obtain ⟨ts, ih⟩ := ih
    exact ⟨_, .cons (.mk k _ a s _ (.inr (.inr (.inl rfl)))) ih⟩

theorem closeGap_some (tag w : Str) (e : Token) (kids : List PNode) (he : e.lw = []) : ∃ g, CloseGap tag w e kids g := by
  by_cases h : (∃ n ∈ kids.head?, '\n' ∈ gap n) ∨ tag = str! "style"
  · exact ⟨_, .line he h⟩
  · refine ⟨_, .none he (fun n hn h' => h (.inl ⟨n, hn, h'⟩)) fun h' => h (.inr h')⟩

theorem nameOk_ne {s : Str} (h : NameOk s) : s ≠ [] ∧ (∀ r, s ≠ '!' :: r) ∧ ∀ r, s ≠ '?' :: r := by
  obtain ⟨c, t, hv, hc⟩ := nameOk_front h
  have hc' := nameChar_ne hc
  refine ⟨h.1, fun r e => ?_, fun r e => ?_⟩
  · rw [hv] at e; cases e; exact hc'.2.2.2.2.2.2.1 rfl
  · rw [hv] at e; cases e; exact hc'.2.2.2.2.2.2.2 rfl

/-- What is settled on. -/
def settle : List PNode → List PNode
  | [] => []
  | n :: ns => withGap [] n :: ns

theorem saysAll_settle {xs : List Dom} {ns : List PNode} (h : SaysAll xs [' '] ns) : Settled ns (settle ns) := by
  cases h with
  | nil => exact .nil
  | cons x xs w n ns h _ => exact .drop _ _ (by rw [(says_lw h).2]; decide)

mutual
theorem says_html (dbg : Str → Str) : ∀ {x : Dom}, Sayable htmlDialect htmlSpecialName x → ∀ (w : Str) (n : PNode), Says x w n →
    ∃ t, HtmlText dbg n t
  | _, .char c, w, n, h => by
    cases h with
    | char _ _ a ha _ => exact ⟨_, .text _ a _ (.inr (.inr rfl)) (escapeXml_escText _)⟩
  | _, .elem name as inner h1 h2 h3 h4 h5 h6 h7, w, n, h => by
    cases h with
    | elem _ _ _ _ h attrs kids s e g0 g1 g2 g3 =>
      subst g0
      obtain ⟨ts, hts⟩ := saysAttrs_html g1
      cases hv : htmlDialect.void h.value with
      | true =>
        have := h5 hv
        subst this
        cases g2
        rw [List.append_nil]
        exact ⟨_, .void h attrs s e w ts (by simpa [htmlDialect] using hv) hts⟩
      | false =>
        obtain ⟨t, ht⟩ := saysAll_html dbg h7 [] (settle kids) (saysAll_settled g2 (saysAll_settle g2))
        obtain ⟨g, hg⟩ := closeGap_some (h.value.map lowerChar) w e kids g3
        obtain ⟨hn1, hn2, _⟩ := nameOk_ne h1
        refine ⟨_, .elem h attrs kids s e w ts t g _ rfl (by simpa using hn1) hn2 (by simpa [htmlDialect] using hv) hts (saysAll_noAttr g2)
          (.html _ _ _ _ _ ?_ (saysAll_settle g2) ht) hg⟩
        intro ho
        have := (special_other (h.value.map lowerChar)).2 ho
        have h4 : htmlSpecial (lower h.value) = false := h4
        rw [show lower h.value = h.value.map lowerChar from rfl, this] at h4
        cases h4
theorem saysAll_html (dbg : Str → Str) : ∀ {xs : List Dom}, Sayables htmlDialect htmlSpecialName xs → ∀ (w : Str) (ns : List PNode), SaysAll xs w ns →
    ∃ t, HtmlTexts dbg ns t
  | _, .nil, w, ns, h => by cases h; exact ⟨[], .nil⟩
  | _, .cons x xs hx hxs, w, ns, h => by
    cases h with
    | cons _ _ _ n ns h hs =>
      obtain ⟨t, ht⟩ := says_html dbg hx w n h
      obtain ⟨u, hu⟩ := saysAll_html dbg hxs [] ns hs
      exact ⟨t ++ u, .cons _ _ _ _ ht hu⟩
end

mutual
theorem says_xml : ∀ {x : Dom} {sp : Str → Bool}, Sayable xmlDialect sp x → ∀ (w : Str) (n : PNode), Says x w n → ∃ t, XmlText n t
  | _, _, .char c, w, n, h => by
    cases h with
    | char _ _ a ha _ => exact ⟨_, .text _ a _ (.inr (.inr rfl)) (escapeXml_escText _)⟩
  | _, _, .elem name as inner h1 h2 h3 h4 h5 h6 h7, w, n, h => by
    cases h with
    | elem _ _ _ _ h attrs kids s e g0 g1 g2 g3 =>
      subst g0
      obtain ⟨ts, hts⟩ := saysAttrs_xml g1
      obtain ⟨t, ht⟩ := saysAll_xml h7 [] (settle kids) (saysAll_settled g2 (saysAll_settle g2))
      obtain ⟨g, hg⟩ := closeGap_some h.value w e kids g3
      obtain ⟨hn1, hn2, hn3⟩ := nameOk_ne h1
      exact ⟨_, .elem h attrs kids _ s e w ts t g hn1 hn2 hn3 hts (saysAll_noAttr g2) (saysAll_settle g2) ht hg⟩
theorem saysAll_xml : ∀ {xs : List Dom} {sp : Str → Bool}, Sayables xmlDialect sp xs → ∀ (w : Str) (ns : List PNode), SaysAll xs w ns → ∃ t, XmlTexts ns t
  | _, _, .nil, w, ns, h => by cases h; exact ⟨[], .nil⟩
  | _, _, .cons x xs hx hxs, w, ns, h => by
    cases h with
    | cons _ _ _ n ns h hs =>
      obtain ⟨t, ht⟩ := says_xml hx w n h
      obtain ⟨u, hu⟩ := saysAll_xml hxs [] ns hs
      exact ⟨t ++ u, .cons _ _ _ _ ht hu⟩
end

end Seam
