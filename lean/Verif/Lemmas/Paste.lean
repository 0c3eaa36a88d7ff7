import Verif.Spec.Paste
import Verif.Lemmas.Solo
import Verif.Lemmas.Include
import Verif.Props.Include
import Verif.Props.Layout
import Verif.Props.Joined

/-! The text of a file in place of the call that includes it. -/

namespace Seam
open Spec

section
variable {ext : Ext} {S : Site → Site → Prop}

theorem blind_append_inv {ns ms : List PNode} {s u : St} {r : Res (List PNode)} (h : BlindEvals ext (ns ++ ms) s r u) :
    (∃ as t r', BlindEvals ext ns s (.ok as) t ∧ BlindEvals ext ms t r' u ∧ r = addBefore as r') ∨
    (BlindEvals ext ns s r u ∧ ∀ a, r ≠ .ok a) := by
  obtain ⟨hr, f, hf⟩ := h
  rw [expandNodes_append] at hf
  rcases M.bind_cases hf with ⟨a, t, h1, h2⟩ | ⟨e, h1, rfl⟩ | ⟨h1, rfl⟩ | ⟨h1, rfl⟩
  · left
    rcases M.bind_cases h2 with ⟨b, v, h3, h4⟩ | ⟨e, h3, rfl⟩ | ⟨h3, rfl⟩ | ⟨h3, rfl⟩
    · cases h4
      exact ⟨a, t, .ok b, ⟨by simp, f, h1⟩, ⟨by simp, f, h3⟩, rfl⟩
    · exact ⟨a, t, .err e, ⟨by simp, f, h1⟩, ⟨by simp, f, h3⟩, rfl⟩
    · exact ⟨a, t, .panic, ⟨by simp, f, h1⟩, ⟨by simp, f, h3⟩, rfl⟩
    · exact absurd rfl hr
  · exact .inr ⟨⟨by simp, f, h1⟩, by simp⟩
  · exact .inr ⟨⟨by simp, f, h1⟩, by simp⟩
  · exact absurd rfl hr

/-- The outcome of a list, from that of its nodes. -/
def listRes (si : Site) (e : Token) (w : Str) : Res (List PNode) → Res (List PNode)
  | .ok ns => .ok [.list ns si e w]
  | .err x => .err x
  | .panic => .panic
  | .diverge => .diverge

/-- The outcome of an attribute, from that of its value. -/
def attrRes (k : Str) (si : Site) (w : Str) : Res (List PNode) → Res (List PNode)
  | .ok (n :: ns) => .ok (.attr k n si w :: ns)
  | .ok [] => .panic
  | .err x => .err x
  | .panic => .panic
  | .diverge => .diverge

theorem list_res {rec : Rec} {ns : List PNode} (h : PlainHead ns) {si : Site} {e : Token} {w : Str} {s : St} :
    expandNode rec (.list ns si e w) s = (listRes si e w (expandNodes rec ns s).1, (expandNodes rec ns s).2) := by
  rw [expandNode_list h, M.bind_def]
  rcases expandNodes rec ns s with ⟨r, t⟩
  cases r <;> rfl

theorem attr_res {rec : Rec} {k : Str} {n : PNode} {si : Site} {w : Str} {s : St} :
    expandNode rec (.attr k n si w) s = (attrRes k si w (rec (.node n) s).1, (rec (.node n) s).2) := by
  show (rec (.node n) >>= fun ns => match ns with
    | [] => M.panic
    | n' :: rest => pure (.attr k n' si w :: rest)) s = _
  rw [M.bind_def]
  rcases rec (.node n) s with ⟨r, t⟩
  cases r with
  | ok ns => cases ns <;> rfl
  | _ => rfl

theorem blind_node {n : PNode} {s u : St} {r : Res (List PNode)} (h : BlindEvals ext [n] s r u) :
    r ≠ .diverge ∧ ∃ fuel, expandNode (blindRun ext fuel) n s = (r, u) := by
  obtain ⟨hr, f, hf⟩ := h
  rw [expandNodes_one] at hf
  cases f with
  | zero => cases hf; exact absurd rfl hr
  | succ f => exact ⟨hr, f, hf⟩

theorem evals_list_res {ns : List PNode} (h : PlainHead ns) {s t : St} {r : Res (List PNode)} (hn : Evals ext ns s r t)
    (si : Site) (e : Token) (w : Str) : Evals ext [.list ns si e w] s (listRes si e w r) t := by
  refine evals_node ?_ (hn.ev.mono fun f hf => ?_)
  · have := hn.1; cases r <;> simp_all [listRes]
  · rw [list_res h, hf]

theorem evals_attr_res {n : PNode} {s t : St} {r : Res (List PNode)} (hn : Evals ext [n] s r t)
    (k : Str) (si : Site) (w : Str) : Evals ext [.attr k n si w] s (attrRes k si w r) t := by
  refine evals_node ?_ (hn.ev.mono fun f hf => ?_)
  · have := hn.1
    cases r with
    | ok ns => cases ns <;> simp [attrRes]
    | diverge => exact absurd rfl this
    | _ => simp [attrRes]
  · rw [expandNodes_one] at hf
    rw [attr_res, hf]

/-- The program with the text of the file does what the program that includes the file does. -/
theorem pasted_evals (hS : ∀ p q, Reread p q → S p q) {ns ms : List PNode} (h : Pasted ext S ns ms) : ∀ {s t s' : St}
    {r : Res (List PNode)}, LaidSt S BothBlank s t → ByKeys s.order → BlindEvals ext ns s r s' →
    ∃ r' t', Evals ext ms t r' t' ∧ LaidRes S BothBlank r r' ∧ LaidSt S BothBlank s' t' := by
  induction h with
  | same ns ms h =>
    intro s t s' r hst hk hb
    exact C86_trees ext S (fun p => hS p p rfl) ns ms s t s' r h hst hk hb
  | append ns ms ns' ms' _ _ ih ih' =>
    intro s t s' r hst hk hb
    rcases blind_append_inv hb with ⟨as, u, r1, h1, h2, rfl⟩ | ⟨h1, h2⟩
    · obtain ⟨_, u', g1, g2, g3⟩ := ih hst hk h1
      have hk' : ByKeys u.order := by
        rw [(evals_keeps advances_rel (blind_evals h1)).2.2.2]; exact hk
      cases g2 with
      | ok _ as' g2 =>
        obtain ⟨r2, t', f1, f2, f3⟩ := ih' g3 hk' h2
        exact ⟨_, t', g1.before f1, addBefore_laid g2 f2, f3⟩
    · obtain ⟨r', u', g1, g2, g3⟩ := ih hst hk h1
      refine ⟨r', u', g1.fail_left fun a ha => ?_, g2, g3⟩
      subst ha
      cases g2
      exact h2 _ rfl
  | list ns ms si ti e f w v _ hp hp' h1 h2 h3 h4 ih =>
    intro s t s' r hst hk hb
    obtain ⟨hr, fuel, hf⟩ := blind_node hb
    rw [list_res hp] at hf
    generalize hq : expandNodes (blindRun ext fuel) ns s = q at hf
    obtain ⟨r0, u⟩ := q
    cases hf
    have hd : r0 ≠ .diverge := by rintro rfl; exact hr rfl
    obtain ⟨r', t', g1, g2, g3⟩ := ih hst hk ⟨hd, fuel, hq⟩
    refine ⟨_, t', evals_list_res hp' g1 ti f v, ?_, g3⟩
    cases g2 with
    | ok _ _ g => exact .ok _ _ (.cons _ _ _ _ (.list _ _ _ _ _ _ _ _ g h1 h2 h3 h4) .nil)
    | err _ _ g => exact .err _ _ g
    | panic => exact .panic
  | attr k n m si ti w v _ h1 h2 ih =>
    intro s t s' r hst hk hb
    obtain ⟨hr, fuel, hf⟩ := blind_node hb
    rw [attr_res] at hf
    generalize hq : blindRun ext fuel (.node n) s = q at hf
    obtain ⟨r0, u⟩ := q
    cases hf
    have hd : r0 ≠ .diverge := by rintro rfl; exact hr rfl
    obtain ⟨r', t', g1, g2, g3⟩ := ih hst hk ⟨hd, fuel, by rw [expandNodes_one, hq]⟩
    refine ⟨_, t', evals_attr_res g1 k ti v, ?_, g3⟩
    cases g2 with
    | ok _ _ g =>
      cases g with
      | nil => exact .panic
      | cons _ _ _ _ g gs => exact .ok _ _ (.cons _ _ _ _ (.attr _ _ _ _ _ _ _ g h1 h2) gs)
    | err _ _ g => exact .err _ _ g
    | panic => exact .panic
  | file c n a file code tree ns hc hl hn hw hf hp _ ih =>
    intro s t s' r hst hk hb
    have hst' : LaidSt S BothBlank s { t with fresh := t.fresh + 1 } :=
      ⟨hst.defined, hst.scope, .inr hS, hst.log, hst.hashes, hst.order⟩
    obtain ⟨r', t', g1, g2, g3⟩ := ih t.fresh hst' hk hb
    have hargs : Evals ext [n] t (.ok [n]) t := macrosFree_evals ext [n] (.cons _ _ hn .nil) t
    refine ⟨_, t', (C52_include ext c n [n] (tree t.fresh) a file code t t t' _ hc hargs hl hf (hp _)).2 ⟨r', g1, rfl⟩, ?_, g3⟩
    cases g2 with
    | ok as bs g =>
      refine .ok _ _ ?_
      cases g with
      | nil => exact .nil
      | cons n m ns ms g gs =>
        refine .cons _ _ _ _ ?_ gs
        have := laid_setLw ⟨g.lw.1, hw⟩ g
        rwa [setLw_again] at this
    | err _ _ g => exact .err _ _ g
    | panic => exact .panic

/-! ## From the call to the text -/

theorem expandNode_literal {rec : Rec} {n : PNode} {a : Node} (hl : Literal n a) (hn : MacroFree n) (s : St) :
    expandNode rec n s = (.ok [n], s) := by
  cases hl with
  | symbol _ =>
    cases hn with
    | symbol _ h =>
      have : macroName? a.value = none := macroName?_none h
      simp only [expandNode, this]
      rfl
  | _ => rfl

theorem blind_include {c n : PNode} {a : Node} {file code : Str} {tree : List PNode} {s t : St} {r : Res (List PNode)}
    (hc : IsCall (str! "include") [n] c) (hl : Literal n a) (hn : MacroFree n)
    (hf : FirstRead ext (includeFiles ext a.value) file code)
    (hp : parse ext.unescape { path := file, id := s.fresh, code := code } = .ok tree) (h : BlindEvals ext [c] s r t) :
    ∃ r', BlindEvals ext tree { s with fresh := s.fresh + 1 } r' t ∧ r = spacedRes c.lw r' := by
  obtain ⟨hr, f, hf'⟩ := blind_node h
  have e1 : expandNode (blindRun ext f) c = blindRun ext f (.invoke (str! "include") c [n]) := by
    obtain ⟨h, t, s, e', w', hv, ht⟩ := hc
    rw [ht]
    simp only [expandNode, PNode.symbol?, Option.bind_some, macroName?, hv, dropFirstBlank_eq]
  rw [e1] at hf'
  cases f with
  | zero => cases hf'; exact absurd rfl hr
  | succ g =>
    have e2 : blindRun ext (g + 1) (.invoke (str! "include") c [n]) = includeMacro ext (blindRun ext g) c [n] := rfl
    rw [e2] at hf'
    unfold includeMacro at hf'
    cases g with
    | zero =>
      rw [expandNodes_one, M.bind_def] at hf'
      cases hf'
      exact absurd rfl hr
    | succ g =>
      have e3 : expandNodes (blindRun ext (g + 1)) [n] s = (.ok [n], s) := by
        rw [expandNodes_one]
        exact expandNode_literal hl hn s
      rw [M.bind_ok e3] at hf'
      simp only [literal_atomic hl, findInclude_iff.2 hf] at hf'
      rw [M.bind_ok (show M.tick s = (.ok s.fresh, { s with fresh := s.fresh + 1 }) from rfl)] at hf'
      rw [hp] at hf'
      simp only at hf'
      rw [M.bind_def] at hf'
      generalize hq : expandNodes (blindRun ext (g + 1)) tree { s with fresh := s.fresh + 1 } = q at hf'
      obtain ⟨r', u⟩ := q
      cases r' with
      | ok as =>
        cases hf'
        refine ⟨.ok as, ⟨by simp, _, hq⟩, ?_⟩
        show Res.ok (withFirstLw c.lw as) = _
        rw [withFirstLw_eq]
        rfl
      | err e => cases hf'; exact ⟨.err e, ⟨by simp, _, hq⟩, rfl⟩
      | panic => cases hf'; exact ⟨.panic, ⟨by simp, _, hq⟩, rfl⟩
      | diverge => cases hf'; exact absurd rfl hr

/-- The program that includes the file does what the program with the text of the file does. -/
theorem included_evals (hS : ∀ p q, Reread p q → S p q) {ns ms : List PNode} (h : Pasted ext S ns ms) : ∀ {s t s' : St}
    {r : Res (List PNode)}, LaidSt (fun q p => S p q) BothBlank s t → ByKeys s.order → BlindEvals ext ms s r s' →
    ∃ r' t', Evals ext ns t r' t' ∧ LaidRes (fun q p => S p q) BothBlank r r' ∧ LaidSt (fun q p => S p q) BothBlank s' t' := by
  have hS' : ∀ q p, Reread q p → S p q := by
    intro q p h
    refine hS p q ?_
    simp only [Reread] at h ⊢
    rw [h]
  induction h with
  | same ns ms h =>
    intro s t s' r hst hk hb
    exact C86_trees ext (fun q p => S p q) (fun p => hS p p rfl) ms ns s t s' r (laids_flip (fun _ _ h => h) (fun _ _ h => ⟨h.2, h.1⟩) h) hst hk hb
  | append ns ms ns' ms' _ _ ih ih' =>
    intro s t s' r hst hk hb
    rcases blind_append_inv hb with ⟨as, u, r1, h1, h2, rfl⟩ | ⟨h1, h2⟩
    · obtain ⟨_, u', g1, g2, g3⟩ := ih hst hk h1
      have hk' : ByKeys u.order := by
        rw [(evals_keeps advances_rel (blind_evals h1)).2.2.2]; exact hk
      cases g2 with
      | ok _ as' g2 =>
        obtain ⟨r2, t', f1, f2, f3⟩ := ih' g3 hk' h2
        exact ⟨_, t', g1.before f1, addBefore_laid g2 f2, f3⟩
    · obtain ⟨r', u', g1, g2, g3⟩ := ih hst hk h1
      refine ⟨r', u', g1.fail_left fun a ha => ?_, g2, g3⟩
      subst ha
      cases g2
      exact h2 _ rfl
  | list ns ms si ti e f w v _ hp hp' h1 h2 h3 h4 ih =>
    intro s t s' r hst hk hb
    obtain ⟨hr, fuel, hf⟩ := blind_node hb
    rw [list_res hp'] at hf
    generalize hq : expandNodes (blindRun ext fuel) ms s = q at hf
    obtain ⟨r0, u⟩ := q
    cases hf
    have hd : r0 ≠ .diverge := by rintro rfl; exact hr rfl
    obtain ⟨r', t', g1, g2, g3⟩ := ih hst hk ⟨hd, fuel, hq⟩
    refine ⟨_, t', evals_list_res hp g1 si e w, ?_, g3⟩
    cases g2 with
    | ok _ _ g => exact .ok _ _ (.cons _ _ _ _ (.list _ _ _ _ _ _ _ _ g h1 ⟨h2.2, h2.1⟩ h3 ⟨h4.2, h4.1⟩) .nil)
    | err _ _ g => exact .err _ _ g
    | panic => exact .panic
  | attr k n m si ti w v _ h1 h2 ih =>
    intro s t s' r hst hk hb
    obtain ⟨hr, fuel, hf⟩ := blind_node hb
    rw [attr_res] at hf
    generalize hq : blindRun ext fuel (.node m) s = q at hf
    obtain ⟨r0, u⟩ := q
    cases hf
    have hd : r0 ≠ .diverge := by rintro rfl; exact hr rfl
    obtain ⟨r', t', g1, g2, g3⟩ := ih hst hk ⟨hd, fuel, by rw [expandNodes_one, hq]⟩
    refine ⟨_, t', evals_attr_res g1 k si w, ?_, g3⟩
    cases g2 with
    | ok _ _ g =>
      cases g with
      | nil => exact .panic
      | cons _ _ _ _ g gs => exact .ok _ _ (.cons _ _ _ _ (.attr _ _ _ _ _ _ _ g h1 ⟨h2.2, h2.1⟩) gs)
    | err _ _ g => exact .err _ _ g
    | panic => exact .panic
  | file c n a file code tree ns hc hl hn hw hf hp _ ih =>
    intro s t s' r hst hk hb
    obtain ⟨r0, hb', rfl⟩ := blind_include hc hl hn hf (hp _) hb
    have hst' : LaidSt (fun q p => S p q) BothBlank { s with fresh := s.fresh + 1 } t :=
      ⟨hst.defined, hst.scope, .inr hS', hst.log, hst.hashes, hst.order⟩
    obtain ⟨r', t', g1, g2, g3⟩ := ih s.fresh hst' hk hb'
    refine ⟨_, t', g1, ?_, g3⟩
    cases g2 with
    | ok as bs g =>
      refine .ok _ _ ?_
      cases g with
      | nil => exact .nil
      | cons n m ns ms g gs =>
        refine .cons _ _ _ _ ?_ gs
        have := laid_setLw ⟨hw, g.lw.2⟩ g
        rwa [setLw_again m] at this
    | err _ _ g => exact .err _ _ g
    | panic => exact .panic

end

/-! ## Three texts -/

mutual
theorem laid_meet {A B : Site → Site → Prop} : ∀ {n m k : PNode}, Laid A BothBlank n m → Laid B BothBlank n k →
    Laid (fun p q => ∃ o, A o p ∧ B o q) BothBlank m k
  | _, _, _, .symbol _ _ h, .symbol _ _ h' => .symbol _ _ ⟨h.1.symm.trans h'.1, ⟨h.2.1.2, h'.2.1.2⟩, _, h.2.2, h'.2.2⟩
  | _, _, _, .number _ _ h, .number _ _ h' => .number _ _ ⟨h.1.symm.trans h'.1, ⟨h.2.1.2, h'.2.1.2⟩, _, h.2.2, h'.2.2⟩
  | _, _, _, .string _ _ h, .string _ _ h' => .string _ _ ⟨h.1.symm.trans h'.1, ⟨h.2.1.2, h'.2.1.2⟩, _, h.2.2, h'.2.2⟩
  | _, _, _, .raw _ _ h, .raw _ _ h' => .raw _ _ ⟨h.1.symm.trans h'.1, ⟨h.2.1.2, h'.2.1.2⟩, _, h.2.2, h'.2.2⟩
  | _, _, _, .list _ _ _ _ _ _ _ _ h h1 h2 h3 h4, .list _ _ _ _ _ _ _ _ h' h1' h2' h3' h4' =>
    .list _ _ _ _ _ _ _ _ (laids_meet h h') ⟨_, h1, h1'⟩ ⟨h2.2, h2'.2⟩ ⟨_, h3, h3'⟩ ⟨h4.2, h4'.2⟩
  | _, _, _, .attr _ _ _ _ _ _ _ h h1 h2, .attr _ _ _ _ _ _ _ h' h1' h2' =>
    .attr _ _ _ _ _ _ _ (laid_meet h h') ⟨_, h1, h1'⟩ ⟨h2.2, h2'.2⟩
theorem laids_meet {A B : Site → Site → Prop} : ∀ {ns ms ks : List PNode}, Laids A BothBlank ns ms → Laids B BothBlank ns ks →
    Laids (fun p q => ∃ o, A o p ∧ B o q) BothBlank ms ks
  | _, _, _, .nil, .nil => .nil
  | _, _, _, .cons _ _ _ _ h hs, .cons _ _ _ _ h' hs' => .cons _ _ _ _ (laid_meet h h') (laids_meet hs hs')
end

mutual
theorem laid_trans {A B : Site → Site → Prop} : ∀ {n m k : PNode}, Laid A BothBlank n m → Laid B BothBlank m k →
    Laid (fun p q => ∃ o, A p o ∧ B o q) BothBlank n k
  | _, _, _, .symbol _ _ h, .symbol _ _ h' => .symbol _ _ ⟨h.1.trans h'.1, ⟨h.2.1.1, h'.2.1.2⟩, _, h.2.2, h'.2.2⟩
  | _, _, _, .number _ _ h, .number _ _ h' => .number _ _ ⟨h.1.trans h'.1, ⟨h.2.1.1, h'.2.1.2⟩, _, h.2.2, h'.2.2⟩
  | _, _, _, .string _ _ h, .string _ _ h' => .string _ _ ⟨h.1.trans h'.1, ⟨h.2.1.1, h'.2.1.2⟩, _, h.2.2, h'.2.2⟩
  | _, _, _, .raw _ _ h, .raw _ _ h' => .raw _ _ ⟨h.1.trans h'.1, ⟨h.2.1.1, h'.2.1.2⟩, _, h.2.2, h'.2.2⟩
  | _, _, _, .list _ _ _ _ _ _ _ _ h h1 h2 h3 h4, .list _ _ _ _ _ _ _ _ h' h1' h2' h3' h4' =>
    .list _ _ _ _ _ _ _ _ (laids_trans h h') ⟨_, h1, h1'⟩ ⟨h2.1, h2'.2⟩ ⟨_, h3, h3'⟩ ⟨h4.1, h4'.2⟩
  | _, _, _, .attr _ _ _ _ _ _ _ h h1 h2, .attr _ _ _ _ _ _ _ h' h1' h2' =>
    .attr _ _ _ _ _ _ _ (laid_trans h h') ⟨_, h1, h1'⟩ ⟨h2.1, h2'.2⟩
theorem laids_trans {A B : Site → Site → Prop} : ∀ {ns ms ks : List PNode}, Laids A BothBlank ns ms → Laids B BothBlank ms ks →
    Laids (fun p q => ∃ o, A p o ∧ B o q) BothBlank ns ks
  | _, _, _, .nil, .nil => .nil
  | _, _, _, .cons _ _ _ _ h hs, .cons _ _ _ _ h' hs' => .cons _ _ _ _ (laid_trans h h') (laids_trans hs hs')
end

theorem laids_split {A : Site → Site → Prop} {W : Str → Str → Prop} : ∀ {as bs cs : List PNode}, Laids A W (as ++ bs) cs →
    ∃ as' bs', cs = as' ++ bs' ∧ Laids A W as as' ∧ Laids A W bs bs'
  | [], _, cs, h => ⟨[], cs, rfl, .nil, h⟩
  | a :: as, bs, _, .cons _ m _ ms h hs => by
    obtain ⟨as', bs', rfl, h1, h2⟩ := laids_split (as := as) hs
    exact ⟨m :: as', bs', rfl, .cons _ _ _ _ h h1, h2⟩

theorem shiftedTo_again {b c : Buf} {l k : Nat} {p q : Site} (h : ∃ o, ShiftedTo b l k p o ∧ ShiftedTo c 0 0 o q) : ShiftedTo c l k p q := by
  obtain ⟨o, h1, h2⟩ := h
  simp only [ShiftedTo] at h1 h2 ⊢
  subst h1
  subst h2
  simp

theorem shiftedTo_on {b c : Buf} {l k l' k' : Nat} {p q : Site} (h : ∃ o, ShiftedTo b l k p o ∧ ShiftedTo c l' k' o q) :
    ShiftedTo c (l + l') (k + k') p q := by
  obtain ⟨o, h1, h2⟩ := h
  simp only [ShiftedTo] at h1 h2 ⊢
  subst h1
  subst h2
  simp [Nat.add_assoc]

/-- Three texts one after the other are read one after the other. -/
theorem parse_three (u : Unescape) (a x b c : Buf) (hc : c.code = a.code ++ '\n' :: (x.code ++ '\n' :: b.code)) {ns ms bs : List PNode}
    (ha : parse u a = .ok ns) (hx : parse u x = .ok ms) (hb : parse u b = .ok bs) :
    ∃ ns' ms' bs' l l', parse u c = .ok (ns' ++ (ms' ++ bs')) ∧ Laids (ShiftedTo c 0 0) BothBlank ns ns' ∧
      Laids (ShiftedTo c l (blen a.code + 1)) BothBlank ms ms' ∧
      Laids (ShiftedTo c l' (blen a.code + 1 + blen x.code + 1)) BothBlank bs bs' := by
  let ax : Buf := { path := [], id := 0, code := a.code ++ '\n' :: x.code }
  obtain ⟨ns1, w, ms1, l, h1, h2, h3, _, h5⟩ := C89_reads u a x ax rfl ns ms ha hx
  have h2 := laids_blank (parse_blank ha) h2
  have h3 := laids_joined (parse_blank hx) h5 h3
  obtain ⟨all, w', bs', l', g1, g2, g3, _, g5⟩ := C89_reads u ax b c (by simp [ax, hc]) _ bs h1 hb
  have g2 := laids_blank (parse_blank h1) g2
  have g3 := laids_joined (parse_blank hb) g5 g3
  obtain ⟨ns', ms', rfl, f1, f2⟩ := laids_split g2
  refine ⟨ns', ms', bs', l, l', by rw [g1, List.append_assoc], (laids_trans h2 f1).mono fun _ _ => shiftedTo_again,
    (laids_trans h3 f2).mono fun _ _ => shiftedTo_again, ?_⟩
  have e : blen ax.code + 1 = blen a.code + 1 + blen x.code + 1 := by
    simp only [ax]
    rw [blen_append, blen_cons]
    have : Char.utf8Size '\n' = 1 := by decide
    omega
  rw [← e]
  exact g3

/-! ## A file read again -/

/-- The same place of the buffer `b`, read again. -/
def InFile (b : Buf) (p q : Site) : Prop := Reread p q ∧ q.path = b.path ∧ q.code = b.code

theorem tokens_inFile {W : Str → Str → Prop} [Blanking W] {b : Buf} (j : Nat) {before : Str} {line : Nat} {rest : Str} {toks : List Token}
    {e : Ending} (h : Tokens b before line rest toks e) :
    ∃ toks' e', Tokens { b with id := j } before line rest toks' e' ∧ Pairs (LaidToken (InFile b) W) toks toks' ∧ MovedEnd (InFile b) e e' := by
  induction h with
  | eof before line rest h => exact ⟨_, _, .eof _ _ _ h, .nil, .eof⟩
  | unclosed before line triv lead q s h1 h2 h3 =>
    exact ⟨_, _, .unclosed _ _ _ _ _ _ h1 h2 h3, .nil, .unclosed _ _ _ ⟨siteOf_reread .., rfl, rfl⟩⟩
  | cut before line triv lead text h1 h2 h3 => exact ⟨_, _, .cut _ _ _ _ _ h1 h2 h3, .nil, .cut⟩
  | token before line triv lead kind text value rest toks e h1 h2 _ ih =>
    obtain ⟨toks', e', i1, i2, i3⟩ := ih
    exact ⟨_, _, .token _ _ _ _ _ _ _ _ _ _ h1 h2 i1,
      .cons ⟨rfl, rfl, Blanking.const (trivia_lead h1).1, siteOf_reread .., rfl, rfl⟩ i2, i3⟩

theorem parse_inFile (u : Unescape) (b : Buf) (j : Nat) {tree : List PNode} (h : parse u b = .ok tree) :
    ∃ tree', parse u { b with id := j } = .ok tree' ∧ Laids (InFile b) BothBlank tree tree' := by
  obtain ⟨toks, e, ht⟩ := tokens_total b [] 1 b.code
  obtain ⟨toks', e', h1, h2, h3⟩ := tokens_inFile (W := BothBlank) j ht
  have := parse_laid u ht h1 h2 h3
  rw [h] at this
  generalize parse u { b with id := j } = q at this
  cases this with
  | done _ _ h =>
    cases h with
    | ok _ tree' h => exact ⟨tree', rfl, h⟩

theorem literal_drop {n : PNode} {l : Node} {w : Str} (h : Literal (if '\n' ∈ n.lw then n else n.setLw w) l) :
    ∃ l', Literal n l' ∧ l'.value = l.value := by
  split at h
  · exact ⟨l, h, rfl⟩
  · cases n with
    | symbol a => cases h; exact ⟨a, .symbol a, rfl⟩
    | number a => cases h; exact ⟨a, .number a, rfl⟩
    | string a => cases h; exact ⟨a, .string a, rfl⟩
    | raw a => cases h; exact ⟨a, .raw a, rfl⟩
    | _ => cases h

theorem drop_literal {n : PNode} {l : Node} {w : Str} (h : Literal n l) :
    ∃ l', Literal (if '\n' ∈ n.lw then n else n.setLw w) l' ∧ l'.value = l.value := by
  split
  · exact ⟨l, h, rfl⟩
  · cases h with
    | symbol a => exact ⟨_, .symbol _, rfl⟩
    | number a => exact ⟨_, .number _, rfl⟩
    | string a => exact ⟨_, .string _, rfl⟩
    | raw a => exact ⟨_, .raw _, rfl⟩

theorem drop_free {n : PNode} {l : Node} {w : Str} (h : Literal n l) :
    MacroFree (if '\n' ∈ n.lw then n else n.setLw w) ↔ MacroFree n := by
  split
  · exact Iff.rfl
  · cases h with
    | symbol a => exact ⟨fun h => by cases h with | symbol _ h => exact .symbol _ h, fun h => by cases h with | symbol _ h => exact .symbol _ h⟩
    | number a => exact ⟨fun _ => .number _, fun _ => .number _⟩
    | string a => exact ⟨fun _ => .string _, fun _ => .string _⟩
    | raw a => exact ⟨fun _ => .raw _, fun _ => .raw _⟩

theorem literal_laid {S : Site → Site → Prop} {W : Str → Str → Prop} {n m : PNode} {l : Node} (h : Laid S W n m) (hl : Literal n l) :
    ∃ l', Literal m l' ∧ l'.value = l.value ∧ (MacroFree n → MacroFree m) := by
  cases h with
  | symbol a b h =>
    cases hl
    exact ⟨b, .symbol b, h.1.symm, fun hn => by cases hn with | symbol _ hn => exact .symbol _ fun name => h.1 ▸ hn name⟩
  | number a b h => cases hl; exact ⟨b, .number b, h.1.symm, fun _ => .number _⟩
  | string a b h => cases hl; exact ⟨b, .string b, h.1.symm, fun _ => .string _⟩
  | raw a b h => cases hl; exact ⟨b, .raw b, h.1.symm, fun _ => .raw _⟩
  | _ => cases hl

theorem call_laid {S : Site → Site → Prop} {W : Str → Str → Prop} {name : Str} {c d n : PNode} {l : Node} (h : Laid S W c d)
    (hc : IsCall name [n] c) (hl : Literal n l) (hn : MacroFree n) :
    ∃ n' l', IsCall name [n'] d ∧ Literal n' l' ∧ MacroFree n' ∧ l'.value = l.value := by
  obtain ⟨a, t, s, e, w, hv, ht⟩ := hc
  cases h with
  | list _ ms _ _ _ f _ _ h1 =>
    cases h1 with
    | cons _ m _ ms h1 h2 =>
      cases h1 with
      | symbol _ b h1 =>
        cases h2 with
        | nil => cases ht
        | cons x y xs ys hx hxs =>
          simp only [dropFirstBlank, List.cons.injEq] at ht
          obtain ⟨rfl, rfl⟩ := ht
          cases hxs
          obtain ⟨l1, g1, g2⟩ := literal_drop hl
          obtain ⟨l2, g3, g4, g5⟩ := literal_laid hx g1
          obtain ⟨l3, g6, g7⟩ := drop_literal (w := []) g3
          exact ⟨_, l3, .mk _ _ _ _ _ (h1.1 ▸ hv) rfl, g6, (drop_free g3).2 (g5 ((drop_free g1).1 hn)), by rw [g7, g4, g2]⟩

/-- The program with the text of the file, and the program that includes it. -/
theorem texts_pasted {ext : Ext} (a b file call paste incl : Buf) {ns bs tree : List PNode} {c n : PNode} {l : Node}
    (hpaste : paste.code = a.code ++ '\n' :: (file.code ++ '\n' :: b.code))
    (hincl : incl.code = a.code ++ '\n' :: (call.code ++ '\n' :: b.code))
    (ha : parse ext.unescape a = .ok ns) (hb : parse ext.unescape b = .ok bs) (hf : parse ext.unescape file = .ok tree)
    (hcall : parse ext.unescape call = .ok [c]) (hc : IsCall (str! "include") [n] c) (hl : Literal n l)
    (hm : MacroFree n) (hfile : FirstRead ext (includeFiles ext l.value) file.path file.code) :
    ∃ all all', parse ext.unescape paste = .ok all ∧ parse ext.unescape incl = .ok all' ∧
      Pasted ext (PastedAt paste incl file.path a.code file.code call.code) all all' := by
  obtain ⟨ns1, ms1, bs1, l1, l1', p1, p2, p3, p4⟩ := parse_three ext.unescape a file b paste hpaste ha hf hb
  obtain ⟨ns2, ms2, bs2, l2, l2', q1, q2, q3, q4⟩ := parse_three ext.unescape a call b incl hincl ha hcall hb
  refine ⟨_, _, p1, q1, .append _ _ _ _ (.same _ _ ((laids_meet p2 q2).mono ?_)) (.append _ _ _ _ ?_ (.same _ _ ((laids_meet p4 q4).mono ?_)))⟩
  · rintro p q ⟨o, h1, h2⟩
    exact .first o p q h1 h2
  · cases q3 with
    | cons _ c2 _ _ h hnil =>
      cases hnil
      obtain ⟨n2, l2, r1, r2, r3, r4⟩ := call_laid h hc hl hm
      obtain ⟨t, ht⟩ := Classical.axiomOfChoice fun i => parse_inFile ext.unescape file i hf
      refine .file c2 n2 l2 file.path file.code t ms1 r1 r2 r3 h.lw.2 (by rw [r4]; exact hfile) (fun i => (ht i).1) fun i =>
        .same _ _ ((laids_meet p3 (ht i).2).mono ?_)
      rintro p q ⟨o, h1, h2, h3, h4⟩
      refine .inside p q l1 h3 h4 ?_
      simp only [ShiftedTo, Reread] at h1 h2 ⊢
      rw [h1, h2]
  · rintro p q ⟨o, h1, h2⟩
    exact .last o p q _ _ h1 h2

end Seam
