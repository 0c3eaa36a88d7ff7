import Verif.Spec.SaySheet
import Verif.Lemmas.Sayable
import Verif.Lemmas.Styles
import Verif.Props.Lists

/-! A program for every style sheet. -/

namespace Seam

open Spec

/-- `(%raw "v")`. -/
def sayRaw (v : Str) : PNode :=
  .list [.symbol ⟨str! "%raw", default, []⟩, .string ⟨v, default, [' ']⟩] default default [' ']

theorem sayRaw_printable {u : Unescape} (hu : UnescapesQuotes u) (v : Str) : Printable u literally (sayRaw v) := by
  refine .list _ _ _ _ blank_blanks nil_blanks (.cons _ _ _ (.symbol _ nil_blanks ⟨rfl, by decide⟩) ?_
    (.one _ (.string _ _ blank_blanks rfl (body_backslashed _) (hu _))))
  intro h
  exact absurd h (by simp [PNode.lw])

theorem sayRaw_evals {v : Str} {m : PNode} (h : SameNode (sayRaw v) m) :
    ∃ a : Node, a.value = v ∧ ∀ ext s, Evals ext [m] s (.ok [.raw a]) s := by
  match m, h with
  | .list [.symbol a, .string b] si e w, h =>
    obtain ⟨⟨⟨h1, h2⟩, ⟨h3, h4⟩, _⟩, h5, h6⟩ := h
    simp only at h1 h2 h3 h4
    refine ⟨⟨v, si, w⟩, rfl, fun ext s => ?_⟩
    have hd : dropFirstBlank [.string b] = [.string ⟨b.value, b.site, []⟩] := by
      simp only [dropFirstBlank, PNode.lw, ← h4, PNode.setLw]
      rfl
    have := (C46_string ext (.list [.symbol a, .string b] si e w) [.string ⟨b.value, b.site, []⟩] _ _ s s
      (evals_string ext _ s) (.cons (.string _) .nil)).2 (.mk _ _ _ _ _ h1.symm hd.symm)
    simp only [List.flatMap_cons, List.flatMap_nil, List.nil_append, List.append_nil, ← h3] at this
    exact this
  | .symbol _, h => exact h.elim
  | .number _, h => exact h.elim
  | .string _, h => exact h.elim
  | .raw _, h => exact h.elim
  | .attr _ _ _ _, h => exact h.elim
  | .list [] _ _ _, h => exact h.1.elim
  | .list [_] _ _ _, h => exact h.1.2.elim
  | .list (_ :: _ :: _ :: _) _ _ _, h => exact h.1.2.2.elim
  | .list [.number _, _] _ _ _, h => exact h.1.1.elim
  | .list [.string _, _] _ _ _, h => exact h.1.1.elim
  | .list [.raw _, _] _ _ _, h => exact h.1.1.elim
  | .list [.list _ _ _ _, _] _ _ _, h => exact h.1.1.elim
  | .list [.attr _ _ _ _, _] _ _ _, h => exact h.1.1.elim
  | .list [.symbol _, .symbol _] _ _ _, h => exact h.1.2.1.elim
  | .list [.symbol _, .number _] _ _ _, h => exact h.1.2.1.elim
  | .list [.symbol _, .raw _] _ _ _, h => exact h.1.2.1.elim
  | .list [.symbol _, .list _ _ _ _] _ _ _, h => exact h.1.2.1.elim
  | .list [.symbol _, .attr _ _ _ _] _ _ _, h => exact h.1.2.1.elim

/-- `:k (%raw "v")`. -/
def sayDecl (d : Str × Str) : PNode := .attr d.1 (sayRaw d.2) default [' ']

theorem sayDecls_printable {u : Unescape} (hu : UnescapesQuotes u) : ∀ {ds : List (Str × Str)}, (∀ d ∈ ds, SayableDecl d.1 d.2) →
    Printables u literally (ds.map sayDecl) ∧ ∀ m ∈ (ds.map sayDecl).head?, m.lw = [' ']
  | [], _ => ⟨.nil, by simp⟩
  | d :: ds, h => by
    obtain ⟨h1, h2⟩ := sayDecls_printable hu (ds := ds) fun a ha => h a (List.mem_cons_of_mem _ ha)
    refine ⟨printables_cons (.attr _ _ _ _ blank_blanks (fun c hc => ((h d (List.mem_cons_self ..)).2.2.2.1 c hc).2.2)
      (sayRaw_printable hu _) (fun _ => rfl)) h1 ?_, ?_⟩
    · intro m hm e
      rw [h2 m hm] at e
      cases e
    · intro m hm
      cases hm
      rfl

theorem sayDecls_evals : ∀ {ds : List (Str × Str)} {ms : List PNode}, (∀ d ∈ ds, SayableDecl d.1 d.2) →
    SameNodes (ds.map sayDecl) ms → ∃ rs, (∀ ext s, Evals ext ms s (.ok rs) s) ∧
      ∀ quote, Pairs (PropItem quote) rs (ds.map fun d => .decl d.1 d.2)
  | [], [], _, _ => ⟨[], fun ext s => .nil ext s, fun _ => .nil⟩
  | [], _ :: _, _, h => h.elim
  | _ :: _, [], _, h => h.elim
  | d :: ds, m :: ms, hd, h => by
    obtain ⟨h1, h2⟩ := h
    obtain ⟨rs, g1, g2⟩ := sayDecls_evals (fun a ha => hd a (List.mem_cons_of_mem _ ha)) h2
    cases m with
    | attr k n s w =>
      obtain ⟨e1, e2, e3⟩ := h1
      obtain ⟨a, e4, e5⟩ := sayRaw_evals e2
      obtain ⟨f1, f2, f3, f4, f5⟩ := hd d (List.mem_cons_self ..)
      refine ⟨.attr k (.raw a) s w :: rs, fun ext st => (evals_attr (e5 ext st) k s w).cons (g1 ext st), fun q => .cons ?_ (g2 q)⟩
      subst e1
      exact .mk _ _ _ _ a.value _ (.raw a) (e4 ▸ f1.1) (e4 ▸ f1.2) f2 f3 (fun c hc => ⟨(f4 c hc).1, (f4 c hc).2.1⟩) f5
    | _ => simp [sayDecl, SameNode] at h1

/-- The arguments of an `@`-rule. -/
def AtArgs (at_ t : Str) (ns : List PNode) : Prop :=
  (t = at_ ∧ ns = []) ∨ ∃ rest, rest ≠ [] ∧ Neat rest ∧ t = at_ ++ str! " " ++ rest ∧ ns = [sayRaw rest]

theorem at_trimmed {at_ : Str} (ha : at_ ∈ blockRules ++ lineRules) : Trimmed at_ at_ := by
  refine trimmed_self fun c hc => ?_
  unfold Space
  revert c
  revert at_
  decide +kernel

theorem atArgs_of {at_ t : Str} (h : AtText at_ t) : ∃ ns, AtArgs at_ t ns := by
  rcases h with h | ⟨rest, h1, h2, h3⟩
  · exact ⟨[], .inl ⟨h, rfl⟩⟩
  · exact ⟨_, .inr ⟨rest, h1, h2, h3, rfl⟩⟩

theorem atText_trimmed {at_ t : Str} (ha : at_ ∈ blockRules ++ lineRules) (h : AtText at_ t) : Trimmed t t := by
  have h0 := at_trimmed ha
  rcases h with rfl | ⟨rest, h1, h2, rfl⟩
  · exact h0
  · have hn : at_ ≠ [] := by rintro rfl; revert ha; decide +kernel
    have e1 : ∀ t : Str, Trimmed t t → (∀ c ∈ t.head?, ¬ Space c) ∧ ∀ c ∈ t.getLast?, ¬ Space c := by
      rintro t ⟨a, b, _, _, _, h4, h5⟩
      exact ⟨h4, h5⟩
    refine ⟨[], [], by simp, by simp, by simp, ?_, ?_⟩
    · intro c hc
      refine (e1 _ h0).1 c ?_
      cases at_ with
      | nil => exact absurd rfl hn
      | cons x xs => simpa using hc
    · intro c hc
      refine (e1 _ h2.2).2 c ?_
      rw [List.getLast?_append, List.getLast?_eq_some_getLast h1] at hc
      rw [List.getLast?_eq_some_getLast h1]
      exact hc

theorem atArgs_printable {u : Unescape} (hu : UnescapesQuotes u) {at_ t : Str} {ns ks : List PNode} (h : AtArgs at_ t ns)
    (hk : Printables u literally ks) (hl : ∀ m ∈ ks.head?, m.lw = [' ']) :
    Printables u literally (ns ++ ks) ∧ ∀ m ∈ (ns ++ ks).head?, m.lw = [' '] := by
  rcases h with ⟨_, rfl⟩ | ⟨rest, _, _, _, rfl⟩
  · exact ⟨hk, hl⟩
  · refine ⟨printables_cons (sayRaw_printable hu _) hk ?_, ?_⟩
    · intro m hm e
      rw [hl m hm] at e
      cases e
    · intro m hm
      cases hm
      rfl

theorem atArgs_evals {at_ t : Str} {ns ms : List PNode} (h : AtArgs at_ t ns) (hs : SameNodes ns ms) :
    ∃ rs ws, (∀ ext s, Evals ext ms s (.ok rs) s) ∧ (∀ quote, Pairs (ArgWord quote) rs ws) ∧ Joined (str! " ") (at_ :: ws) t ∧
      ∀ n ∈ rs, ∀ ns s e w, n ≠ .list ns s e w := by
  rcases h with ⟨rfl, rfl⟩ | ⟨rest, h1, h2, rfl, rfl⟩
  · cases ms with
    | nil => exact ⟨[], [], fun ext s => .nil ext s, fun _ => .nil, .one _, by simp⟩
    | cons _ _ => exact hs.elim
  · match ms, hs with
    | [m], hs =>
      obtain ⟨a, e1, e2⟩ := sayRaw_evals hs.1
      refine ⟨[.raw a], [rest], e2, fun _ => .cons (.value _ _ (by simp) (e1 ▸ .raw a) h2.1) .nil, .more _ _ _ _ (.one _), by simp⟩
    | [], hs => exact hs.elim
    | _ :: _ :: _, hs => exact hs.2.elim

theorem head_printable {u : Unescape} (hu : UnescapesQuotes u) (v : Str) {ks : List PNode}
    (hk : Printables u literally ks) (hl : ∀ m ∈ ks.head?, m.lw = [' ']) :
    Printables u literally (.string ⟨v, default, []⟩ :: ks) := by
  refine printables_cons (.string _ _ nil_blanks rfl (body_backslashed _) (hu _)) hk ?_
  intro m hm e
  rw [hl m hm] at e
  cases e

theorem same_string {v w : Str} {ks ms : List PNode} (h : SameNodes (.string ⟨v, default, w⟩ :: ks) ms) :
    ∃ b ms', ms = .string b :: ms' ∧ b.value = v ∧ SameNodes ks ms' := by
  cases ms with
  | nil => exact h.elim
  | cons m ms =>
    cases m with
    | string b => exact ⟨b, ms, rfl, h.1.1.symm, h.2⟩
    | _ => exact h.1.elim

mutual
theorem rule_says : ∀ {i : CssItem}, SayableRule i → ∃ ns, (∀ u, UnescapesQuotes u → Printables u literally ns) ∧
    ∀ ms, SameNodes ns ms → PlainHead ms ∧ ∃ rs, (∀ ext s, Evals ext ms s (.ok rs) s) ∧ ∀ quote, RuleItem quote rs i
  | _, .rule head ds h1 h2 h3 h4 h5 => by
    refine ⟨.string ⟨head, default, []⟩ :: ds.map sayDecl, fun u hu => ?_, fun ms hs => ?_⟩
    · obtain ⟨g1, g2⟩ := sayDecls_printable hu h5
      exact head_printable hu _ g1 g2
    · obtain ⟨b, ms, rfl, e, hs⟩ := same_string hs
      obtain ⟨rs, g1, g2⟩ := sayDecls_evals h5 hs
      refine ⟨(by intro a t name e; cases e), .string b :: rs, fun ext s => (evals_string ext b s).cons (g1 ext s), fun q => ?_⟩
      subst e
      refine .plain (.string b) b [] rs [] b.value b.value _ (.inr (.inr (.inl rfl))) h1.1 h2 h3 .nil ?_ (.one _) h1.2 (g2 q)
      rintro rfl
      cases ds with
      | nil => exact h4 rfl
      | cons _ _ => cases g2 q
  | _, .line at_ t h1 h2 => by
    obtain ⟨as, ha⟩ := atArgs_of h2
    refine ⟨.string ⟨at_, default, []⟩ :: as, fun u hu => ?_, fun ms hs => ?_⟩
    · obtain ⟨g1, g2⟩ := atArgs_printable hu ha .nil (by simp)
      rw [List.append_nil] at g1 g2
      exact head_printable hu _ g1 g2
    · obtain ⟨b, ms, rfl, e, hs⟩ := same_string hs
      obtain ⟨rs, ws, g1, g2, g3, _⟩ := atArgs_evals ha hs
      refine ⟨(by intro a t name e; cases e), .string b :: rs, fun ext s => (evals_string ext b s).cons (g1 ext s), fun q => ?_⟩
      subst e
      exact .line (.string b) b rs ws t t (.inr (.inr (.inl rfl))) h1 (g2 q) g3 (atText_trimmed (List.mem_append_right _ h1) h2)
  | _, .block at_ t is h1 h2 h3 h4 => by
    obtain ⟨as, ha⟩ := atArgs_of h2
    obtain ⟨ks, k1, k2, k3⟩ := rules_say h4
    refine ⟨.string ⟨at_, default, []⟩ :: (as ++ ks), fun u hu => ?_, fun ms hs => ?_⟩
    · obtain ⟨g1, g2⟩ := atArgs_printable hu ha (k1 u hu) k2
      exact head_printable hu _ g1 g2
    · obtain ⟨b, ms, rfl, e, hs⟩ := same_string hs
      obtain ⟨as', ks', rfl, hs1, hs2⟩ := sameNodes_append hs
      obtain ⟨rs, ws, g1, g2, g3, g4⟩ := atArgs_evals ha hs1
      obtain ⟨qs, q1, q2⟩ := k3 _ hs2
      refine ⟨(by intro a t name e; cases e), .string b :: (rs ++ qs),
        fun ext s => (evals_string ext b s).cons ((g1 ext s).append (q1 ext s)), fun q => ?_⟩
      subst e
      refine .block (.string b) b rs qs ws t t is (.inr (.inr (.inl rfl))) h1 g4 (g2 q) g3 (atText_trimmed (List.mem_append_left _ h1) h2) ?_ (q2 q)
      rintro rfl
      cases q2 q
      exact h3 rfl
theorem rules_say : ∀ {is : List CssItem}, SayableRules is → ∃ ns, (∀ u, UnescapesQuotes u → Printables u literally ns) ∧
    (∀ m ∈ ns.head?, m.lw = [' ']) ∧
    ∀ ms, SameNodes ns ms → ∃ rs, (∀ ext s, Evals ext ms s (.ok rs) s) ∧ ∀ quote, SheetItems quote rs is
  | _, .nil => by
    refine ⟨[], fun _ _ => .nil, by simp, fun ms hs => ?_⟩
    cases ms with
    | nil => exact ⟨[], fun ext s => .nil ext s, fun _ => .nil⟩
    | cons _ _ => exact hs.elim
  | _, .cons i is h hs => by
    obtain ⟨ns, n1, n2⟩ := rule_says h
    obtain ⟨ks, k1, k2, k3⟩ := rules_say hs
    refine ⟨.list ns default default [' '] :: ks, fun u hu => ?_, ?_, fun ms hm => ?_⟩
    · refine printables_cons (.list _ _ _ _ blank_blanks nil_blanks (n1 u hu)) (k1 u hu) ?_
      intro m hm e
      rw [k2 m hm] at e
      cases e
    · intro m hm
      cases hm
      rfl
    · cases ms with
      | nil => exact hm.elim
      | cons m ms =>
        obtain ⟨hm1, hm2⟩ := hm
        obtain ⟨qs, q1, q2⟩ := k3 _ hm2
        cases m with
        | list ls si e w =>
          obtain ⟨e1, _, e3⟩ := hm1
          obtain ⟨p1, rs, p2, p3⟩ := n2 _ e1
          refine ⟨.list rs si e w :: qs, fun ext s => (evals_list p1 (p2 ext s) si e w).cons (q1 ext s), fun q => .cons _ _ _ _ _ _ _ ?_ (p3 q) (q2 q)⟩
          subst e3
          exact one_space
        | _ => exact hm1.elim
end

end Seam
