import Verif.Spec.Guard
import Verif.Lemmas.Circle
import Verif.Lemmas.Solo
import Verif.Props.Include
import Verif.Props.Expand
import Verif.Props.Lists
import Verif.Props.Scope

/-! Files with an include guard. -/

namespace Seam

open Spec

theorem alike_refl (ns : List PNode) : Alike ns ns := unplaceds_moved rfl

theorem alike_trans {as bs cs : List PNode} (h : Alike as bs) (h' : Alike bs cs) : Alike as cs :=
  unplaceds_moved ((moveds_unplaced h).trans (moveds_unplaced h'))

theorem alike_symm {as bs : List PNode} (h : Alike as bs) : Alike bs as := unplaceds_moved (moveds_unplaced h).symm

theorem alike_append : ∀ {as bs cs ds : List PNode}, Alike as bs → Alike cs ds → Alike (as ++ cs) (bs ++ ds)
  | _, _, _, _, .nil, h => h
  | _, _, _, _, .cons _ _ _ _ h hs, h' => .cons _ _ _ _ h (alike_append hs h')

theorem alike_firstSpaced {as bs : List PNode} (w : Str) (h : Alike as bs) : Alike (firstSpaced w as) (firstSpaced w bs) := by
  cases h with
  | nil => exact .nil
  | cons _ _ _ _ h hs => exact .cons _ _ _ _ (moved_setLw h w) hs

theorem includes_moved {path : Str} {c d : PNode} (h : Moved (fun _ _ => True) c d) (hc : Includes path c) : Includes path d := by
  obtain ⟨p, a, h1, h2, h3, h4⟩ := hc
  obtain ⟨args, g1, g2⟩ := isCall_moved h h1
  cases g2 with
  | cons _ q _ _ g2 g3 =>
    cases g3
    obtain ⟨b, g4, g5⟩ := literal_moved g2 h2
    exact ⟨q, b, g1, g4, macroFree_moved g2 h3, g5.trans h4⟩

theorem spacedRes_twice (w w' : Str) (r : Res (List PNode)) : spacedRes w (spacedRes w' r) = spacedRes w r := by
  cases r with
  | ok ns => cases ns with
    | nil => rfl
    | cons n ns => cases n <;> rfl
  | _ => rfl

/-- What a guarded file is when it is read as another source. -/
theorem guarded_reads {ext : Ext} {F : GuardFile} (h : Guarded ext F) (id : Nat) :
    ∃ file code, FirstRead ext (includeFiles ext F.path) file code ∧ ∃ c cond no d a yes x value body,
      parse ext.unescape { path := file, id := id, code := code } = .ok [c] ∧
      IsCall (str! "ifdef") [cond, .string yes, no] c ∧ Literal cond a ∧ a.value = F.guard ∧ yes.value = F.skip ∧
      IsCall (str! "do") (d :: body) no ∧ Alike F.body body ∧ IsCall (str! "define") (.symbol x :: value) d ∧
      x.value = F.guard ∧ MacrosFree value := by
  obtain ⟨file, code, h1, c, cond, no, d, a, yes, x, value, body, h2, h3, h4, h5, h6, h7, h7', h8, h9, h10⟩ := h
  refine ⟨file, code, h1, ?_⟩
  obtain ⟨tree, g1, g2⟩ := parse_other ext.unescape (j := id) h2
  have g2 := alike_symm g2
  cases g2 with
  | cons _ c' _ _ m1 m2 =>
    cases m2
    obtain ⟨args, k1, k2⟩ := isCall_moved m1 h3
    cases k2 with
    | cons _ cond' _ _ m2 m3 =>
      cases m3 with
      | cons _ y _ _ m4 m5 =>
        cases m5 with
        | cons _ no' _ _ m6 m7 =>
          cases m7
          cases m4 with
          | string _ yes' m4 =>
            obtain ⟨b, l1, l2⟩ := literal_moved m2 h4
            obtain ⟨args, k3, k4⟩ := isCall_moved m6 h7
            cases k4 with
            | cons _ d' _ body' m8 m9 =>
              obtain ⟨args, k5, k6⟩ := isCall_moved m8 h8
              cases k6 with
              | cons _ z _ value' m10 m11 =>
                cases m10 with
                | symbol _ x' m10 =>
                  exact ⟨c', cond', no', d', b, yes', x', value', body', g1, k1, l1, l2.trans h5, m4.1 ▸ h6, k3, alike_trans h7' m9, k5, m10.1 ▸ h9,
                    macrosFree_moved m11 h10⟩

/-- A guarded file is included: the guard is not defined. -/
theorem guarded_first {ext : Ext} {F : GuardFile} (h : Guarded ext F) {c : PNode} (hc : Includes F.path c) {s : St}
    (hs : s.scope F.guard = none) : ∃ body s', Alike F.body body ∧ (s'.scope F.guard).isSome ∧
      (∀ y, y ≠ F.guard → s'.scope y = s.scope y) ∧ s'.log = s.log ∧
      ∀ r t, Evals ext [c] s r t ↔ ∃ r', Evals ext body s' r' t ∧ r = spacedRes c.lw r' := by
  obtain ⟨p, a, h1, h2, h3, h4⟩ := hc
  obtain ⟨file, code, g0, i, cond, no, d, b, yes, x, value, body, g1, g2, g3, g4, g5, g6, g7, g8, g9, g10⟩ := guarded_reads h s.fresh
  obtain ⟨s', k1, k2, k3, k4⟩ := C35_define ext d x value value { s with fresh := s.fresh + 1 } _ g8 (macrosFree_evals ext value g10 _)
  rw [g9] at k2 k3
  refine ⟨body, s', g7, by rw [k2]; rfl, k3, k4, fun r t => ?_⟩
  rw [C52_include ext c p [p] [i] a file code s s t r h1 (macrosFree_evals ext [p] (.cons _ _ h3 .nil) s) h2 (h4 ▸ g0) g1]
  have e1 : ∀ r', Evals ext [i] { s with fresh := s.fresh + 1 } r' t ↔ ∃ r0, Evals ext [no] { s with fresh := s.fresh + 1 } r0 t ∧ r' = spacedRes i.lw r0 :=
    fun r' => C42_undefined ext i cond (.string yes) no b _ t r' g2 g3 (g4 ▸ hs)
  have e2 : ∀ r', Evals ext [no] { s with fresh := s.fresh + 1 } r' t ↔ Evals ext body s' r' t := by
    intro r'
    rw [C51_do ext no (d :: body) _ t r' g6]
    constructor
    · intro h
      rcases h.append_inv (ns := [d]) with ⟨as, u, r0, q1, q2, q3⟩ | ⟨q1, q2⟩
      · obtain ⟨qe, rfl⟩ := q1.unique k1
        cases qe
        rw [q3]
        cases r0 <;> exact q2
      · exact absurd (q1.unique k1).1 (q2 _)
    · intro h
      have e : addBefore [] r' = r' := by cases r' <;> rfl
      rw [← e]
      exact k1.before (ns := [d]) h
  constructor
  · rintro ⟨r', q1, rfl⟩
    obtain ⟨r0, q2, rfl⟩ := (e1 _).1 q1
    exact ⟨r0, (e2 _).1 q2, spacedRes_twice _ _ _⟩
  · rintro ⟨r', q1, rfl⟩
    exact ⟨_, (e1 _).2 ⟨r', (e2 _).2 q1, rfl⟩, (spacedRes_twice _ _ _).symm⟩

/-- A guarded file is included again: the guard is defined. -/
theorem guarded_again {ext : Ext} {F : GuardFile} (h : Guarded ext F) {c : PNode} (hc : Includes F.path c) {s : St}
    (hs : (s.scope F.guard).isSome) : ∃ si, Evals ext [c] s (.ok [.string ⟨F.skip, si, c.lw⟩]) { s with fresh := s.fresh + 1 } := by
  obtain ⟨p, a, h1, h2, h3, h4⟩ := hc
  obtain ⟨file, code, g0, i, cond, no, d, b, yes, x, value, body, g1, g2, g3, g4, g5, _⟩ := guarded_reads h s.fresh
  refine ⟨yes.site, (C52_include ext c p [p] [i] a file code s s _ _ h1 (macrosFree_evals ext [p] (.cons _ _ h3 .nil) s) h2 (h4 ▸ g0) g1).2
    ⟨_, (C42_defined ext i cond (.string yes) b [no] _ _ _ (by simp) g2 g3 (g4 ▸ hs)).2 ⟨_, evals_string ext yes _, rfl⟩, ?_⟩⟩
  rw [spacedRes_twice, ← g5]
  rfl

theorem knows_cons {files : List GuardFile} {seen : List Str} {s s' : St} {g : Str} (h : Knows files seen s) (hg : (s'.scope g).isSome)
    (hs : ∀ y, y ≠ g → s'.scope y = s.scope y) : Knows files (g :: seen) s' := by
  intro F hF
  rcases Classical.em (F.guard = g) with e | e
  · rw [e]
    simp [hg]
  · rw [hs _ e, h F hF, List.mem_cons]
    simp [e]

theorem walk_evals {ext : Ext} {files : List GuardFile} (hf : ∀ F ∈ files, Guarded ext F) {seen seen' : List Str} {ns out : List PNode}
    (h : Walk files seen ns out seen') : ∀ {ms : List PNode} {s : St}, Alike ns ms → Knows files seen s →
      ∃ out' t, Evals ext ms s (.ok out') t ∧ Alike out out' ∧ Knows files seen' t ∧ t.log = s.log ∧
        ∀ y, (∀ F ∈ files, F.guard ≠ y) → t.scope y = s.scope y := by
  induction h with
  | nil seen =>
    intro ms s hm hk
    cases hm
    exact ⟨[], s, .nil ext s, .nil, hk, rfl, fun _ _ => rfl⟩
  | plain seen seen' n ns out hn _ ih =>
    intro ms s hm hk
    cases hm with
    | cons _ m _ ms h1 h2 =>
      obtain ⟨out', t, g1, g2, g3⟩ := ih h2 hk
      exact ⟨m :: out', t, (macroFree_evals ext m (macroFree_moved h1 hn) s).cons g1, .cons _ _ _ _ h1 g2, g3⟩
  | list seen seen₁ seen' ks ns out₁ out si e w hp _ _ ih1 ih2 =>
    intro ms s hm hk
    cases hm with
    | cons _ m _ ms h1 h2 =>
      cases h1 with
      | list _ ls _ ti _ f _ h3 h4 h5 h6 =>
        obtain ⟨out₁', t₁, g1, g2, g3, g4, g5⟩ := ih1 h3 hk
        obtain ⟨out', t, k1, k2, k3, k4, k5⟩ := ih2 h2 g3
        refine ⟨.list out₁' ti f w :: out', t, (evals_list ?_ g1 ti f w).cons k1, .cons _ _ _ _ (.list _ _ _ _ _ _ _ g2 h4 h5 h6) k2, k3,
          k4.trans g4, fun y hy => (k5 y hy).trans (g5 y hy)⟩
        rintro a t' name rfl
        cases h3 with
        | cons _ _ _ _ h7 _ =>
          cases h7 with
          | symbol b _ h7 => rw [← h7.1]; exact hp b _ name rfl
  | again seen seen' F c ns out hF hc hs _ ih =>
    intro ms s hm hk
    cases hm with
    | cons _ m _ ms h1 h2 =>
      obtain ⟨si, g1⟩ := guarded_again (hf F hF) (includes_moved h1 hc) ((hk F hF).2 hs)
      obtain ⟨out', t, k1, k2, k3⟩ := ih h2 (s := { s with fresh := s.fresh + 1 }) hk
      exact ⟨_, t, g1.cons k1, .cons _ _ _ _ (.string _ _ ⟨rfl, moved_lw h1, trivial⟩) k2, k3⟩
  | first seen seen₁ seen' F c ns out₁ out hF hc hs _ _ ih1 ih2 =>
    intro ms s hm hk
    cases hm with
    | cons _ m _ ms h1 h2 =>
      have hn : s.scope F.guard = none := by
        cases h : s.scope F.guard with
        | none => rfl
        | some x => exact absurd ((hk F hF).1 (by rw [h]; rfl)) hs
      obtain ⟨body, s', g1, g2, g3, g4, g5⟩ := guarded_first (hf F hF) (includes_moved h1 hc) hn
      obtain ⟨out₁', t₁, k1, k2, k3, k4, k5⟩ := ih1 g1 (knows_cons hk g2 g3)
      obtain ⟨out', t, l1, l2, l3, l4, l5⟩ := ih2 h2 k3
      refine ⟨firstSpaced m.lw out₁' ++ out', t, ((g5 _ _).2 ⟨_, k1, rfl⟩).cons l1, alike_append ?_ l2, l3, l4.trans (k4.trans g4), fun y hy => ?_⟩
      · rw [moved_lw h1]
        exact alike_firstSpaced _ k2
      · rw [l5 y hy, k5 y hy, g3 y fun e => hy F hF e.symm]

/-- Files whose guards are not among `seen`. -/
def unseen (files : List GuardFile) (seen : List Str) : Nat := (files.filter fun F => !seen.contains F.guard).length

theorem unseen_le {files : List GuardFile} {seen seen' : List Str} (h : ∀ g ∈ seen, g ∈ seen') : unseen files seen' ≤ unseen files seen := by
  unfold unseen
  induction files with
  | nil => exact Nat.le_refl _
  | cons F files ih =>
    rw [List.filter_cons, List.filter_cons]
    by_cases h1 : F.guard ∈ seen
    · have h2 := h _ h1
      simpa [h1, h2] using ih
    · by_cases h2 : F.guard ∈ seen'
      · simp [h1, h2]; simp at ih; omega
      · simpa [h1, h2] using ih

theorem unseen_lt {files : List GuardFile} {seen : List Str} {F : GuardFile} (hF : F ∈ files) (h : F.guard ∉ seen) :
    unseen files (F.guard :: seen) < unseen files seen := by
  obtain ⟨as, bs, rfl⟩ := List.append_of_mem hF
  have h1 := unseen_le (files := as) (seen := seen) (seen' := F.guard :: seen) fun g hg => List.mem_cons_of_mem _ hg
  have h2 := unseen_le (files := bs) (seen := seen) (seen' := F.guard :: seen) fun g hg => List.mem_cons_of_mem _ hg
  have e : ∀ seen, unseen (as ++ F :: bs) seen = unseen as seen + ((if F.guard ∈ seen then 0 else 1) + unseen bs seen) := by
    intro seen
    unfold unseen
    rw [List.filter_append, List.length_append, List.filter_cons]
    by_cases h : F.guard ∈ seen <;> simp [h] <;> omega
  rw [e, e]
  simp only [h, List.mem_cons, true_or, if_true, if_false]
  omega

theorem walk_seen {files : List GuardFile} {seen seen' : List Str} {ns out : List PNode} (h : Walk files seen ns out seen') :
    ∃ more, seen' = more ++ seen ∧ more.Nodup ∧ ∀ g ∈ more, g ∉ seen ∧ ∃ F ∈ files, F.guard = g := by
  induction h with
  | nil seen => exact ⟨[], rfl, .nil, by simp⟩
  | plain _ _ _ _ _ _ _ ih => exact ih
  | list seen seen₁ seen' ks ns out₁ out si e w hp _ _ ih1 ih2 =>
    obtain ⟨m1, rfl, a1, a2⟩ := ih1
    obtain ⟨m2, rfl, b1, b2⟩ := ih2
    refine ⟨m2 ++ m1, by simp, List.nodup_append.2 ⟨b1, a1, ?_⟩, ?_⟩
    · rintro a ha b hb rfl
      exact (b2 a ha).1 (List.mem_append_left _ hb)
    · intro g hg
      rcases List.mem_append.1 hg with hg | hg
      · exact ⟨fun h => (b2 g hg).1 (List.mem_append_right _ h), (b2 g hg).2⟩
      · exact a2 g hg
  | again _ _ _ _ _ _ _ _ _ _ ih => exact ih
  | first seen seen₁ seen' F c ns out₁ out hF hc hs _ _ ih1 ih2 =>
    obtain ⟨m1, rfl, a1, a2⟩ := ih1
    obtain ⟨m2, rfl, b1, b2⟩ := ih2
    refine ⟨m2 ++ (m1 ++ [F.guard]), by simp, List.nodup_append.2 ⟨b1, List.nodup_append.2 ⟨a1, by simp, ?_⟩, ?_⟩, ?_⟩
    · rintro a ha b hb rfl
      exact (a2 a ha).1 (by simp at hb; simp [hb])
    · rintro a ha b hb rfl
      refine (b2 a ha).1 ?_
      simp at hb ⊢
      rcases hb with hb | hb <;> simp [hb]
    · intro g hg
      simp only [List.mem_append, List.mem_singleton] at hg
      rcases hg with hg | hg | rfl
      · exact ⟨fun h => (b2 g hg).1 (by simp [h]), (b2 g hg).2⟩
      · exact ⟨fun h => (a2 g hg).1 (by simp [h]), (a2 g hg).2⟩
      · exact ⟨hs, F, hF, rfl⟩

/-- A walk behind another. -/
theorem walk_append {files : List GuardFile} {seen seen₁ seen' : List Str} {ns ms out out' : List PNode} (h : Walk files seen ns out seen₁)
    (h' : Walk files seen₁ ms out' seen') : Walk files seen (ns ++ ms) (out ++ out') seen' := by
  induction h with
  | nil => exact h'
  | plain _ _ _ _ _ hn _ ih => exact .plain _ _ _ _ _ hn (ih h')
  | list _ _ _ _ _ _ _ _ _ _ hp h1 _ _ ih => exact .list _ _ _ _ _ _ _ _ _ _ hp h1 (ih h')
  | again _ _ F _ _ _ hF hc hs _ ih => exact .again _ _ F _ _ _ hF hc hs (ih h')
  | first _ _ _ F _ _ _ _ hF hc hs h1 _ _ ih => rw [List.append_assoc]; exact .first _ _ _ F _ _ _ _ hF hc hs h1 (ih h')

mutual
theorem walks_node {files : List GuardFile} {k : Nat} (ihk : ∀ seen, unseen files seen < k → ∀ F ∈ files, ∃ out seen', Walk files seen F.body out seen') :
    ∀ {n : PNode}, OnlyIncludes files n → ∀ seen, unseen files seen ≤ k → ∃ out seen', Walk files seen [n] out seen'
  | _, .plain n h, seen, _ => ⟨[n], seen, .plain _ _ _ _ _ h (.nil _)⟩
  | _, .list ks s e w hp h, seen, hk => by
    obtain ⟨out, seen', h1⟩ := walks_nodes ihk h seen hk
    exact ⟨_, seen', .list _ _ _ _ _ _ _ _ _ _ hp h1 (.nil _)⟩
  | _, .include_ F c hF hc, seen, hk => by
    by_cases hs : F.guard ∈ seen
    · exact ⟨_, seen, .again _ _ F _ _ _ hF hc hs (.nil _)⟩
    · obtain ⟨out, seen', h1⟩ := ihk (F.guard :: seen) (Nat.lt_of_lt_of_le (unseen_lt hF hs) hk) F hF
      exact ⟨_, seen', .first _ _ _ F _ _ _ _ hF hc hs h1 (.nil _)⟩
theorem walks_nodes {files : List GuardFile} {k : Nat} (ihk : ∀ seen, unseen files seen < k → ∀ F ∈ files, ∃ out seen', Walk files seen F.body out seen') :
    ∀ {ns : List PNode}, OnlyIncludess files ns → ∀ seen, unseen files seen ≤ k → ∃ out seen', Walk files seen ns out seen'
  | _, .nil, seen, _ => ⟨[], seen, .nil _⟩
  | _, .cons n ns h hs, seen, hk => by
    obtain ⟨out, seen₁, h1⟩ := walks_node ihk h seen hk
    obtain ⟨more, rfl, _⟩ := walk_seen h1
    obtain ⟨out', seen', h2⟩ := walks_nodes ihk hs (more ++ seen) (Nat.le_trans (unseen_le fun g hg => List.mem_append_right _ hg) hk)
    exact ⟨_, seen', walk_append h1 h2⟩
end

theorem walks {files : List GuardFile} (hf : ∀ F ∈ files, OnlyIncludess files F.body) : ∀ (k : Nat) {ns : List PNode}, OnlyIncludess files ns →
    ∀ seen, unseen files seen ≤ k → ∃ out seen', Walk files seen ns out seen'
  | 0, _, h, seen, hk => walks_nodes (k := 0) (fun _ h => absurd h (Nat.not_lt_zero _)) h seen hk
  | k + 1, _, h, seen, hk => walks_nodes (k := k + 1) (fun seen hlt F hF => walks hf k (hf F hF) seen (Nat.le_of_lt_succ hlt)) h seen hk

end Seam
