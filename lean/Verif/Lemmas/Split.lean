import Verif.Lemmas.Sayable
import Verif.Props.Scope

/-! Loops over lists that are taken apart. -/

namespace Seam
open Spec

theorem addBefore_append (as bs : List PNode) (r : Res (List PNode)) : addBefore (as ++ bs) r = addBefore as (addBefore bs r) := by
  cases r <;> simp [addBefore]

theorem addBefore_ok {as : List PNode} {r : Res (List PNode)} (h : ∀ a, r ≠ .ok a) : addBefore as r = r := by
  cases r with
  | ok a => exact absurd rfl (h a)
  | _ => rfl

/-- Without definitions in the body, the names other than the iterator stay as they are. -/
theorem loops_quiet {ext : Ext} {a : Node} {body : List PNode}
    (hq : ∀ (u v : St) as, Fair u.order → Evals ext body u (.ok as) v → v.scope = u.scope) :
    ∀ {xs : List PNode} {s t : St} {out : List PNode}, Fair s.order → Loops ext (.symbol a) body xs s (.ok out) t →
      (∀ y, y ≠ a.value → t.scope y = s.scope y) ∧ Fair t.order := by
  intro xs s t out hf h
  generalize hr : (Res.ok out : Res (List PNode)) = r at h
  induction h generalizing out with
  | done s => exact ⟨fun _ _ => rfl, hf⟩
  | item x xs as s u v t r h1 h2 h3 ih =>
    cases r with
    | ok bs =>
      have hu : ({ s with scope := s.scope.insert a.value (Macro.var [x]) } : St) = u := (Prod.mk.inj h1).2
      subst hu
      obtain ⟨g1, g2⟩ := ih (out := bs) (evals_fair h2 hf) rfl
      refine ⟨fun y hy => ?_, g2⟩
      rw [g1 y hy, hq { s with scope := s.scope.insert a.value (Macro.var [x]) } v as hf h2]
      show (if (y == a.value) = true then _ else _) = _
      rw [if_neg (by simpa using hy)]
    | _ => simp [addBefore] at hr
  | failed x xs s u t r h1 h2 h3 => exact absurd hr.symm (h3 out)
  | mismatch x xs s t er h1 => cases hr

/-- A loop does not depend on what its iterator was before. -/
theorem loops_restart {ext : Ext} {a : Node} {body xs : List PNode} {s t : St} {r : Res (List PNode)} {sc : Scope}
    (h : Loops ext (.symbol a) body xs s r t) (hs : ∀ y, y ≠ a.value → s.scope y = sc y) :
    ∃ t', Loops ext (.symbol a) body xs { s with scope := sc } r t' ∧ ∀ sc', ({ t' with scope := sc' } : St) = { t with scope := sc' } := by
  have hb : ∀ x, Seam.bind (.symbol a) x { s with scope := sc } = Seam.bind (.symbol a) x s := fun x => by
    show (Res.ok (), ({ s with scope := sc.insert a.value (Macro.var [x]) } : St)) = (Res.ok (), { s with scope := s.scope.insert a.value (Macro.var [x]) })
    congr 2
    funext y
    show (if (y == a.value) = true then _ else _) = (if (y == a.value) = true then _ else _)
    split
    · rfl
    · rename_i hy
      exact (hs y (by simpa using hy)).symm
  cases h with
  | done s => exact ⟨_, .done _, fun _ => rfl⟩
  | item x xs as s u v t r h1 h2 h3 => exact ⟨t, .item x xs as _ u v t r ((hb x).trans h1) h2 h3, fun _ => rfl⟩
  | failed x xs s u t r h1 h2 h3 => exact ⟨t, .failed x xs _ u t r ((hb x).trans h1) h2 h3, fun _ => rfl⟩
  | mismatch x xs s t er h1 => exact ⟨t, .mismatch x xs _ t er ((hb x).trans h1), fun _ => rfl⟩

theorem loops_append {ext : Ext} {it : PNode} {body : List PNode} : ∀ {xs ys : List PNode} {s t : St} {r : Res (List PNode)},
    Loops ext it body (xs ++ ys) s r t ↔
      (∃ as u r', Loops ext it body xs s (.ok as) u ∧ Loops ext it body ys u r' t ∧ r = addBefore as r') ∨
      (Loops ext it body xs s r t ∧ ∀ a, r ≠ .ok a)
  | [], ys, s, t, r => by
    constructor
    · intro h
      exact .inl ⟨[], s, r, .done s, h, by cases r <;> rfl⟩
    · rintro (⟨as, u, r', h1, h2, rfl⟩ | ⟨h, h'⟩)
      · cases h1
        cases r' <;> exact h2
      · cases h
        exact absurd rfl (h' _)
  | x :: xs, ys, s, t, r => by
    constructor
    · intro h
      cases h with
      | item _ _ as _ u v _ r h1 h2 h3 =>
        rcases loops_append.1 h3 with ⟨bs, w, r', g1, g2, rfl⟩ | ⟨g1, g2⟩
        · exact .inl ⟨as ++ bs, w, r', .item x xs as s u v w (.ok bs) h1 h2 g1, g2, (addBefore_append as bs r').symm⟩
        · refine .inr ⟨.item x xs as s u v t r h1 h2 g1, ?_⟩
          rw [addBefore_ok g2]
          exact g2
      | failed _ _ _ u _ _ h1 h2 h3 => exact .inr ⟨.failed x xs s u t r h1 h2 h3, h3⟩
      | mismatch _ _ _ _ er h1 => exact .inr ⟨.mismatch x xs s t er h1, by simp⟩
    · rintro (⟨as, u, r', h1, h2, rfl⟩ | ⟨h, h'⟩)
      · generalize hq : (Res.ok as : Res (List PNode)) = q at h1
        cases h1 with
        | item _ _ bs _ v w _ q h1 h3 h4 =>
          cases q with
          | ok cs =>
            cases hq
            rw [addBefore_append]
            exact .item x _ bs s v w t _ h1 h3 (loops_append.2 (.inl ⟨cs, u, r', h4, h2, rfl⟩))
          | _ => simp [addBefore] at hq
        | failed _ _ _ _ _ _ _ _ h3 => exact absurd hq.symm (h3 as)
        | mismatch => cases hq
      · cases h with
        | item _ _ as _ u v _ r h1 h2 h3 =>
          have hr : ∀ a, r ≠ .ok a := by
            rintro a rfl
            exact h' _ rfl
          exact .item x _ as s u v t r h1 h2 (loops_append.2 (.inr ⟨h3, hr⟩))
        | failed _ _ _ u _ _ h1 h2 h3 => exact .failed x _ s u t r h1 h2 h3
        | mismatch _ _ _ _ er h1 => exact .mismatch x _ s t er h1

/-- `%for` over a list without macros. -/
theorem for_free {ext : Ext} {c : PNode} {a b : Node} {args ys rest : List PNode} {si : Site} {e : Token} {w : Str} {s t : St}
    {r : Res (List PNode)} (hc : IsCall (str! "for") args c) (hf : Fair s.order)
    (hp : positional args = .symbol a :: .symbol b :: .list ys si e w :: rest) (hb : b.value = str! "in") (hy : MacrosFree ys) :
    Evals ext [c] s r t ↔ ∃ t', Loops ext (.symbol a) (dropPositional 3 args) ys s r t' ∧ t = { t' with scope := s.scope } := by
  rw [C43_exact ext c _ b args ys rest si e w s t r hc hf hp hb]
  have hy' := macrosFree_evals ext ys hy s
  constructor
  · rintro (⟨zs, u, t', h1, h2, h3⟩ | ⟨h1, h2⟩)
    · obtain ⟨e1, rfl⟩ := hy'.unique h1
      cases e1
      exact ⟨t', h2, h3⟩
    · exact absurd (hy'.unique h1).1.symm (h2 ys)
  · rintro ⟨t', h1, h2⟩
    exact .inl ⟨ys, s, t', hy', h1, h2⟩

end Seam
