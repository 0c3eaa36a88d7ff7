import Verif.Lemmas.Apply
import Verif.Lemmas.Date
import Verif.Spec.Tree
import Verif.Lemmas.Lexer

/-! Lemmas about the names that `%lambda` makes. -/

namespace Seam
open Spec

theorem natStr_noDash (n : Nat) : '-' ∉ natStr n := fun h => by
  have := ((natStr_digits n).1 _ h).1
  exact absurd this (by decide)

theorem natStr_inj {m n : Nat} (h : natStr m = natStr n) : m = n := by
  rw [← (natStr_digits m).2.2, ← (natStr_digits n).2.2, h]

theorem split_dash : ∀ {a a' b b' : Str}, '-' ∉ a → '-' ∉ a' → a ++ '-' :: b = a' ++ '-' :: b' → a = a' ∧ b = b'
  | [], [], _, _, _, _, h => ⟨rfl, by simpa using h⟩
  | [], _ :: _, _, _, _, ha', h => by simp_all
  | _ :: _, [], _, _, ha, _, h => by
    simp only [List.cons_append, List.nil_append, List.cons.injEq] at h
    simp [h.1] at ha
  | x :: a, y :: a', b, b', ha, ha', h => by
    simp only [List.cons_append, List.cons.injEq] at h
    obtain ⟨rfl, h⟩ := h
    obtain ⟨rfl, rfl⟩ := split_dash (fun h => ha (by simp [h])) (fun h => ha' (by simp [h])) h
    exact ⟨rfl, rfl⟩

/-- The identifier of a site tells its hash and its offset. -/
theorem uuid_inj {ext : Ext} {p q : Site} (h : ext.uuid p = ext.uuid q) :
    ext.siteHash p.path p.line p.off p.bol p.span = ext.siteHash q.path q.line q.off q.bol q.span ∧ p.off = q.off := by
  obtain ⟨h1, h2⟩ := split_dash (natStr_noDash _) (natStr_noDash _) h
  exact ⟨natStr_inj h1, natStr_inj h2⟩

/-- The tokens of a text start further and further to the right. -/
theorem covers_ascending : ∀ {before rest : Str} {ss : List Site}, Covers before rest ss →
    (∀ p ∈ ss, blen before ≤ p.off) ∧ ss.Pairwise fun p q => p.off < q.off
  | _, _, _, .nil _ _ _ => ⟨by simp, .nil⟩
  | _, _, _, .cons before triv lead text rest s ss _ ht ho _ hc => by
    obtain ⟨h1, h2⟩ := covers_ascending hc
    have hl : 0 < blen text := by
      cases text with
      | nil => exact absurd rfl ht
      | cons c cs =>
        have := c.utf8Size_pos
        simp only [blen]
        omega
    have key : ∀ q ∈ ss, s.off < q.off := fun q hq => by
      have := h1 q hq
      rw [blen_append] at this
      omega
    refine ⟨fun p hp => ?_, .cons key h2⟩
    rw [blen_append] at ho
    rcases List.mem_cons.1 hp with rfl | hp
    · omega
    · have := key p hp
      omega

theorem lambda_ok_inv {ext : Ext} {args out : List PNode} {c : PNode} {s t : St} (hc : IsCall (str! "lambda") args c)
    (h : Evals ext [c] s (.ok out) t) : ∃ head back ps, (positional args = head :: back ∧ LambdaParams head ps) ∧
      out = [.symbol ⟨str! "__lambda" ++ ext.uuid c.site, c.site, c.lw⟩] ∧
      t = { s with scope := s.scope.insert (str! "__lambda" ++ ext.uuid c.site) { params := ps, body := dropPositional 1 args } } := by
  cases hp : positional args with
  | nil =>
    obtain ⟨e, he⟩ := lambda_none (ext := ext) hc hp s
    exact absurd (h.unique he).1 (by simp)
  | cons head back =>
    by_cases hg : ∃ ps, LambdaParams head ps ∧ (restNames ps).length ≤ 1 ∧ (kwRestNames ps).length ≤ 1
    · obtain ⟨ps, h1, h2, h3⟩ := hg
      obtain ⟨h4, h5⟩ := h.unique (lambda_ok hc hp h1 h2 h3 s)
      exact ⟨head, back, ps, ⟨rfl, h1⟩, Res.ok.inj h4, h5⟩
    · obtain ⟨e, he⟩ := lambda_err (ext := ext) hc hp hg s
      exact absurd (h.unique he).1 (by simp)

/-- Other `%lambda` calls leave a definition alone. -/
theorem lambdas_keep {ext : Ext} {p : Site} : ∀ {cs out : List PNode} {s t : St},
    (∀ c ∈ cs, ∃ args, IsCall (str! "lambda") args c) → (∀ c ∈ cs, p.off ≠ c.site.off) → Evals ext cs s (.ok out) t →
    t.scope (str! "__lambda" ++ ext.uuid p) = s.scope (str! "__lambda" ++ ext.uuid p)
  | [], _, s, t, _, _, h => by rw [((Evals.nil ext s).unique h).2]
  | c :: cs, out, s, t, hl, hd, h => by
    rcases Spec.Evals.append_inv (ns := [c]) (ms := cs) h with ⟨as, t', r', h1, h2, h3⟩ | ⟨_, h2⟩
    · cases r' with
      | ok bs =>
        rw [lambdas_keep (fun c hc => hl c (List.mem_cons_of_mem _ hc)) (fun c hc => hd c (List.mem_cons_of_mem _ hc)) h2]
        obtain ⟨args, hc⟩ := hl c List.mem_cons_self
        obtain ⟨_, _, ps, _, _, rfl⟩ := lambda_ok_inv hc h1
        refine if_neg ?_
        simp only [beq_iff_eq]
        intro he
        exact hd c List.mem_cons_self (uuid_inj (List.append_cancel_left he)).2
      | _ => simp [addBefore] at h3
    · exact absurd rfl (h2 _)

end Seam
