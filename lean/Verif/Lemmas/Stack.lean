import Verif.Spec.Stack
import Verif.Lemmas.Parser

/-! The reader on a bounded stack. -/

namespace Seam
open Spec Stacked

/-- With the stack as it is, either the outcome is that of the unbounded function, or it overflows. -/
def OnStack {α : Type} (x : Stacked α) (r : Res α) : Prop := x = overflow ∨ x = fits r

theorem OnStack.fits {α : Type} (r : Res α) : OnStack (fits r) r := .inr rfl

theorem OnStack.bind {α β : Type} {x : Stacked α} {r : Res α} {f : α → Stacked β} {g : α → Res β} (h : OnStack x r)
    (hf : ∀ a, OnStack (f a) (g a)) : OnStack (x >>= f) (r >>= g) := by
  rcases h with rfl | rfl
  · exact .inl rfl
  · cases r with
    | ok a => exact hf a
    | err e => exact .inr rfl
    | panic => exact .inr rfl
    | diverge => exact .inr rfl

theorem fits_bind {α β : Type} (a : α) (f : α → Stacked β) : ((fits (.ok a) : Stacked α) >>= f) = f a := rfl
theorem fits_bind_err {α β : Type} (e : Err) (f : α → Stacked β) : ((fits (.err e) : Stacked α) >>= f) = fits (.err e) := rfl
theorem fits_bind_diverge {α β : Type} (f : α → Stacked β) : ((fits .diverge : Stacked α) >>= f) = fits .diverge := rfl
theorem fits_bind_panic {α β : Type} (f : α → Stacked β) : ((fits .panic : Stacked α) >>= f) = fits .panic := rfl
theorem overflow_bind {α β : Type} (f : α → Stacked β) : ((overflow : Stacked α) >>= f) = overflow := rfl

theorem reader_onStack (u : Unescape) (fuel : Nat) :
    (∀ levels l, OnStack (parseExprIn u fuel levels l) (parseExpr u fuel l)) ∧
    (∀ levels l, OnStack (parseKeywordIn u fuel levels l) (parseKeyword u fuel l)) ∧
    (∀ levels l, OnStack (parseListIn u fuel levels l) (parseList u fuel l)) ∧
    (∀ levels l, OnStack (parseElemsIn u fuel levels l) (parseElems u fuel l)) := by
  induction fuel with
  | zero => refine ⟨?_, ?_, ?_, ?_⟩ <;> intro levels l <;> exact .inr (by simp only [parseExprIn, parseExpr, parseKeywordIn, parseKeyword, parseListIn, parseList, parseElemsIn, parseElems])
  | succ fuel ih =>
    obtain ⟨i1, i2, i3, i4⟩ := ih
    refine ⟨?_, ?_, ?_, ?_⟩ <;> intro levels l
    · cases levels with
      | zero => exact .inl (by simp only [parseExprIn])
      | succ levels =>
        simp only [parseExprIn, parseExpr]
        refine .bind (.fits _) fun t => ?_
        cases t.kind with
        | lparen => exact i3 _ _
        | rparen => exact .fits _
        | keyword => exact i2 _ _
        | symbol => exact .bind (.fits _) fun _ => .fits _
        | string => exact .bind (.fits _) fun _ => .fits _
        | number => exact .bind (.fits _) fun _ => .fits _
    · simp only [parseKeywordIn, parseKeyword]
      refine .bind (.fits _) fun ⟨t, l⟩ => ?_
      dsimp only
      split
      · split
        · exact .fits _
        · refine .bind (.fits _) fun t' => ?_
          split
          · exact .fits _
          · exact .bind (i1 _ _) fun _ => .fits _
      · exact .fits _
    · simp only [parseListIn, parseList]
      refine .bind (.fits _) fun ⟨t, l⟩ => ?_
      dsimp only
      split
      · refine .bind (i4 _ _) fun ⟨ns, r, l⟩ => ?_
        cases r with
        | none => exact .fits _
        | some e => exact .fits _
      · exact .fits _
    · simp only [parseElemsIn, parseElems]
      split
      · exact .fits _
      · refine .bind (.fits _) fun t => ?_
        split
        · exact .bind (.fits _) fun _ => .fits _
        · exact .bind (i1 _ _) fun _ => .bind (i4 _ _) fun _ => .fits _

theorem root_onStack (u : Unescape) : ∀ fuel levels l, OnStack (parseRootIn u fuel levels l) (parseRoot u fuel l)
  | 0, _, _ => .inr (by simp only [parseRootIn, parseRoot])
  | fuel + 1, levels, l => by
    simp only [parseRootIn, parseRoot]
    split
    · exact .fits _
    · exact .bind ((reader_onStack u fuel).1 _ _) fun _ => .bind (root_onStack u fuel _ _) fun _ => .fits _

/-! ### Sources that are read -/

/-- The outcome of a success that needs `n` levels. -/
def needs {α : Type} (n levels : Nat) (a : α) : Stacked α := if n ≤ levels then fits (.ok a) else overflow

theorem needs_bind {α β : Type} {n levels : Nat} {a : α} {f : α → Stacked β} :
    (needs n levels a >>= f) = if n ≤ levels then f a else overflow := by
  unfold needs
  split
  · rfl
  · rfl

theorem reader_needs (u : Unescape) (fuel : Nat) :
    (∀ levels l n l', parseExpr u fuel l = .ok (n, l') → parseExprIn u fuel levels l = needs (nesting n) levels (n, l')) ∧
    (∀ levels l n l', parseKeyword u fuel l = .ok (n, l') → parseKeywordIn u fuel levels l = needs (nesting n) (levels + 1) (n, l')) ∧
    (∀ levels l n l', parseList u fuel l = .ok (n, l') → parseListIn u fuel levels l = needs (nesting n) (levels + 1) (n, l')) ∧
    (∀ levels l ns r l', parseElems u fuel l = .ok (ns, r, l') →
      parseElemsIn u fuel levels l = needs (nestings ns) levels (ns, r, l')) := by
  induction fuel with
  | zero => refine ⟨?_, ?_, ?_, ?_⟩ <;> intros <;> rename_i h <;> simp only [parseExpr, parseKeyword, parseList, parseElems] at h <;> cases h
  | succ fuel ih =>
    obtain ⟨i1, i2, i3, i4⟩ := ih
    refine ⟨?_, ?_, ?_, ?_⟩
    · intro levels l n l' h
      simp only [parseExpr, Res.bind_eq_ok] at h
      obtain ⟨t, ht, h⟩ := h
      have hpos : 0 < nesting n := by cases n <;> simp only [nesting] <;> omega
      cases levels with
      | zero =>
        rw [needs, if_neg (by omega)]
        simp only [parseExprIn]
      | succ levels =>
        simp only [parseExprIn, ht, fits_bind]
        cases hk : t.kind with
        | lparen => rw [hk] at h; exact i3 _ _ _ _ h
        | rparen => rw [hk] at h; cases h
        | keyword => rw [hk] at h; exact i2 _ _ _ _ h
        | symbol =>
          rw [hk] at h
          simp only [Res.bind_eq_ok, Res.ok.injEq, Prod.mk.injEq] at h
          obtain ⟨⟨a, l1⟩, h1, rfl, rfl⟩ := h
          rw [h1, fits_bind]
          exact (if_pos (show 1 ≤ levels + 1 by omega)).symm
        | string =>
          rw [hk] at h
          simp only [Res.bind_eq_ok, Res.ok.injEq, Prod.mk.injEq] at h
          obtain ⟨⟨a, l1⟩, h1, rfl, rfl⟩ := h
          rw [h1, fits_bind]
          exact (if_pos (show 1 ≤ levels + 1 by omega)).symm
        | number =>
          rw [hk] at h
          simp only [Res.bind_eq_ok, Res.ok.injEq, Prod.mk.injEq] at h
          obtain ⟨⟨a, l1⟩, h1, rfl, rfl⟩ := h
          rw [h1, fits_bind]
          exact (if_pos (show 1 ≤ levels + 1 by omega)).symm
    · intro levels l n l' h
      simp only [parseKeyword, Res.bind_eq_ok] at h
      obtain ⟨⟨t, l1⟩, ht, h⟩ := h
      simp only [parseKeywordIn, ht, fits_bind]
      dsimp only at h
      split at h
      · rename_i hk
        rw [if_pos hk]
        split at h
        · cases h
        · rename_i he
          rw [if_neg he]
          simp only [Res.bind_eq_ok] at h
          obtain ⟨t', ht', h⟩ := h
          rw [ht', fits_bind]
          split at h
          · cases h
          · rename_i hr
            rw [if_neg hr]
            simp only [Res.bind_eq_ok, Res.ok.injEq, Prod.mk.injEq] at h
            obtain ⟨⟨v, l2⟩, hv, rfl, rfl⟩ := h
            rw [i1 _ _ _ _ hv, needs_bind]
            simp only [needs, nesting, Nat.add_le_add_iff_right]
      · cases h
    · intro levels l n l' h
      simp only [parseList, Res.bind_eq_ok] at h
      obtain ⟨⟨t, l1⟩, ht, h⟩ := h
      simp only [parseListIn, ht, fits_bind]
      dsimp only at h
      split at h
      · rename_i hk
        rw [if_pos hk]
        simp only [Res.bind_eq_ok] at h
        obtain ⟨⟨ns, r, l2⟩, hn, h⟩ := h
        rw [i4 _ _ _ _ _ hn, needs_bind]
        cases r with
        | none => cases h
        | some e =>
          simp only [Res.ok.injEq, Prod.mk.injEq] at h
          obtain ⟨rfl, rfl⟩ := h
          simp only [needs, nesting, Nat.add_le_add_iff_right]
      · cases h
    · intro levels l ns r l' h
      simp only [parseElems] at h
      simp only [parseElemsIn]
      split at h
      · rename_i he
        rw [if_pos he]
        simp only [Res.ok.injEq, Prod.mk.injEq] at h
        obtain ⟨rfl, rfl, rfl⟩ := h
        simp [needs, nestings]
      · rename_i he
        rw [if_neg he]
        simp only [Res.bind_eq_ok] at h
        obtain ⟨t, ht, h⟩ := h
        rw [ht, fits_bind]
        split at h
        · rename_i hr
          rw [if_pos hr]
          simp only [Res.bind_eq_ok, Res.ok.injEq, Prod.mk.injEq] at h
          obtain ⟨⟨c, l1⟩, hc, rfl, rfl, rfl⟩ := h
          rw [hc, fits_bind]
          simp [needs, nestings]
        · rename_i hr
          rw [if_neg hr]
          simp only [Res.bind_eq_ok, Res.ok.injEq, Prod.mk.injEq] at h
          obtain ⟨⟨n, l1⟩, hn, ⟨ns', r', l2⟩, hs, rfl, rfl, rfl⟩ := h
          rw [i1 _ _ _ _ hn, needs_bind]
          simp only [i4 _ _ _ _ _ hs, needs, nestings, Nat.max_le]
          split
          · rename_i h1
            split
            · rename_i h2
              rw [if_pos ⟨h1, h2⟩]; rfl
            · rename_i h2
              rw [if_neg (fun h => h2 h.2)]; rfl
          · rename_i h1
            rw [if_neg (fun h => h1 h.1)]

theorem root_needs (u : Unescape) : ∀ fuel levels l ns, parseRoot u fuel l = .ok ns →
    parseRootIn u fuel levels l = needs (nestings ns) levels ns
  | 0, _, _, _, h => by simp only [parseRoot] at h; cases h
  | fuel + 1, levels, l, ns, h => by
    simp only [parseRoot] at h
    simp only [parseRootIn]
    split at h
    · rename_i he
      rw [if_pos he]
      cases h
      simp [needs, nestings]
    · rename_i he
      rw [if_neg he]
      simp only [Res.bind_eq_ok, Res.ok.injEq] at h
      obtain ⟨⟨n, l1⟩, hn, ns', hs, rfl⟩ := h
      rw [(reader_needs u fuel).1 _ _ _ _ hn, needs_bind]
      simp only [root_needs u fuel levels _ _ hs, needs, nestings, Nat.max_le]
      split
      · rename_i h1
        split
        · rename_i h2
          rw [if_pos ⟨h1, h2⟩]; rfl
        · rename_i h2
          rw [if_neg (fun h => h2 h.2)]; rfl
      · rename_i h1
        rw [if_neg (fun h => h1 h.1)]

/-! ### All sources -/

theorem valueEnds_idem : ∀ st, valueEnds (valueEnds st) = valueEnds st
  | [] => rfl
  | .keyword :: st => by simp only [valueEnds]; exact valueEnds_idem st
  | .paren :: st => rfl

mutual
theorem expr_opens {u : Unescape} : ∀ {ts : List Token} {n : PNode}, Expr u ts n → ∀ st,
    (ts.map Token.kind).foldl afterToken st = valueEnds st
  | _, _, .symbol t h, st => by simp [h, afterToken]
  | _, _, .number t h, st => by simp [h, afterToken]
  | _, _, .string t v h _, st => by simp [h, afterToken]
  | _, _, .list o c ts ns ho hc h, st => by
    have := exprs_opens h (.paren :: st) rfl
    simp [ho, hc, afterToken, this]
  | _, _, .attr k ts n hk h, st => by
    have := expr_opens h (.keyword :: st)
    simpa [hk, afterToken, valueEnds] using this
theorem exprs_opens {u : Unescape} : ∀ {ts : List Token} {ns : List PNode}, Exprs u ts ns → ∀ st, valueEnds st = st →
    (ts.map Token.kind).foldl afterToken st = st
  | _, _, .nil, st, _ => rfl
  | _, _, .cons ts n ts' ns h hs, st, hst => by
    rw [List.map_append, List.foldl_append, expr_opens h, hst, exprs_opens hs st hst]
end

theorem Spec.Shallow.here {levels : Nat} {st : List Open} {k : Kind} {ks : List Kind} (h : Shallow levels st (k :: ks)) (hk : k ≠ .rparen) :
    st.length < levels := h [] k ks rfl hk

theorem Spec.Shallow.later {levels : Nat} {st : List Open} {ks ks' : List Kind} (h : Shallow levels st (ks ++ ks')) :
    Shallow levels (ks.foldl afterToken st) ks' := by
  intro before k after hk hr
  have := h (ks ++ before) k after (by rw [hk, List.append_assoc]) hr
  rwa [List.foldl_append] at this

theorem overflow_ne {α : Type} (r : Res α) : fits r ≠ overflow := nofun

theorem bind_fits_ne {α β : Type} {x : Stacked α} {r : Res α} {f : α → Stacked β} (hx : x ≠ overflow) (h : OnStack x r)
    (hf : ∀ a, r = .ok a → f a ≠ overflow) : (x >>= f) ≠ overflow := by
  rcases h with rfl | rfl
  · exact absurd rfl hx
  · cases r with
    | ok a => exact hf a rfl
    | err e => exact overflow_ne _
    | panic => exact overflow_ne _
    | diverge => exact overflow_ne _

theorem fits_bind_ne {α β : Type} {r : Res α} {f : α → Stacked β} (hf : ∀ a, r = .ok a → f a ≠ overflow) :
    ((fits r : Stacked α) >>= f) ≠ overflow := bind_fits_ne (overflow_ne _) (.fits _) hf

theorem reader_fits (u : Unescape) (b : Buf) (total : Nat) (fuel : Nat) :
    (∀ l toks e st, At b l toks e → ¬ (toks = [] ∧ e = .eof) → 3 * toks.length + 1 ≤ fuel → Shallow total st (toks.map Token.kind) →
      st.length < total → parseExprIn u fuel (total - st.length) l ≠ overflow) ∧
    (∀ l k toks e st, At b l (k :: toks) e → k.kind = .keyword → 3 * toks.length + 3 ≤ fuel →
      Shallow total (.keyword :: st) (toks.map Token.kind) →
      parseKeywordIn u fuel (total - st.length - 1) l ≠ overflow) ∧
    (∀ l o toks e st, At b l (o :: toks) e → o.kind = .lparen → 3 * toks.length + 3 ≤ fuel →
      Shallow total (.paren :: st) (toks.map Token.kind) →
      parseListIn u fuel (total - st.length - 1) l ≠ overflow) ∧
    (∀ l toks e st, At b l toks e → 3 * toks.length + 2 ≤ fuel → Shallow total st (toks.map Token.kind) → valueEnds st = st →
      parseElemsIn u fuel (total - st.length) l ≠ overflow) := by
  induction fuel with
  | zero => refine ⟨?_, ?_, ?_, ?_⟩ <;> intros <;> omega
  | succ fuel ih =>
    obtain ⟨i1, i2, i3, i4⟩ := ih
    have snd := parse_sound u b fuel
    refine ⟨?_, ?_, ?_, ?_⟩
    · intro l toks e st h hne hf hs hst
      obtain ⟨d, hd⟩ : ∃ d, total - st.length = d + 1 := ⟨total - st.length - 1, by omega⟩
      have hd' : d = total - st.length - 1 := by omega
      rw [hd]
      simp only [parseExprIn]
      refine fits_bind_ne fun t ht => ?_
      cases toks with
      | nil =>
        cases e with
        | eof => exact absurd ⟨rfl, rfl⟩ hne
        | unclosed q s => rw [peek_unclosed h] at ht; cases ht
        | cut => rw [peek_cut h] at ht; cases ht
      | cons t' ts =>
        rw [peek_token h] at ht
        cases ht
        simp only [List.length_cons] at hf
        have hl := Spec.Shallow.later (ks := [t.kind]) (ks' := ts.map Token.kind) hs
        cases hk : t.kind with
        | lparen =>
          rw [hk] at hl
          rw [hd']
          exact i3 l t ts e st h hk (by omega) hl
        | rparen => exact overflow_ne _
        | keyword =>
          rw [hk] at hl
          rw [hd']
          exact i2 l t ts e st h hk (by omega) hl
        | symbol => exact fits_bind_ne fun _ _ => overflow_ne _
        | string => exact fits_bind_ne fun _ _ => overflow_ne _
        | number => exact fits_bind_ne fun _ _ => overflow_ne _
    · intro l k toks e st h hk hf hs
      simp only [parseKeywordIn]
      obtain ⟨_, l', h2, h3⟩ := h.token
      rw [h2, fits_bind]
      dsimp only
      rw [if_pos hk]
      split
      · exact overflow_ne _
      · refine fits_bind_ne fun t' ht' => ?_
        split
        · exact overflow_ne _
        · rename_i hr
          refine bind_fits_ne ?_ ((reader_onStack u fuel).1 _ _) fun _ _ => overflow_ne _
          cases toks with
          | nil =>
            cases e with
            | eof => rename_i he; exact absurd (At.eof h3) he
            | unclosed q s => rw [peek_unclosed h3] at ht'; cases ht'
            | cut => rw [peek_cut h3] at ht'; cases ht'
          | cons t ts =>
            rw [peek_token h3] at ht'
            cases ht'
            have := hs.here hr
            simp only [List.length_cons] at hf
            rw [Nat.sub_sub]
            exact i1 l' _ e (.keyword :: st) h3 (by simp) (by simp only [List.length_cons]; omega) hs this
    · intro l o toks e st h ho hf hs
      simp only [parseListIn]
      obtain ⟨_, l', h2, h3⟩ := h.token
      rw [h2, fits_bind]
      dsimp only
      rw [if_pos ho]
      rw [Nat.sub_sub]
      refine bind_fits_ne (i4 l' toks e (.paren :: st) h3 (by omega) hs rfl) ((reader_onStack u fuel).2.2.2 _ _) ?_
      rintro ⟨ns, r, l2⟩ _
      cases r with
      | none => exact overflow_ne _
      | some c => exact overflow_ne _
    · intro l toks e st h hf hs hst
      simp only [parseElemsIn]
      split
      · exact overflow_ne _
      · rename_i he
        refine fits_bind_ne fun t ht => ?_
        split
        · exact fits_bind_ne fun _ _ => overflow_ne _
        · rename_i hr
          cases toks with
          | nil =>
            cases e with
            | eof => exact absurd (At.eof h) he
            | unclosed q s => rw [peek_unclosed h] at ht; cases ht
            | cut => rw [peek_cut h] at ht; cases ht
          | cons t' ts =>
            rw [peek_token h] at ht
            cases ht
            have hlt := hs.here hr
            refine bind_fits_ne (i1 l _ e st h (by simp) (by omega) hs hlt) ((reader_onStack u fuel).1 _ _) ?_
            rintro ⟨n, l1⟩ hn
            have ho := snd.1 l _ e h (by simp) (by omega)
            rw [hn] at ho
            obtain ⟨ts1, ts2, hts, hx, ha⟩ := ho
            rw [hts, List.map_append] at hs
            have hs2 := hs.later
            rw [expr_opens hx, hst] at hs2
            have hlen := congrArg List.length hts
            have hp := expr_pos hx
            simp only [List.length_append] at hlen
            refine bind_fits_ne (i4 l1 ts2 e st ha (by omega) hs2 hst) ((reader_onStack u fuel).2.2.2 _ _) ?_
            exact fun _ _ => overflow_ne _

theorem root_fits (u : Unescape) (b : Buf) (total : Nat) (ht : 0 < total) : ∀ fuel l toks e, At b l toks e → 3 * toks.length + 2 ≤ fuel →
    Shallow total [] (toks.map Token.kind) → parseRootIn u fuel total l ≠ overflow
  | 0, _, _, _, _, hf, _ => by omega
  | fuel + 1, l, toks, e, h, hf, hs => by
    simp only [parseRootIn]
    split
    · exact overflow_ne _
    · rename_i he
      have hne : ¬ (toks = [] ∧ e = .eof) := by
        rintro ⟨rfl, rfl⟩
        exact he (At.eof h)
      have := (reader_fits u b total fuel).1 l toks e [] h hne (by omega) hs ht
      refine bind_fits_ne this ((reader_onStack u fuel).1 _ _) ?_
      rintro ⟨n, l1⟩ hn
      have ho := (parse_sound u b fuel).1 l _ e h hne (by omega)
      rw [hn] at ho
      obtain ⟨ts1, ts2, rfl, hx, ha⟩ := ho
      rw [List.map_append] at hs
      have hs2 := hs.later
      rw [expr_opens hx] at hs2
      have hp := expr_pos hx
      simp only [List.length_append] at hf
      exact bind_fits_ne (root_fits u b total ht fuel l1 ts2 e ha (by omega) hs2) (root_onStack u fuel _ _) fun _ _ => overflow_ne _

end Seam
