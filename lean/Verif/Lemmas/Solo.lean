import Verif.Lemmas.Joined
import Verif.Lemmas.Layout
import Verif.Lemmas.More

/-! # Programs one after the other -/

namespace Seam
open Spec

section
variable {pre : List LogLine}

theorem soloRun_keep {ext : Ext} : ∀ fuel, SemiRec (KeepMore pre) (soloRun ext fuel)
  | 0 => fun _ => (sameMore_flat.lift _).keep
  | fuel + 1 => fun c => by
    have ih := soloRun_keep (ext := ext) fuel
    cases c with
    | node n => exact expandNode_semi keepMore_semi ih n
    | invoke name call ps =>
      intro s t h
      simp only [soloRun]
      rcases hl : (builtin? name).any seesLayout with _ | _
      · simp only [Bool.or_false]
        rcases hs : asksUndefined s.scope name ps with _ | _
        · rw [asksUndefined_more h hs]
          simp only [Bool.false_eq_true, if_false]
          rcases hb : builtin? name with _ | b
          · have e : step ext (soloRun ext fuel) (.invoke name call ps) = userMacro (soloRun ext fuel) name call ps := by
              simp only [step, expandInvocation, hb]
            rw [e]
            exact userMacro_semi keepMore_semi ih name call ps s t h
          · have e : step ext (soloRun ext fuel) (.invoke name call ps) = runBuiltin ext (soloRun ext fuel) b call ps := by
              simp only [step, expandInvocation, hb]
            rw [e]
            unfold asksUndefined at hs
            rw [hb] at hs
            by_cases h1 : b = .ifdef
            · subst h1
              simp only [runBuiltin]
              rcases ps with _ | ⟨c, ps⟩
              · exact .inl (.err _)
              · dsimp only at hs
                rcases hc : c.atomic? with _ | a
                · rcases ps with _ | ⟨t1, _ | ⟨t2, _ | ⟨t3, rest⟩⟩⟩
                  · exact .inl (.err _)
                  · simp only [ifdefMacro, hc]; exact .inl (.err _)
                  · simp only [ifdefMacro, hc]; exact .inl (.err _)
                  · exact .inl (.err _)
                · rw [hc] at hs
                  dsimp only at hs
                  rcases hm : s.scope a.value with _ | m
                  · rw [hm] at hs; exact absurd hs (by simp)
                  · exact More_ifdef ih call c ps a m hc hm h
            · by_cases h2 : b = .namespace_
              · subst h2; exact absurd hs (by simp)
              · exact runBuiltin_semi keepMore_semi.toCore ext ih b h1 h2 call ps s t h
        · simp only [if_true]
          exact .inl .diverge
      · simp only [Bool.or_true, if_true]
        exact .inl .diverge

theorem soloRun_blind {ext : Ext} : ∀ fuel, LeRec (soloRun ext fuel) (blindRun ext fuel)
  | 0, _ => fun _ => .inl rfl
  | fuel + 1, .node n => step_le (soloRun_blind fuel) (.node n)
  | fuel + 1, .invoke name call ps => by
    intro s
    simp only [soloRun, blindRun]
    split
    · exact .inl rfl
    · rename_i h
      simp only [Bool.or_eq_true, not_or] at h
      rcases hb : builtin? name with _ | b
      · exact step_le (soloRun_blind fuel) (.invoke name call ps) s
      · rw [hb] at h
        dsimp only
        rw [if_neg (by simpa using h.2)]
        exact step_le (soloRun_blind fuel) (.invoke name call ps) s

theorem soloRun_sure {ext : Ext} : ∀ fuel, LeRec (soloRun ext fuel) (sureRun ext fuel)
  | 0, _ => fun _ => .inl rfl
  | fuel + 1, .node n => step_le (soloRun_sure fuel) (.node n)
  | fuel + 1, .invoke name call ps => by
    intro s
    simp only [soloRun, sureRun]
    split
    · exact .inl rfl
    · rename_i h
      simp only [Bool.or_eq_true, not_or] at h
      rw [if_neg h.1]
      exact step_le (soloRun_sure fuel) (.invoke name call ps) s

theorem solo_blind {ext : Ext} {ns : List PNode} {s s' : St} {r : Res (List PNode)} (h : SoloEvals ext ns s r s') :
    BlindEvals ext ns s r s' := by
  obtain ⟨hd, fuel, h⟩ := h
  refine ⟨hd, fuel, ?_⟩
  rcases expandNodes_le (soloRun_blind (ext := ext) fuel) ns s with hx | hx
  · rw [h] at hx; exact absurd hx hd
  · rw [← hx, h]

theorem solo_more {ext : Ext} {ns : List PNode} {s s' t : St} {r : Res (List PNode)} (hr : ∀ e, r ≠ .err e)
    (h : SoloEvals ext ns s r s') (hm : More pre s t) : ∃ t', SoloEvals ext ns t r t' ∧ More pre s' t' := by
  obtain ⟨hd, fuel, h⟩ := h
  have hk := expandNodes_semi keepMore_semi.toCore (soloRun_keep (pre := pre) (ext := ext) fuel) ns s t hm
  rw [h] at hk
  rcases hk with hk | ⟨h1, h2⟩
  · cases hk with
    | err e => exact absurd rfl (hr e)
    | diverge => exact absurd rfl hd
  · exact ⟨(expandNodes (soloRun ext fuel) ns t).2, ⟨hd, fuel, Prod.ext h1 rfl⟩, h2⟩

/-- A finished run on its own, with a property of the result and the final state. -/
theorem solo_ok_of {ext : Ext} {ns : List PNode} {s : St} (fuel : Nat) (p : List PNode → St → Bool)
    (h : (expandNodes (soloRun ext fuel) ns s).1.okP (fun out => p out (expandNodes (soloRun ext fuel) ns s).2) = true) :
    ∃ out t, SoloEvals ext ns s (.ok out) t ∧ p out t = true := by
  obtain ⟨a, h1, h2⟩ := Res.okP_elim h
  exact ⟨a, _, ⟨by simp, fuel, Prod.ext h1 rfl⟩, h2⟩

end

/-- A first part and then a second, whatever its outcome. -/
theorem Spec.Evals.before {ext : Ext} {ns ms as : List PNode} {s t u : St} {r : Res (List PNode)}
    (h : Evals ext ns s (.ok as) t) (h' : Evals ext ms t r u) : Evals ext (ns ++ ms) s (addBefore as r) u := by
  refine .of_ev ?_ ((h.ev.and h'.ev).mono fun f hf => ?_)
  · have := h'.1
    cases r <;> simp_all [addBefore]
  · rw [expandNodes_append, M.bind_ok hf.1, M.bind_def, hf.2]
    cases r <;> rfl

theorem addBefore_laid {S : Site → Site → Prop} {W : Str → Str → Prop} [Blanking W] {as as' : List PNode} {r r' : Res (List PNode)}
    (h : Laids S W as as') (hr : LaidRes S W r r') : LaidRes S W (addBefore as r) (addBefore as' r') := by
  cases hr with
  | ok _ _ hr => exact .ok _ _ (h.append hr)
  | err _ _ hr => exact .err _ _ hr
  | panic => exact .panic

theorem addBefore_moved {S : Site → Site → Prop} {as as' : List PNode} {r r' : Res (List PNode)}
    (h : Moveds S as as') (hr : MovedRes S r r') : MovedRes S (addBefore as r) (addBefore as' r') := by
  cases hr with
  | ok _ _ hr => exact .ok _ _ (laids_moved ((moveds_laid h).append (moveds_laid hr)))
  | err _ _ hr => exact .err _ _ hr
  | panic => exact .panic

mutual
/-- Blanks that are equal to blanks. -/
theorem laid_blank {S T : Site → Site → Prop} : ∀ {n m : PNode}, Laid S BothBlank n n → Laid T (· = ·) n m → Laid T BothBlank n m
  | .symbol _, _, .symbol _ _ h, .symbol _ _ h' => .symbol _ _ ⟨h'.1, ⟨h.2.1.1, h'.2.1 ▸ h.2.1.1⟩, h'.2.2⟩
  | .number _, _, .number _ _ h, .number _ _ h' => .number _ _ ⟨h'.1, ⟨h.2.1.1, h'.2.1 ▸ h.2.1.1⟩, h'.2.2⟩
  | .string _, _, .string _ _ h, .string _ _ h' => .string _ _ ⟨h'.1, ⟨h.2.1.1, h'.2.1 ▸ h.2.1.1⟩, h'.2.2⟩
  | .raw _, _, .raw _ _ h, .raw _ _ h' => .raw _ _ ⟨h'.1, ⟨h.2.1.1, h'.2.1 ▸ h.2.1.1⟩, h'.2.2⟩
  | .list .., _, .list _ _ _ _ _ _ _ _ h _ h2 _ h4, .list _ _ _ _ _ _ _ _ h' h1' h2' h3' h4' =>
    .list _ _ _ _ _ _ _ _ (laids_blank h h') h1' ⟨h2.1, h2' ▸ h2.1⟩ h3' ⟨h4.1, h4' ▸ h4.1⟩
  | .attr .., _, .attr _ _ _ _ _ _ _ h _ h2, .attr _ _ _ _ _ _ _ h' h1' h2' =>
    .attr _ _ _ _ _ _ _ (laid_blank h h') h1' ⟨h2.1, h2' ▸ h2.1⟩
theorem laids_blank {S T : Site → Site → Prop} : ∀ {ns ms : List PNode}, Laids S BothBlank ns ns → Laids T (· = ·) ns ms →
    Laids T BothBlank ns ms
  | _, _, .nil, .nil => .nil
  | _, _, .cons _ _ _ _ h hs, .cons _ _ _ _ h' hs' => .cons _ _ _ _ (laid_blank h h') (laids_blank hs hs')
end

theorem laid_setLw {T : Site → Site → Prop} {n m : PNode} {w v : Str} (hw : BothBlank w v) (h : Laid T BothBlank n m) :
    Laid T BothBlank (n.setLw w) (m.setLw v) := by
  cases h with
  | symbol _ _ h => exact .symbol _ _ ⟨h.1, hw, h.2.2⟩
  | number _ _ h => exact .number _ _ ⟨h.1, hw, h.2.2⟩
  | string _ _ h => exact .string _ _ ⟨h.1, hw, h.2.2⟩
  | raw _ _ h => exact .raw _ _ ⟨h.1, hw, h.2.2⟩
  | list _ _ _ _ _ _ _ _ h h1 h2 h3 h4 => exact .list _ _ _ _ _ _ _ _ h h1 h2 h3 hw
  | attr _ _ _ _ _ _ _ h h1 h2 => exact .attr _ _ _ _ _ _ _ h h1 hw

theorem setLw_again (n : PNode) : n.setLw n.lw = n := by cases n <;> rfl

theorem sameTokens_self {b : Buf} {before : Str} {line : Nat} {x : Str} {toks : List Token} {e : Ending}
    (h : Tokens b before line x toks e) : SameTokens x x := by
  induction h with
  | eof _ _ _ h => exact .eof _ _ h h
  | unclosed _ _ _ _ _ _ h1 h2 h3 => exact .unclosed _ _ _ _ _ _ _ h1 h1 h2 h2 h3 h3
  | cut _ _ _ _ _ h1 h2 h3 => exact .cut _ _ _ _ _ _ h1 h1 h2 h2 h3 h3
  | token _ _ _ _ _ _ _ _ _ _ h1 h2 _ ih => exact .token _ _ _ _ _ _ _ _ _ _ h1 h1 h2 h2 ih

/-- What is read has only blanks for blanks. -/
theorem parse_blank {u : Unescape} {b : Buf} {ns : List PNode} (h : parse u b = .ok ns) : Laids (Corresponds b b) BothBlank ns ns := by
  obtain ⟨toks, e, ht⟩ := tokens_total b [] 1 b.code
  obtain ⟨toks, toks', e, e', t1, t2, hp, he⟩ := sameTokens_corresponds (b := b) (b' := b) (sameTokens_self ht)
  have := parse_laid u t1 t2 hp he
  rw [h] at this
  cases this with
  | done _ _ h =>
    cases h with
    | ok _ _ h => exact h

/-- The tree of the second text, as it is read in the joined text. -/
theorem laids_joined {S T : Site → Site → Prop} {w : Str} {ms ms' : List PNode} (h : Laids S BothBlank ms ms)
    (hw : ∀ m ∈ ms.head?, AfterBreak m.lw w) (h' : Laids T (· = ·) (firstSpaced w ms) ms') : Laids T BothBlank ms ms' := by
  cases h with
  | nil => cases h'; exact .nil
  | cons n _ ns _ h hs =>
    simp only [firstSpaced] at h'
    cases h' with
    | cons _ m _ ms' h1 hs' =>
      refine .cons _ _ _ _ ?_ (laids_blank hs hs')
      have hn : Blanks n.lw := h.lw.1
      have hb : Blanks w := by
        rcases hw n rfl with rfl | ⟨x, hx, rfl⟩
        · exact hn
        · intro c hc
          rcases List.mem_append.1 hc with hc | hc
          · exact hx c hc
          · rcases List.mem_cons.1 hc with rfl | hc
            · rfl
            · exact hn c hc
      have hm : m.lw = w := by
        have := h1.lw
        rw [setLw_lw] at this
        exact this.symm
      have h2 : Laid S BothBlank (n.setLw w) (n.setLw w) := laid_setLw ⟨hb, hb⟩ h
      have h3 := laid_setLw (w := n.lw) (v := w) ⟨hn, hb⟩ (laid_blank h2 h1)
      have e : PNode.setLw n.lw (PNode.setLw w n) = PNode.setLw n.lw n := by cases n <;> rfl
      rw [e] at h3
      rw [setLw_again, ← hm, setLw_again] at h3
      exact h3

end Seam
