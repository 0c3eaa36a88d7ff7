import Verif.Lemmas.MovedDoc
import Verif.Lemmas.Unplaced
import Verif.Lemmas.Markup

/-! Layout: texts with the same tokens, and the output of trees laid out otherwise. -/

namespace Seam
open Spec
set_option linter.unusedSectionVars false

instance blanking_both : Blanking BothBlank where
  const h := ⟨h, h⟩
  first h := ⟨firstLw_blanks h.1, firstLw_blanks h.2⟩

/-- Any two places. -/
abbrev anyS : Site → Site → Prop := fun _ _ => True

/-! ## Reading -/

theorem sameTokens_tokens {b b' : Buf} : ∀ {x y : Str}, SameTokens x y → ∀ before before' line line',
    ∃ toks toks' e e', Tokens b before line x toks e ∧ Tokens b' before' line' y toks' e' ∧
      Pairs (LaidToken (fun _ _ => True) BothBlank) toks toks' ∧ MovedEnd (fun _ _ => True) e e'
  | _, _, .eof a c ha hc, before, before', line, line' =>
    ⟨[], [], .eof, .eof, .eof _ _ _ ha, .eof _ _ _ hc, .nil, .eof⟩
  | _, _, .unclosed triv triv' lead lead' q s s' h1 h2 h3 h4 h5 h6, before, before', line, line' =>
    ⟨[], [], _, _, .unclosed _ _ _ _ _ _ h1 h3 h5, .unclosed _ _ _ _ _ _ h2 h4 h6, .nil, .unclosed _ _ _ trivial⟩
  | _, _, .cut triv triv' lead lead' text text' h1 h2 h3 h4 h5 h6, before, before', line, line' =>
    ⟨[], [], .cut, .cut, .cut _ _ _ _ _ h1 h3 h5, .cut _ _ _ _ _ h2 h4 h6, .nil, .cut⟩
  | _, _, .token triv triv' lead lead' kind text text' value rest rest' h1 h2 h3 h4 h5, before, before', line, line' => by
    obtain ⟨toks, toks', e, e', t1, t2, hp, he⟩ := sameTokens_tokens h5 (before ++ triv ++ text) (before' ++ triv' ++ text')
      (line + newlines triv + 2 * newlines text) (line' + newlines triv' + 2 * newlines text')
    exact ⟨_, _, e, e', .token _ _ _ _ _ _ _ _ _ _ h1 h3 t1, .token _ _ _ _ _ _ _ _ _ _ h2 h4 t2,
      .cons ⟨rfl, rfl, ⟨(trivia_lead h1).1, (trivia_lead h2).1⟩, trivial⟩ hp, he⟩

theorem sameTokens_corresponds {b b' : Buf} (h : SameTokens b.code b'.code) :
    ∃ toks toks' e e', TokensOf b toks e ∧ TokensOf b' toks' e' ∧
      Pairs (LaidToken (Corresponds b b') BothBlank) toks toks' ∧ MovedEnd (Corresponds b b') e e' := by
  obtain ⟨toks, toks', e, e', t1, t2, hp, he⟩ := sameTokens_tokens (b := b) (b' := b') h [] [] 1 1
  refine ⟨toks, toks', e, e', t1, t2, pairs_indexed hp fun i t u ht hu => .token toks toks' e e' i t u t1 t2 ht hu, ?_⟩
  cases he with
  | eof => exact .eof
  | cut => exact .cut
  | unclosed q s s' _ => exact .unclosed q s s' (.quote toks toks' q s s' t1 t2)

theorem stop_space {rest rest' : Str} (h : rest' = [] ∨ ∃ l, rest' = ' ' :: l) (_ : Stop rest) : Stop rest' := by
  rcases h with rfl | ⟨l, rfl⟩
  · trivial
  · rfl

theorem lexeme_space {kind : Kind} {text value rest rest' : Str} (h : rest' = [] ∨ ∃ l, rest' = ' ' :: l)
    (hl : Lexeme kind text value rest) : Lexeme kind text value rest' := by
  cases hl with
  | lparen => exact .lparen _
  | rparen => exact .rparen _
  | symbol _ _ h1 h2 h3 => exact .symbol _ _ h1 h2 (stop_space h h3)
  | number _ _ h1 h2 h3 => exact .number _ _ h1 h2 (stop_space h h3)
  | keyword _ _ h1 h2 => exact .keyword _ _ h1 (stop_space h h2)
  | string q _ _ h1 h2 =>
    refine .string q _ _ h1 ?_
    rcases h2 with ⟨rfl, h2⟩ | ⟨rfl, h2, h3⟩
    · exact .inl ⟨rfl, ⟨value ++ q3 ++ rest', by simp⟩⟩
    · refine .inr ⟨rfl, ⟨value ++ q1 ++ rest', by simp⟩, fun h4 => h3 ?_⟩
      revert h4 h3
      cases value with
      | nil =>
        simp only [q1, q3, List.nil_append, List.cons_append, List.append_nil]
        rcases h with rfl | ⟨l, rfl⟩
        · simp
        · simp
      | cons a value =>
        simp only [q1, q3, List.nil_append, List.cons_append]
        cases value with
        | nil => simp
        | cons b value => simp

theorem tokens_spaced {b : Buf} {before : Str} {line : Nat} {rest : Str} {toks : List Token} {e : Ending}
    (h : Tokens b before line rest toks e) :
    ∃ rest', SameTokens rest rest' ∧ SpacedText rest' ∧ (rest' = [] ∨ ∃ l, rest' = ' ' :: l) := by
  have sp : Trivia [' '] [' '] := trivia_all rfl
  induction h with
  | eof before line rest h =>
    exact ⟨[], .eof _ _ h ⟨[], [], trivia_all rfl, .inl rfl⟩, .eof, .inl rfl⟩
  | unclosed before line triv lead q s h1 h2 h3 =>
    exact ⟨' ' :: (q ++ s), .unclosed _ [' '] _ _ _ _ _ h1 sp h2 h2 h3 h3, .unclosed _ _ h2 h3, .inr ⟨_, rfl⟩⟩
  | cut before line triv lead text h1 h2 h3 =>
    exact ⟨' ' :: (text ++ ['\\']), .cut _ [' '] _ _ _ _ h1 sp h2 h2 h3 h3, .cut _ h2 h3, .inr ⟨_, rfl⟩⟩
  | token before line triv lead kind text value rest toks e h1 h2 _ ih =>
    obtain ⟨rest', i1, i2, i3⟩ := ih
    have h3 := lexeme_space i3 h2
    exact ⟨' ' :: (text ++ rest'), .token _ [' '] _ _ _ _ _ _ _ _ h1 sp h2 h3 i1, .token _ _ _ _ h3 i2, .inr ⟨_, rfl⟩⟩

theorem laids_any {S : Site → Site → Prop} {ns ms : List PNode} (h : Laids S BothBlank ns ms) : Laids anyS BothBlank ns ms :=
  h.mono fun _ _ _ => trivial

/-! ## Expanding -/

theorem blindRun_le {ext : Ext} : ∀ fuel, LeRec (blindRun ext fuel) (run ext fuel)
  | 0, c => by
    intro s
    exact .inl rfl
  | fuel + 1, .node n => step_le (blindRun_le fuel) (.node n)
  | fuel + 1, .invoke name call ps => by
    simp only [blindRun]
    split
    · split
      · intro s; exact .inl rfl
      · exact step_le (blindRun_le fuel) (.invoke name call ps)
    · exact step_le (blindRun_le fuel) (.invoke name call ps)

theorem blind_evals {ext : Ext} {ns : List PNode} {s s' : St} {r : Res (List PNode)} (h : BlindEvals ext ns s r s') :
    Evals ext ns s r s' := by
  obtain ⟨hd, fuel, h⟩ := h
  refine ⟨hd, fuel, ?_⟩
  rcases expandNodes_le (blindRun_le (ext := ext) fuel) ns s with hx | hx
  · rw [h] at hx; exact absurd hx hd
  · rw [← hx, h]

/-- A finished run without the macros that look at the layout, with a given result and a
property of the final state. -/
theorem blind_ok_of {ext : Ext} {ns : List PNode} {s : St} (fuel : Nat) (p : List PNode → St → Bool)
    (h : (expandNodes (blindRun ext fuel) ns s).1.okP (fun out => p out (expandNodes (blindRun ext fuel) ns s).2) = true) :
    ∃ out t, BlindEvals ext ns s (.ok out) t ∧ p out t = true := by
  obtain ⟨a, h1, h2⟩ := Res.okP_elim h
  exact ⟨a, _, ⟨by simp, fuel, Prod.ext h1 rfl⟩, h2⟩

theorem laidSt_init {S : Site → Site → Prop} {W : Str → Str → Prop} (order : Order) : LaidSt S W (St.init order) (St.init order) where
  defined _ := Iff.rfl
  scope _ _ _ h := by simp [St.init, Scope.empty] at h
  fresh := .inl rfl
  log := .nil
  hashes := rfl
  order := rfl

/-! ## The output without blanks -/

/-- The same text, if only the characters of one kind are kept. -/
def SameBut (keep : Char → Bool) (x y : Str) : Prop := x.filter keep = y.filter keep

theorem squeezed_append (a b : Str) : squeezed (a ++ b) = squeezed a ++ squeezed b := by simp [squeezed]
theorem squeezed_blanks {w : Str} (h : Blanks w) : squeezed w = [] := by
  simp only [squeezed, List.filter_eq_nil_iff]
  intro c hc
  simp [h c hc]

/-- Blanks related by `W` are written alike, if only the characters of one kind are kept. -/
class Kept (W : Str → Str → Prop) (keep : Char → Bool) : Prop where
  kept : ∀ {w v}, W w v → SameBut keep w v
  symm : ∀ {w v}, W w v → W v w
  sep : ∀ {w v : Str}, W w v → SameBut keep (if w.isEmpty then str! " " else w) (if v.isEmpty then str! " " else v)
  close : ∀ (style : Bool) {w v : Str} {e f : Token} {x y : Str}, W w v → W e.lw f.lw → W x y →
    SameBut keep (if e.lw.isEmpty then if x.contains '\n' || style then w else [] else e.lw)
      (if f.lw.isEmpty then if y.contains '\n' || style then v else [] else f.lw)

section
variable {S : Site → Site → Prop} {W : Str → Str → Prop} {keep : Char → Bool} [Blanking W] [Kept W keep]

theorem SameBut.append {a b c d : Str} (h : SameBut keep a b) (h' : SameBut keep c d) : SameBut keep (a ++ c) (b ++ d) := by
  unfold SameBut at *
  rw [List.filter_append, List.filter_append, h, h']
theorem SameBut.cons {a b : Str} (c : Char) (h : SameBut keep a b) : SameBut keep (c :: a) (c :: b) :=
  SameBut.append (a := [c]) (b := [c]) rfl h
theorem SameBut.blanks {w v : Str} (h : W w v) : SameBut keep w v := Kept.kept h
theorem SameBut.refl (a : Str) : SameBut keep a a := rfl

mutual
theorem textNode_sq : ∀ {n m : PNode}, Laid S W n m → (SameBut keep) (textNode n) (textNode m)
  | _, _, .symbol _ _ h | _, _, .number _ _ h | _, _, .string _ _ h | _, _, .raw _ _ h => by
    simp only [textNode, h.value]
    exact .append (.blanks h.lw) rfl
  | _, _, .list _ _ _ _ _ _ _ _ h _ h2 _ h4 => by
    simp only [textNode]
    exact .append (.append (.append (.blanks h4) (.cons _ (textNodes_sq h))) (.blanks h2)) rfl
  | _, _, .attr _ _ _ _ _ _ _ h _ h4 => by
    simp only [textNode]
    exact .append (.append (.blanks h4) (.refl _)) (textNode_sq h)
theorem textNodes_sq : ∀ {ns ms : List PNode}, Laids S W ns ms → (SameBut keep) (textNodes ns) (textNodes ms)
  | _, _, .nil => rfl
  | _, _, .cons _ _ _ _ h hs => .append (textNode_sq h) (textNodes_sq hs)
end

mutual
theorem sexpNode_sq (dbg : Str → Str) : ∀ {n m : PNode}, Laid S W n m → (SameBut keep) (sexpNode dbg n) (sexpNode dbg m)
  | _, _, .symbol _ _ h | _, _, .number _ _ h | _, _, .string _ _ h => by
    simp only [sexpNode, h.value]
    exact .append (.blanks h.lw) rfl
  | _, _, .raw _ _ h => by
    simp only [sexpNode, h.value]
    exact .append (.append (.append (.blanks h.lw) rfl) rfl) rfl
  | _, _, .list _ _ _ _ _ _ _ _ h _ h2 _ h4 => by
    simp only [sexpNode]
    exact .append (.append (.append (.blanks h4) (.cons _ (sexpNodes_sq dbg h))) (.blanks h2)) rfl
  | _, _, .attr _ _ _ _ _ _ _ h _ h4 => by
    simp only [sexpNode]
    exact .append (.append (.blanks h4) (.refl _)) (sexpNode_sq dbg h)
theorem sexpNodes_sq (dbg : Str → Str) : ∀ {ns ms : List PNode}, Laids S W ns ms → (SameBut keep) (sexpNodes dbg ns) (sexpNodes dbg ms)
  | _, _, .nil => rfl
  | _, _, .cons _ _ _ _ h hs => .append (sexpNode_sq dbg h) (sexpNodes_sq dbg hs)
end

theorem genErr_same {α β : Type} {R : α → β → Prop} {msg : String} {s t : Site} (h : S s t) :
    SameR S R (.err (genErr msg s)) (.err (genErr msg t)) := ⟨rfl, rfl, h⟩

/-! ### CSS -/

mutual
theorem cssValue_laid (dbg : Str → Str) : ∀ {n m : PNode}, Laid S W n m →
    SameR S (· = ·) (cssValue dbg n) (cssValue dbg m)
  | _, _, .symbol _ _ h | _, _, .number _ _ h | _, _, .string _ _ h | _, _, .raw _ _ h => by
    simp only [cssValue, h.value]
    exact rfl
  | _, _, .list _ _ _ _ _ _ _ _ h _ h2 _ h4 => by
    cases h with
    | nil => exact rfl
    | cons _ _ _ _ h hs =>
      simp only [cssValue]
      refine SameR.bind (cssValue_laid dbg h) fun _ _ h => SameR.bind (cssValues_laid dbg hs) fun _ _ h' => ?_
      subst h; subst h'
      exact rfl
  | _, _, .attr _ _ _ _ _ _ _ h hs h4 => by
    simp only [cssValue]
    exact genErr_same hs
theorem cssValues_laid (dbg : Str → Str) : ∀ {ns ms : List PNode}, Laids S W ns ms →
    SameR S (· = ·) (cssValues dbg ns) (cssValues dbg ms)
  | _, _, .nil => rfl
  | _, _, .cons _ _ _ _ h hs => by
    simp only [cssValues]
    refine SameR.bind (cssValue_laid dbg h) fun _ _ h => SameR.bind (cssValues_laid dbg hs) fun _ _ h' => ?_
    subst h; subst h'
    exact rfl
end

theorem cssOneline_laid (dbg : Str → Str) : ∀ {ns ms : List PNode}, Laids S W ns ms →
    SameR S (· = ·) (cssOneline dbg ns) (cssOneline dbg ms)
  | _, _, .nil => rfl
  | _, _, .cons _ _ _ _ h hs => by
    have ih := cssOneline_laid dbg hs
    cases h with
    | attr _ _ _ _ _ _ _ h =>
      simp only [cssOneline]
      refine SameR.bind (cssValue_laid dbg h) fun _ _ h => SameR.bind ih fun _ _ h' => ?_
      subst h; subst h'
      exact rfl
    | symbol a b h =>
      simp only [cssOneline]
      refine SameR.bind (cssValue_laid dbg (.symbol a b h)) fun _ _ h => SameR.bind ih fun _ _ h' => ?_
      subst h; subst h'
      exact rfl
    | number a b h =>
      simp only [cssOneline]
      refine SameR.bind (cssValue_laid dbg (.number a b h)) fun _ _ h => SameR.bind ih fun _ _ h' => ?_
      subst h; subst h'
      exact rfl
    | string a b h =>
      simp only [cssOneline]
      refine SameR.bind (cssValue_laid dbg (.string a b h)) fun _ _ h => SameR.bind ih fun _ _ h' => ?_
      subst h; subst h'
      exact rfl
    | raw a b h =>
      simp only [cssOneline]
      refine SameR.bind (cssValue_laid dbg (.raw a b h)) fun _ _ h => SameR.bind ih fun _ _ h' => ?_
      subst h; subst h'
      exact rfl
    | list ns ms s t e f w v h h1 h2 h3 h4 =>
      simp only [cssOneline]
      refine SameR.bind (cssValue_laid dbg (.list ns ms s t e f w v h h1 h2 h3 h4)) fun _ _ h => SameR.bind ih fun _ _ h' => ?_
      subst h; subst h'
      exact rfl

theorem cssProps_laid (dbg : Str → Str) : ∀ {ns ms : List PNode}, Laids S W ns ms →
    SameR S (· = ·) (cssProps dbg ns) (cssProps dbg ms)
  | _, _, .nil => rfl
  | _, _, .cons _ _ _ _ h hs => by
    have ih := cssProps_laid dbg hs
    have hat := h.site
    cases h with
    | attr _ _ _ _ _ _ _ h =>
      simp only [cssProps]
      refine SameR.bind (cssValue_laid dbg h) fun _ _ h => SameR.bind ih fun _ _ h' => ?_
      subst h; subst h'
      exact rfl
    | _ => simp only [cssProps]; exact genErr_same hat

theorem laid_isAtomic {n m : PNode} (h : Laid S W n m) : n.isAtomic = m.isAtomic := by cases h <;> rfl
theorem laid_isAttr {n m : PNode} (h : Laid S W n m) : n.isAttr = m.isAttr := by cases h <;> rfl

theorem laids_selectors : ∀ {ns ms : List PNode}, Laids S W ns ms →
    Laids S W (cssSelectors ns) (cssSelectors ms)
  | _, _, .nil => .nil
  | _, _, .cons _ _ _ _ h hs => by
    have ih := laids_selectors hs
    unfold cssSelectors at ih ⊢
    rw [List.takeWhile_cons, List.takeWhile_cons, laid_isAtomic h]
    split
    · exact .cons _ _ _ _ h ih
    · exact .nil
theorem laids_drop : ∀ (k : Nat) {ns ms : List PNode}, Laids S W ns ms →
    Laids S W (ns.drop k) (ms.drop k)
  | 0, _, _, h => h
  | _ + 1, _, _, .nil => .nil
  | k + 1, _, _, .cons _ _ _ _ _ hs => laids_drop k hs
theorem laids_properties {ns ms : List PNode} (h : Laids S W ns ms) :
    Laids S W (cssProperties ns) (cssProperties ms) := by
  unfold cssProperties
  dsimp only
  rw [(laids_selectors h).length, h.length]
  exact laids_drop _ h
theorem laids_selectorText : ∀ {ns ms : List PNode}, Laids S W ns ms → cssSelectorText ns = cssSelectorText ms
  | _, _, .nil => rfl
  | _, _, .cons _ _ _ _ h hs => by
    have ih := laids_selectorText hs
    have ha := h.atomic
    simp only [cssSelectorText, ih]
    revert ha
    generalize PNode.atomic? _ = x
    generalize PNode.atomic? _ = y
    intro ha
    cases ha with
    | none => rfl
    | some h => simp only [h.value]

mutual
theorem cssRule_laid (dbg : Str → Str) : ∀ {ns ms : List PNode}, Laids S W ns ms →
    SameR S (SameBut keep) (cssRule dbg ns) (cssRule dbg ms)
  | _, _, .nil => by simp only [cssRule]; trivial
  | _, _, .cons n m ns ms h hs => by
    have ha := h.atomic
    have h1 := cssOneline_laid dbg hs
    have h2 := cssNested_laid dbg false hs
    have h3 := cssProps_laid dbg (laids_properties (.cons n m ns ms h hs))
    have h4 := laids_selectorText (laids_selectors (.cons n m ns ms h hs))
    simp only [cssRule]
    revert ha
    generalize n.atomic? = x
    generalize m.atomic? = y
    intro ha
    cases ha with
    | none => trivial
    | some ha =>
      dsimp only
      rw [ha.value]
      split
      · split
        · refine SameR.bind h1 fun _ _ h => ?_
          subst h
          exact SameBut.refl _
        · refine SameR.bind h2 fun _ _ h => ?_
          exact .append (.append (.refl _) (.cons _ h)) (.refl _)
      · refine SameR.bind h3 fun _ _ h => ?_
        subst h
        rw [h4]
        exact SameBut.refl _
theorem cssNested_laid (dbg : Str → Str) : ∀ (rules : Bool) {ns ms : List PNode}, Laids S W ns ms →
    SameR S (SameBut keep) (cssNested dbg rules ns) (cssNested dbg rules ms)
  | _, _, _, .nil => by simp only [cssNested]; exact SameBut.refl _
  | rules, _, _, .cons n m _ _ h hs => by
    have ih := cssNested_laid dbg rules hs
    have other : ∀ {n m : PNode}, Laid S W n m → SameR S (SameBut keep)
        (do let v ← cssValue dbg n
            let r ← cssNested dbg rules _
            .ok (v ++ ' ' :: r))
        (do let v ← cssValue dbg m
            let r ← cssNested dbg rules _
            .ok (v ++ ' ' :: r)) := fun h => SameR.bind (cssValue_laid dbg h) fun _ _ h => SameR.bind ih fun _ _ h' => by
      subst h
      exact .append (.refl _) (.cons _ h')
    have at' : SameR S (SameBut keep) (.err (genErr "Expected list (i.e. a CSS rule) here!" n.site))
      (.err (genErr "Expected list (i.e. a CSS rule) here!" m.site)) := genErr_same h.site
    cases h with
    | attr k n m _ _ _ _ h =>
      simp only [cssNested]
      split
      · exact at'
      · refine SameR.bind (cssValue_laid dbg h) fun _ _ h => SameR.bind ih fun _ _ h' => ?_
        subst h
        exact .append (.refl _) h'
    | list ns ms s t e f w v h h1 h2 h3 h4 =>
      simp only [cssNested]
      refine SameR.bind (cssRule_laid dbg h) fun _ _ h => SameR.bind (cssNested_laid dbg true hs) fun _ _ h' => ?_
      exact .append (.append (.append (.refl _) (.blanks h4)) h) h'
    | symbol a b h =>
      simp only [cssNested]
      split
      · exact at'
      · exact other (.symbol a b h)
    | number a b h =>
      simp only [cssNested]
      split
      · exact at'
      · exact other (.number a b h)
    | string a b h =>
      simp only [cssNested]
      split
      · exact at'
      · exact other (.string a b h)
    | raw a b h =>
      simp only [cssNested]
      split
      · exact at'
      · exact other (.raw a b h)
end

theorem cssGenerate_laid (dbg : Str → Str) : ∀ {ns ms : List PNode}, Laids S W ns ms →
    SameR S (SameBut keep) (cssGenerate dbg ns) (cssGenerate dbg ms)
  | _, _, .nil => SameBut.refl _
  | _, _, .cons n m _ _ h hs => by
    have ih := cssGenerate_laid dbg hs
    have hat := h.site
    cases h with
    | list ns ms s t e f w v h h1 h2 h3 h4 =>
      simp only [cssGenerate]
      refine SameR.bind (R := SameBut keep) (cssRule_laid dbg h) fun _ _ h => SameR.bind ih fun _ _ h' => ?_
      exact .append (.append (.blanks h4) h) h'
    | _ => simp only [cssGenerate]; exact genErr_same hat

/-! ### XML -/

theorem xmlAttr_laid {k : Str} {n m : PNode} {s t : Site} {w v : Str} (h : Laid S W n m) :
    SameR S (· = ·) (xmlAttr (.attr k n s w)) (xmlAttr (.attr k m t v)) := by
  have ha := h.atomic
  simp only [xmlAttr]
  revert ha
  generalize n.atomic? = x
  generalize m.atomic? = y
  intro ha
  cases ha with
  | none => exact genErr_same h.site
  | some ha => simp only [ha.value]; exact rfl
theorem xmlAttrs_laid : ∀ {ns ms : List PNode}, Laids S W ns ms → SameR S (· = ·) (xmlAttrs ns) (xmlAttrs ms)
  | _, _, .nil => rfl
  | _, _, .cons n m _ _ h hs => by
    have ih := xmlAttrs_laid hs
    cases h with
    | attr k n m _ _ _ _ h =>
      simp only [xmlAttrs]
      refine SameR.bind (xmlAttr_laid h) fun _ _ h => SameR.bind ih fun _ _ h' => ?_
      subst h; subst h'
      exact rfl
    | _ => simp only [xmlAttrs]; exact rfl
theorem xmlDecl_laid : ∀ {ns ms : List PNode}, Laids S W ns ms → SameR S (· = ·) (xmlDecl ns) (xmlDecl ms)
  | _, _, .nil => rfl
  | _, _, .cons n m _ _ h hs => by
    have ih := xmlDecl_laid hs
    have hat := h.site
    cases h with
    | attr k n m _ _ _ _ h =>
      simp only [xmlDecl]
      refine SameR.bind (xmlAttr_laid h) fun _ _ h => SameR.bind ih fun _ _ h' => ?_
      subst h; subst h'
      exact rfl
    | symbol a b h | number a b h =>
      simp only [xmlDecl, h.value]
      refine SameR.bind ih fun _ _ h' => ?_
      subst h'
      exact rfl
    | _ => simp only [xmlDecl]; exact genErr_same hat

theorem laids_kids : ∀ {ns ms : List PNode}, Laids S W ns ms → Laids S W (kids ns) (kids ms)
  | _, _, .nil => .nil
  | _, _, .cons n m _ _ h hs => by
    have ih := laids_kids hs
    unfold kids at ih ⊢
    rw [List.dropWhile_cons, List.dropWhile_cons, laid_isAttr h]
    split
    · exact ih
    · exact .cons _ _ _ _ h hs

theorem closeWs_both {tag : Str} {w v : Str} {e f : Token} {ns ms : List PNode} (h : W w v) (he : W e.lw f.lw) (hs : Laids S W ns ms) :
    SameBut keep (closeWs tag w e (firstOnNextLine (kids ns))) (closeWs tag v f (firstOnNextLine (kids ms))) := by
  have hk := laids_kids hs
  revert hk
  generalize kids ns = as
  generalize kids ms = bs
  intro hk
  cases hk with
  | nil => exact Kept.close (tag == str! "style") h he (Blanking.nil (W := W))
  | cons _ _ _ _ h1 _ => exact Kept.close (tag == str! "style") h he h1.lw

theorem lw_both {n m : PNode} (h : Laid S W n m) : W n.lw m.lw := h.lw
theorem firstLw_both {n m : PNode} (h : Laid S W n m) : W (firstLw n.lw) (firstLw m.lw) := Blanking.first h.lw

mutual
theorem xmlNode_laid : ∀ {n m : PNode} {w v : Str}, Laid S W n m → W w v →
    SameR S (SameBut keep) (xmlNode w n) (xmlNode v m)
  | _, _, w, v, .symbol _ _ h, hw | _, _, w, v, .number _ _ h, hw | _, _, w, v, .string _ _ h, hw => by
    simp only [xmlNode, h.value]
    exact SameBut.append (.blanks hw) (.refl _)
  | _, _, w, v, .raw _ _ h, hw => by simp only [xmlNode]; exact genErr_same h.site
  | _, _, w, v, .attr _ _ _ _ _ _ _ _ hat _, hw => by simp only [xmlNode]; exact genErr_same hat
  | _, _, w, v, .list _ _ _ _ e f _ _ h hat he _ _, hw => by
    cases h with
    | nil => simp only [xmlNode]; exact genErr_same hat
    | cons _ _ ns ms h hs =>
      have hk := xmlKids_laid .lead hs
      cases h with
      | symbol a b ha =>
        simp only [xmlNode]
        rw [ha.value]
        cases hv : b.value with
        | nil => trivial
        | cons front _ =>
          simp only
          split
          · refine SameR.bind (xmlDecl_laid hs) fun _ _ h => ?_
            subst h
            exact .append (.append (.append (.blanks hw) (.refl _)) (.refl _)) (.refl _)
          · refine SameR.bind (xmlAttrs_laid hs) fun _ _ h => SameR.bind hk fun _ _ h' => ?_
            subst h
            exact .append (.append (.append (.append (.append (.append (.append (.append (.blanks hw) (.refl _)) (.refl _)) (.refl _)) h')
              (closeWs_both hw he hs)) (.refl _)) (.refl _)) (.refl _)
      | number a b ha => simp only [xmlNode]; exact genErr_same ha.site
      | string a b ha => simp only [xmlNode]; exact genErr_same ha.site
      | raw a b ha => simp only [xmlNode]; exact genErr_same ha.site
      | list _ _ _ _ _ _ _ _ _ ha => simp only [xmlNode]; exact genErr_same ha
      | attr _ _ _ _ _ _ _ _ ha => simp only [xmlNode]; exact genErr_same ha
theorem xmlKids_laid : ∀ (k : KidMode) {ns ms : List PNode}, Laids S W ns ms →
    SameR S (SameBut keep) (xmlKids k ns) (xmlKids k ms)
  | _, _, _, .nil => by simp only [xmlKids]; exact SameBut.refl _
  | .lead, _, _, .cons n m _ _ h hs => by
    have h1 := xmlKids_laid .lead hs
    have h2 := xmlNode_laid h (firstLw_both h)
    have h3 := xmlKids_laid .rest hs
    rw [xmlKids, xmlKids, laid_isAttr h]
    split
    · exact h1
    · exact SameR.bind h2 fun _ _ h => SameR.bind h3 fun _ _ h' => .append h h'
  | .rest, _, _, .cons n m _ _ h hs => by
    have h2 := xmlNode_laid h (lw_both h)
    have h3 := xmlKids_laid .rest hs
    rw [xmlKids, xmlKids]
    exact SameR.bind h2 fun _ _ h => SameR.bind h3 fun _ _ h' => .append h h'
end

/-! ### HTML -/

theorem htmlDecl_laid : ∀ {ns ms : List PNode}, Laids S W ns ms → SameR S (· = ·) (htmlDecl ns) (htmlDecl ms)
  | _, _, .nil => rfl
  | _, _, .cons n m _ _ h hs => by
    have ih := htmlDecl_laid hs
    rw [htmlDecl, htmlDecl]
    have ha : OptR (LaidAtom S W) n.symbolic? m.symbolic? := by
      cases h with
      | symbol a b h | number a b h | string a b h => first | exact .some h | exact .none
      | _ => exact .none
    revert ha
    generalize n.symbolic? = x
    generalize m.symbolic? = y
    intro ha
    cases ha with
    | none => exact genErr_same h.site
    | some ha =>
      refine SameR.bind ih fun _ _ h => ?_
      subst h
      rw [ha.value]
      exact rfl
theorem htmlAttrs_laid : ∀ {ns ms : List PNode}, Laids S W ns ms → SameR S (SameBut keep) (htmlAttrs ns) (htmlAttrs ms)
  | _, _, .nil => SameBut.refl _
  | _, _, .cons n m _ _ h hs => by
    have ih := htmlAttrs_laid hs
    cases h with
    | attr k n m _ _ w v h _ hw =>
      simp only [htmlAttrs]
      have ha := h.atomic
      revert ha
      generalize n.atomic? = x
      generalize m.atomic? = y
      intro ha
      cases ha with
      | none => exact genErr_same h.site
      | some ha =>
        refine SameR.bind ih fun _ _ h => ?_
        rw [ha.value]
        exact .append (.append (.append (.append (.append (Kept.sep hw) (.refl _)) (.refl _)) (.refl _)) (.refl _)) h
    | _ => simp only [htmlAttrs]; exact SameBut.refl _

theorem laids_adjust {ns ms : List PNode} (h : Laids S W ns ms) : Laids S W (adjustFirst ns) (adjustFirst ms) := by
  cases h with
  | nil => exact .nil
  | cons _ _ _ _ h hs => exact .cons _ _ _ _ (h.setLw (firstLw_both h)) hs

theorem special_laid (dbg : Str → Str) (tag : Str) (hp : tag ≠ str! "pre") {ns ms : List PNode} (h : Laids S W ns ms) (e f : Token) :
    SameR S (SameBut keep) (htmlSpecialContent dbg tag ns e) (htmlSpecialContent dbg tag ms f) := by
  unfold htmlSpecialContent
  have hp' : (tag == str! "pre") = false := by simpa using hp
  simp only [hp', Bool.false_eq_true, if_false]
  have h := laids_adjust h
  split
  · exact textNodes_sq h
  split
  · revert h
    generalize adjustFirst ns = as
    generalize adjustFirst ms = bs
    intro h
    have hcss := cssGenerate_laid (keep := keep) dbg h
    have css : SameR S (SameBut keep) (do let c ← cssGenerate dbg as; .ok ('\n' :: c)) (do let c ← cssGenerate dbg bs; .ok ('\n' :: c)) :=
      SameR.bind hcss fun _ _ h => .cons _ h
    cases h with
    | nil => exact css
    | cons _ _ _ _ h hs =>
      cases h with
      | string a b h =>
        cases hs with
        | nil => simp only [h.value]; exact SameBut.refl _
        | cons => exact genErr_same h.site
      | _ => exact css
  split
  · exact sexpNodes_sq dbg h
  · exact xmlKids_laid .rest h

mutual
theorem htmlNode_laid (dbg : Str → Str) : ∀ {n m : PNode} {w v : Str}, Laid S W n m → W w v →
    (∀ h rest s e w, InLists (.list (.symbol h :: rest) s e w) [n] → h.value.map lowerChar ≠ str! "pre") →
    SameR S (SameBut keep) (htmlNode dbg w n) (htmlNode dbg v m)
  | _, _, w, v, .symbol _ _ h, hw, _ | _, _, w, v, .number _ _ h, hw, _ | _, _, w, v, .string _ _ h, hw, _
  | _, _, w, v, .raw _ _ h, hw, _ => by
    simp only [htmlNode, h.value]
    exact SameBut.append (.blanks hw) (.refl _)
  | _, _, w, v, .attr _ _ _ _ _ _ _ _ hat _, hw, _ => by simp only [htmlNode]; exact genErr_same hat
  | _, _, w, v, .list ns _ s _ e f w1 _ h hat he _ _, hw, hpre => by
    cases h with
    | nil => simp only [htmlNode]; exact genErr_same hat
    | cons n0 _ ns ms h hs =>
      have hk := htmlKids_laid dbg .lead hs fun h' rest' s' e' w' hi =>
        hpre h' rest' s' e' w' (.deeper _ (n0 :: ns) s e w1 (by simp) (inLists_later hi))
      cases h with
      | symbol a b ha =>
        have hh := hpre a ns s e w1 (.here _ (by simp))
        simp only [htmlNode]
        rw [ha.value]
        rw [ha.value] at hh
        have hlow : lower b.value = b.value.map lowerChar := rfl
        cases hl : lower b.value with
        | nil => trivial
        | cons c r =>
          simp only []
          split
          · refine SameR.bind (htmlDecl_laid hs) fun _ _ h => ?_
            subst h
            exact .append (.append (.append (.blanks hw) (.refl _)) (.refl _)) (.refl _)
          · refine SameR.bind (R := SameBut keep) (htmlAttrs_laid hs) fun _ _ h => ?_
            have opening : (SameBut keep) (w ++ '<' :: b.value ++ _ ++ ['>']) (v ++ '<' :: b.value ++ _ ++ ['>']) :=
              .append (.append (.append (.blanks hw) (.refl _)) h) (.refl _)
            have hkids := laids_kids hs
            split
            · revert hkids
              generalize kids ns = as
              generalize kids ms = bs
              intro hkids
              cases hkids with
              | nil => exact opening
              | cons _ _ _ _ h1 _ => exact genErr_same h1.site
            · split
              · refine SameR.bind (R := SameBut keep) (special_laid dbg _ (by rw [← hl, hlow]; exact hh) hkids e f) fun _ _ h' => ?_
                exact .append (.append (.append (.append (.append opening h') (closeWs_both hw he hs)) (.refl _)) (.refl _)) (.refl _)
              · refine SameR.bind hk fun _ _ h' => ?_
                exact .append (.append (.append (.append (.append opening h') (closeWs_both hw he hs)) (.refl _)) (.refl _)) (.refl _)
      | number a b ha => simp only [htmlNode]; exact genErr_same ha.site
      | string a b ha => simp only [htmlNode]; exact genErr_same ha.site
      | raw a b ha => simp only [htmlNode]; exact genErr_same ha.site
      | list _ _ _ _ _ _ _ _ _ ha => simp only [htmlNode]; exact genErr_same ha
      | attr _ _ _ _ _ _ _ _ ha => simp only [htmlNode]; exact genErr_same ha
theorem htmlKids_laid (dbg : Str → Str) : ∀ (k : KidMode) {ns ms : List PNode}, Laids S W ns ms →
    (∀ h rest s e w, InLists (.list (.symbol h :: rest) s e w) ns → h.value.map lowerChar ≠ str! "pre") →
    SameR S (SameBut keep) (htmlKids dbg k ns) (htmlKids dbg k ms)
  | _, _, _, .nil, _ => by simp only [htmlKids]; exact SameBut.refl _
  | .lead, _, _, .cons n m _ _ h hs, hpre => by
    have h1 := htmlKids_laid dbg .lead hs fun h rest s e w hi => hpre h rest s e w (inLists_later hi)
    have h2 := htmlNode_laid dbg h (firstLw_both h) fun h rest s e w hi => hpre h rest s e w (inLists_head hi)
    have h3 := htmlKids_laid dbg .rest hs fun h rest s e w hi => hpre h rest s e w (inLists_later hi)
    rw [htmlKids, htmlKids, laid_isAttr h]
    split
    · exact h1
    · exact SameR.bind h2 fun _ _ h => SameR.bind h3 fun _ _ h' => .append h h'
  | .rest, _, _, .cons n m _ _ h hs, hpre => by
    have h2 := htmlNode_laid dbg h (lw_both h) fun h rest s e w hi => hpre h rest s e w (inLists_head hi)
    have h3 := htmlKids_laid dbg .rest hs fun h rest s e w hi => hpre h rest s e w (inLists_later hi)
    rw [htmlKids, htmlKids]
    exact SameR.bind h2 fun _ _ h => SameR.bind h3 fun _ _ h' => .append h h'
end

/-! ### Both ways -/

end

instance kept_both : Kept BothBlank (fun c => !blank c) where
  kept h := by
    have h1 := squeezed_blanks h.1
    have h2 := squeezed_blanks h.2
    exact h1.trans h2.symm
  symm h := ⟨h.2, h.1⟩
  sep h := by
    have one : ∀ {w : Str}, Blanks w → squeezed (if w.isEmpty then str! " " else w) = [] := by
      intro w hw
      split
      · rfl
      · exact squeezed_blanks hw
    exact (one h.1).trans (one h.2).symm
  close style w v e f x y h he _ := by
    have one : ∀ {w : Str} {e : Token} {b : Bool}, Blanks w → Blanks e.lw →
        squeezed (if e.lw.isEmpty then if b then w else [] else e.lw) = [] := by
      intro w e b hw he
      split
      · split
        · exact squeezed_blanks hw
        · rfl
      · exact squeezed_blanks he
    exact (one h.1 he.1).trans (one h.2 he.2).symm

section
variable {S T : Site → Site → Prop} {W V : Str → Str → Prop}

mutual
theorem laid_flip (hS : ∀ p q, S p q → T q p) (hW : ∀ w v, W w v → V v w) : ∀ {n m : PNode}, Laid S W n m → Laid T V m n
  | _, _, .symbol _ _ h => .symbol _ _ ⟨h.1.symm, hW _ _ h.2.1, hS _ _ h.2.2⟩
  | _, _, .number _ _ h => .number _ _ ⟨h.1.symm, hW _ _ h.2.1, hS _ _ h.2.2⟩
  | _, _, .string _ _ h => .string _ _ ⟨h.1.symm, hW _ _ h.2.1, hS _ _ h.2.2⟩
  | _, _, .raw _ _ h => .raw _ _ ⟨h.1.symm, hW _ _ h.2.1, hS _ _ h.2.2⟩
  | _, _, .list _ _ _ _ _ _ _ _ h h1 h2 h3 h4 =>
    .list _ _ _ _ _ _ _ _ (laids_flip hS hW h) (hS _ _ h1) (hW _ _ h2) (hS _ _ h3) (hW _ _ h4)
  | _, _, .attr _ _ _ _ _ _ _ h h1 h2 => .attr _ _ _ _ _ _ _ (laid_flip hS hW h) (hS _ _ h1) (hW _ _ h2)
theorem laids_flip (hS : ∀ p q, S p q → T q p) (hW : ∀ w v, W w v → V v w) : ∀ {ns ms : List PNode}, Laids S W ns ms → Laids T V ms ns
  | _, _, .nil => .nil
  | _, _, .cons _ _ _ _ h hs => .cons _ _ _ _ (laid_flip hS hW h) (laids_flip hS hW hs)
end
end

theorem laids_symm {ns ms : List PNode} (h : Laids anyS BothBlank ns ms) : Laids anyS BothBlank ms ns :=
  laids_flip (fun _ _ _ => trivial) (fun _ _ h => ⟨h.2, h.1⟩) h

theorem laids_mem {S : Site → Site → Prop} {W : Str → Str → Prop} : ∀ {ns ms : List PNode}, Laids S W ns ms → ∀ {m : PNode}, m ∈ ms →
    ∃ n, n ∈ ns ∧ Laid S W n m
  | _, _, .nil, m, h => by simp at h
  | _, _, .cons a b _ _ h hs, m, hm => by
    rcases List.mem_cons.1 hm with rfl | hm
    · exact ⟨a, by simp, h⟩
    · obtain ⟨n, h1, h2⟩ := laids_mem hs hm
      exact ⟨n, by simp [h1], h2⟩

theorem laids_noPre {S : Site → Site → Prop} {W : Str → Str → Prop} {m : PNode} {ms : List PNode} (hi : InLists m ms) :
    ∀ {ns : List PNode}, Laids S W ns ms →
    (∀ h rest s e w, InLists (.list (.symbol h :: rest) s e w) ns → h.value.map lowerChar ≠ str! "pre") →
    ∀ h rest s e w, m = .list (.symbol h :: rest) s e w → h.value.map lowerChar ≠ str! "pre" := by
  induction hi with
  | here ms hm =>
    intro ns hl hpre h rest s e w he
    subst he
    obtain ⟨n, h1, h2⟩ := laids_mem hl hm
    cases h2 with
    | list _ _ _ _ _ _ _ _ hs =>
      cases hs with
      | cons _ _ _ _ ha =>
        cases ha with
        | symbol a _ ha =>
          rw [← ha.1]
          exact hpre _ _ _ _ _ (.here _ h1)
  | deeper ms kids s e w hm _ ih =>
    intro ns hl hpre
    obtain ⟨n, h1, h2⟩ := laids_mem hl hm
    cases h2 with
    | list _ _ _ _ _ _ _ _ hs => exact ih hs fun h rest s e w hi => hpre h rest s e w (.deeper _ _ _ _ _ h1 hi)

/-- The same text without its blanks. -/
abbrev SameSq : Str → Str → Prop := SameBut fun c => !blank c

theorem sameOutput_of {x y : Res Str} (h : SameR anyS SameSq x y) (h' : SameR anyS SameSq y x) : SameOutput x y := by
  cases x <;> cases y <;> first
    | exact h.elim
    | exact h'.elim
    | exact .ok _ _ h
    | exact .err _ _ h.1 h.2.1
    | exact .panic
    | exact .diverge

end Seam
