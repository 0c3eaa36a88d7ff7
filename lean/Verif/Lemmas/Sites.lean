import Verif.Lemmas.SoundRun
import Verif.Lemmas.Date
import Verif.Spec.Sites
import Verif.Model.Report
import Verif.Model.Cli

/-! Helper lemmas: where the sites of trees and errors point. -/

namespace Seam
open Spec

/-! ## Sites of the reader -/

theorem marks_siteOf {b : Buf} {line : Nat} {before text after : Str} (h : b.code = before ++ text ++ after) (ht : text ≠ []) :
    ∃ above, Marks (siteOf b line before text) b.path b.code above (lastLine before) text after := by
  obtain ⟨a, h1, h2⟩ := lastLine_suffix before
  exact ⟨a, by rw [← h1]; exact h, h2, lastLine_notin _, ht, rfl, rfl, by rw [← h1]; rfl, rfl, rfl⟩

theorem lastLine_line {above left : Str} (h : above = [] ∨ ∃ a, above = a ++ ['\n']) (hl : '\n' ∉ left) :
    lastLine (above ++ left) = left := by
  rw [lastLine_append_of_notin _ _ hl]
  rcases h with rfl | ⟨a, rfl⟩
  · rfl
  · rw [lastLine_snoc, if_pos rfl]; rfl

theorem Spec.Marks.isSiteOf {s : Site} {p c above left text rest : Str} (h : Marks s p c above left text rest) :
    s = siteOf { path := p, id := s.buf, code := c } s.line (above ++ left) text := by
  have := lastLine_line h.lines h.sameLine
  cases s
  simp only [siteOf, Site.mk.injEq, this]
  exact ⟨h.path_eq, trivial, h.buffer, trivial, h.off, h.bol, h.span⟩

theorem Spec.Marks.slices {s : Site} {p c above left text rest : Str} (h : Marks s p c above left text rest) :
    s.view = some text ∧ s.preceding = some left ∧ s.lineSlice = some (left ++ upToNewline (text ++ rest)) := by
  have hl := lastLine_line h.lines h.sameLine
  rw [h.isSiteOf]
  refine ⟨siteOf_view _ _ _ _ rest h.code_eq, ?_, ?_⟩
  · rw [siteOf_preceding _ _ _ _ rest h.code_eq, hl]
  · rw [siteOf_lineSlice _ _ _ _ rest h.code_eq, hl]; rfl

/-- The sites of a token sequence. -/
theorem token_marks {b : Buf} {toks : List Token} {e : Ending} (h : TokensOf b toks e) {t : Token} (ht : t ∈ toks) :
    ∃ above left text rest, Marks t.site b.path b.code above left text rest := by
  obtain ⟨p, _⟩ := placed_of_tokensOf h t ht
  have hl := lexeme_length p.lexeme
  obtain ⟨a, hm⟩ := marks_siteOf (b := b) (line := p.line) (before := p.before ++ p.triv) (text := p.text) (after := p.after)
    p.code (by intro he; rw [he] at hl; simp at hl)
  rw [← p.site] at hm
  exact ⟨_, _, _, _, hm⟩

theorem unclosed_marks {b : Buf} {toks : List Token} {q : Str} {s : Site} (h : TokensOf b toks (.unclosed q s)) :
    ∃ above left text rest, Marks s b.path b.code above left text rest := by
  have : ∀ {before line rest toks e}, Tokens b before line rest toks e → b.code = before ++ rest →
      e = .unclosed q s → ∃ above left text rest, Marks s b.path b.code above left text rest := by
    intro before line rest toks e ht
    induction ht with
    | eof => intro _ h; cases h
    | cut => intro _ h; cases h
    | unclosed before line triv lead q' s' h1 h2 h3 =>
      intro hc he
      simp only [Ending.unclosed.injEq] at he
      obtain ⟨rfl, rfl⟩ := he
      obtain ⟨a, hm⟩ := marks_siteOf (b := b) (line := line + newlines triv) (before := before ++ triv) (text := q') (after := s')
        (by rw [hc]; simp) (by rcases h2 with ⟨rfl, _⟩ | ⟨rfl, _⟩ <;> simp [q1, q3])
      exact ⟨_, _, _, _, hm⟩
    | token before line triv lead kind text value rest toks e ht hl h ih =>
      intro hc he
      exact ih (by rw [hc]; simp) he
  exact this h (by simp) rfl

theorem parse_goods {u : Unescape} {b : Buf} {ns : List PNode} (h : parse u b = .ok ns) :
    Goods (fun s => ∃ above left text rest, Marks s b.path b.code above left text rest) ns := by
  obtain ⟨toks, ht, hs⟩ := parse_ok_tokens h
  refine goods_iff.2 ⟨fun x hx' => ?_, fun _ _ => trivial⟩
  rw [sites_expr.sitess_exprs hs] at hx'
  obtain ⟨t, htm, rfl⟩ := List.mem_map.1 hx'
  exact token_marks ht htm

theorem errorPlace_marks {u : Unescape} {b : Buf} {x : Err} (h : ErrorPlace u b x) :
    ∃ above left text rest, Marks x.site b.path b.code above left text rest := by
  cases h with
  | unclosedString toks q s h => exact unclosed_marks h
  | unclosedList p o ts ns h _ _ => exact token_marks h (t := o) (by simp)
  | stray p ns c ts e h _ _ => exact token_marks h (t := c) (by simp)
  | noValue p k ts e h _ _ => exact token_marks h (t := k) (by simp)
  | badEscape p t ts e h _ _ => exact token_marks h (t := t) (by simp)

/-! ## Sites of the expander -/

theorem extSnd_fromFiles (ext : Ext) (path code : Str) : ExtSnd (FromFiles ext path code) False ext where
  calm := False.elim
  src := .all (fun _ => trivial) fun _ => trivial
  file _ p c id tree _ h1 h2 := by
    refine goods_iff.2 ⟨fun x hx => ?_, fun _ _ => trivial⟩
    obtain ⟨a, l, t, r, hm⟩ := (goods_iff.1 (parse_goods h2)).1 x hx
    exact ⟨p, c, a, l, t, r, Or.inr h1, hm⟩

/-! ## Sites of the generators -/

/-- The errors are at sites in `S`. -/
def ErrIn (S : Site → Prop) {α : Type} (r : Res α) : Prop := ∀ e, r = .err e → S e.site

section
variable {S : Site → Prop}

theorem ErrIn.ok {α : Type} (a : α) : ErrIn S (.ok a : Res α) := fun _ h => by cases h
theorem ErrIn.panic {α : Type} : ErrIn S (.panic : Res α) := fun _ h => by cases h
theorem ErrIn.gen {α : Type} {msg : String} {s : Site} (h : S s) : ErrIn S (.err (genErr msg s) : Res α) := by
  intro e he; cases he; exact h
theorem ErrIn.bind {α β : Type} {r : Res α} {f : α → Res β} (h : ErrIn S r) (hf : ∀ a, ErrIn S (f a)) : ErrIn S (r >>= f) := by
  cases r with
  | ok a => exact hf a
  | err e => intro e' he; cases he; exact h e rfl
  | panic => exact .panic
  | diverge => intro e he; cases he

theorem xmlAttr_errIn {n : PNode} (h : Good S n) : ErrIn S (xmlAttr n) := by
  cases n with
  | attr k v s w =>
    simp only [xmlAttr]
    split
    · exact .ok _
    · exact .gen h.value.site
  | _ => exact .panic

theorem xmlAttrs_errIn : ∀ {ns : List PNode}, Goods S ns → ErrIn S (xmlAttrs ns)
  | [], _ => .ok _
  | n :: ns, h => by
    cases n with
    | attr k v s w => exact .bind (xmlAttr_errIn h.head) fun _ => .bind (xmlAttrs_errIn h.tail) fun _ => .ok _
    | _ => exact .ok _

theorem xmlDecl_errIn : ∀ {ns : List PNode}, Goods S ns → ErrIn S (xmlDecl ns)
  | [], _ => .ok _
  | n :: ns, h => by
    cases n with
    | attr k v s w => exact .bind (xmlAttr_errIn h.head) fun _ => .bind (xmlDecl_errIn h.tail) fun _ => .ok _
    | symbol a => exact .bind (xmlDecl_errIn h.tail) fun _ => .ok _
    | number a => exact .bind (xmlDecl_errIn h.tail) fun _ => .ok _
    | string a => exact .gen h.head.site
    | raw a => exact .gen h.head.site
    | list _ _ _ _ => exact .gen h.head.site

mutual
theorem xmlNode_errIn (lw : Str) : ∀ (n : PNode), Good S n → ErrIn S (xmlNode lw n)
  | .symbol _, _ => by simp only [xmlNode]; exact .ok _
  | .number _, _ => by simp only [xmlNode]; exact .ok _
  | .string _, _ => by simp only [xmlNode]; exact .ok _
  | .raw a, h => by simp only [xmlNode]; exact .gen (h.site)
  | .attr _ _ _ _, h => by simp only [xmlNode]; exact .gen (h.site)
  | .list [] s e w, h => by simp only [xmlNode]; exact .gen h.site
  | .list (hd :: rest) s e w, h => by
    cases hd with
    | symbol a =>
      simp only [xmlNode]
      split
      · exact .panic
      · split
        · exact .bind (xmlDecl_errIn h.kids.tail) fun _ => .ok _
        · exact .bind (xmlAttrs_errIn h.kids.tail) fun _ => .bind (xmlKids_errIn _ rest h.kids.tail) fun _ => .ok _
    | number a => simp only [xmlNode]; exact .gen h.kids.head.site
    | string a => simp only [xmlNode]; exact .gen h.kids.head.site
    | raw a => simp only [xmlNode]; exact .gen h.kids.head.site
    | list _ _ _ _ => simp only [xmlNode]; exact .gen h.kids.head.site
    | attr _ _ _ _ => simp only [xmlNode]; exact .gen h.kids.head.site
theorem xmlKids_errIn : ∀ (m : KidMode) (ns : List PNode), Goods S ns → ErrIn S (xmlKids m ns)
  | .lead, [], _ => by simp only [xmlKids]; exact .ok _
  | .rest, [], _ => by simp only [xmlKids]; exact .ok _
  | .lead, n :: ns, h => by
    simp only [xmlKids]
    split
    · exact xmlKids_errIn .lead ns h.tail
    · exact .bind (xmlNode_errIn _ n h.head) fun _ => .bind (xmlKids_errIn .rest ns h.tail) fun _ => .ok _
  | .rest, n :: ns, h => by
    simp only [xmlKids]
    exact .bind (xmlNode_errIn _ n h.head) fun _ => .bind (xmlKids_errIn .rest ns h.tail) fun _ => .ok _
end

mutual
theorem cssValue_errIn (dbg : Str → Str) : ∀ (n : PNode), Good S n → ErrIn S (cssValue dbg n)
  | .symbol _, _ => by simp only [cssValue]; exact .ok _
  | .number _, _ => by simp only [cssValue]; exact .ok _
  | .string _, _ => by simp only [cssValue]; exact .ok _
  | .raw _, _ => by simp only [cssValue]; exact .ok _
  | .attr _ _ _ _, h => by simp only [cssValue]; exact .gen h.site
  | .list [] _ _ _, _ => by simp only [cssValue]; exact .ok _
  | .list (n :: ns) s e w, h => by
    simp only [cssValue]
    exact .bind (cssValue_errIn dbg n h.kids.head) fun _ => .bind (cssValues_errIn dbg ns h.kids.tail) fun _ => .ok _
theorem cssValues_errIn (dbg : Str → Str) : ∀ (ns : List PNode), Goods S ns → ErrIn S (cssValues dbg ns)
  | [], _ => by simp only [cssValues]; exact .ok _
  | n :: ns, h => by
    simp only [cssValues]
    exact .bind (cssValue_errIn dbg n h.head) fun _ => .bind (cssValues_errIn dbg ns h.tail) fun _ => .ok _
end

theorem cssOneline_errIn (dbg : Str → Str) : ∀ {ns : List PNode}, Goods S ns → ErrIn S (cssOneline dbg ns)
  | [], _ => .ok _
  | n :: ns, h => by
    cases n with
    | attr k v s w => exact .bind (cssValue_errIn dbg v h.head.value) fun _ => .bind (cssOneline_errIn dbg h.tail) fun _ => .ok _
    | symbol _ => exact .bind (cssValue_errIn dbg _ h.head) fun _ => .bind (cssOneline_errIn dbg h.tail) fun _ => .ok _
    | number _ => exact .bind (cssValue_errIn dbg _ h.head) fun _ => .bind (cssOneline_errIn dbg h.tail) fun _ => .ok _
    | string _ => exact .bind (cssValue_errIn dbg _ h.head) fun _ => .bind (cssOneline_errIn dbg h.tail) fun _ => .ok _
    | raw _ => exact .bind (cssValue_errIn dbg _ h.head) fun _ => .bind (cssOneline_errIn dbg h.tail) fun _ => .ok _
    | list _ _ _ _ => exact .bind (cssValue_errIn dbg _ h.head) fun _ => .bind (cssOneline_errIn dbg h.tail) fun _ => .ok _

theorem cssProps_errIn (dbg : Str → Str) : ∀ {ns : List PNode}, Goods S ns → ErrIn S (cssProps dbg ns)
  | [], _ => .ok _
  | n :: ns, h => by
    cases n with
    | attr k v s w => exact .bind (cssValue_errIn dbg v h.head.value) fun _ => .bind (cssProps_errIn dbg h.tail) fun _ => .ok _
    | symbol _ => exact .gen h.head.site
    | number _ => exact .gen h.head.site
    | string _ => exact .gen h.head.site
    | raw _ => exact .gen h.head.site
    | list _ _ _ _ => exact .gen h.head.site

theorem goods_drop {ns : List PNode} (h : Goods S ns) (k : Nat) : Goods S (ns.drop k) := h.sub fun _ hn => List.mem_of_mem_drop hn

mutual
theorem cssRule_errIn (dbg : Str → Str) : ∀ (ns : List PNode), Goods S ns → ErrIn S (cssRule dbg ns)
  | [], _ => by simp only [cssRule]; exact .panic
  | n :: ns, h => by
    simp only [cssRule]
    split
    · exact .panic
    · split
      · split
        · exact .bind (cssOneline_errIn dbg h.tail) fun _ => .ok _
        · exact .bind (cssNested_errIn dbg _ ns h.tail) fun _ => .ok _
      · exact .bind (cssProps_errIn dbg (goods_drop h _)) fun _ => .ok _
theorem cssNested_errIn (dbg : Str → Str) (rules : Bool) : ∀ (ns : List PNode), Goods S ns → ErrIn S (cssNested dbg rules ns)
  | [], _ => by simp only [cssNested]; exact .ok _
  | .attr k v s w :: ns, h => by
    simp only [cssNested]
    split
    · exact .gen h.head.site
    · exact .bind (cssValue_errIn dbg v h.head.value) fun _ => .bind (cssNested_errIn dbg _ ns h.tail) fun _ => .ok _
  | .list rule s e w :: ns, h => by
    simp only [cssNested]
    exact .bind (cssRule_errIn dbg rule h.head.kids) fun _ => .bind (cssNested_errIn dbg _ ns h.tail) fun _ => .ok _
  | .symbol a :: ns, h => by
    simp only [cssNested]
    split
    · exact .gen h.head.site
    · exact .bind (cssValue_errIn dbg _ h.head) fun _ => .bind (cssNested_errIn dbg _ ns h.tail) fun _ => .ok _
  | .number a :: ns, h => by
    simp only [cssNested]
    split
    · exact .gen h.head.site
    · exact .bind (cssValue_errIn dbg _ h.head) fun _ => .bind (cssNested_errIn dbg _ ns h.tail) fun _ => .ok _
  | .string a :: ns, h => by
    simp only [cssNested]
    split
    · exact .gen h.head.site
    · exact .bind (cssValue_errIn dbg _ h.head) fun _ => .bind (cssNested_errIn dbg _ ns h.tail) fun _ => .ok _
  | .raw a :: ns, h => by
    simp only [cssNested]
    split
    · exact .gen h.head.site
    · exact .bind (cssValue_errIn dbg _ h.head) fun _ => .bind (cssNested_errIn dbg _ ns h.tail) fun _ => .ok _
end

theorem cssGenerate_errIn (dbg : Str → Str) : ∀ {ns : List PNode}, Goods S ns → ErrIn S (cssGenerate dbg ns)
  | [], _ => .ok _
  | n :: ns, h => by
    cases n with
    | list _ _ _ _ => exact .bind (cssRule_errIn dbg _ h.head.kids) fun _ => .bind (cssGenerate_errIn dbg h.tail) fun _ => .ok _
    | symbol _ => exact .gen h.head.site
    | number _ => exact .gen h.head.site
    | string _ => exact .gen h.head.site
    | raw _ => exact .gen h.head.site
    | attr _ _ _ _ => exact .gen h.head.site

theorem htmlDecl_errIn : ∀ {ns : List PNode}, Goods S ns → ErrIn S (htmlDecl ns)
  | [], _ => .ok _
  | n :: ns, h => by
    simp only [htmlDecl]
    split
    · exact .bind (htmlDecl_errIn h.tail) fun _ => .ok _
    · exact .gen h.head.site

theorem htmlAttrs_errIn : ∀ {ns : List PNode}, Goods S ns → ErrIn S (htmlAttrs ns)
  | [], _ => .ok _
  | n :: ns, h => by
    cases n with
    | attr k v s w =>
      simp only [htmlAttrs]
      split
      · exact .bind (htmlAttrs_errIn h.tail) fun _ => .ok _
      · exact .gen h.head.value.site
    | _ => exact .ok _

theorem goods_kids {ns : List PNode} (h : Goods S ns) : Goods S (kids ns) := h.sub fun _ hn => (List.dropWhile_suffix _).subset hn

theorem goods_adjustFirst {ns : List PNode} (h : Goods S ns) : Goods S (adjustFirst ns) := by
  cases ns with
  | nil => exact goods_nil
  | cons n ns => exact goods_cons (h.head.setLw _) h.tail

theorem rawText_errIn {o : Option PNode} {e : Token} : ErrIn S (rawText o e) := by
  cases o with
  | none => exact .ok _
  | some n =>
    simp only [rawText]
    split
    · split
      · cases sliceBytes e.site.code (n.site.off - blen n.lw + (if n.lw.head? = some ' ' then 1 else 0)) e.site.off with
        | none => exact .panic
        | some t => exact .ok _
      · exact .panic
    · exact .panic

theorem htmlSpecialContent_errIn (dbg : Str → Str) (tag : Str) {ns : List PNode} (e : Token) (h : Goods S ns) :
    ErrIn S (htmlSpecialContent dbg tag ns e) := by
  have ha := goods_adjustFirst h
  unfold htmlSpecialContent
  split
  · exact rawText_errIn
  · split
    · exact .ok _
    · split
      · split
        · exact .ok _
        · rename_i heq
          rw [heq] at ha
          exact .gen ha.head.site
        · exact .bind (cssGenerate_errIn dbg ha) fun _ => .ok _
      · split
        · exact .ok _
        · exact xmlKids_errIn _ _ ha

mutual
theorem htmlNode_errIn (dbg : Str → Str) (lw : Str) : ∀ (n : PNode), Good S n → ErrIn S (htmlNode dbg lw n)
  | .symbol _, _ => by simp only [htmlNode]; exact .ok _
  | .number _, _ => by simp only [htmlNode]; exact .ok _
  | .string _, _ => by simp only [htmlNode]; exact .ok _
  | .raw a, h => by simp only [htmlNode]; exact .ok _
  | .attr _ _ _ _, h => by simp only [htmlNode]; exact .gen (h.site)
  | .list [] s e w, h => by simp only [htmlNode]; exact .gen h.site
  | .list (hd :: rest) s e w, h => by
    cases hd with
    | symbol a =>
      simp only [htmlNode]
      split
      · exact .panic
      · split
        · exact .bind (htmlDecl_errIn h.kids.tail) fun _ => .ok _
        · refine .bind (htmlAttrs_errIn h.kids.tail) fun _ => ?_
          split
          · split
            · rename_i heq
              have := goods_kids h.kids.tail
              rw [heq] at this
              exact .gen this.head.site
            · exact .ok _
          · split
            · exact .bind (htmlSpecialContent_errIn dbg _ e (goods_kids h.kids.tail)) fun _ => .ok _
            · exact .bind (htmlKids_errIn dbg _ rest h.kids.tail) fun _ => .ok _
    | number a => simp only [htmlNode]; exact .gen h.kids.head.site
    | string a => simp only [htmlNode]; exact .gen h.kids.head.site
    | raw a => simp only [htmlNode]; exact .gen h.kids.head.site
    | list _ _ _ _ => simp only [htmlNode]; exact .gen h.kids.head.site
    | attr _ _ _ _ => simp only [htmlNode]; exact .gen h.kids.head.site
theorem htmlKids_errIn (dbg : Str → Str) : ∀ (m : KidMode) (ns : List PNode), Goods S ns → ErrIn S (htmlKids dbg m ns)
  | .lead, [], _ => by simp only [htmlKids]; exact .ok _
  | .rest, [], _ => by simp only [htmlKids]; exact .ok _
  | .lead, n :: ns, h => by
    simp only [htmlKids]
    split
    · exact htmlKids_errIn dbg .lead ns h.tail
    · exact .bind (htmlNode_errIn dbg _ n h.head) fun _ => .bind (htmlKids_errIn dbg .rest ns h.tail) fun _ => .ok _
  | .rest, n :: ns, h => by
    simp only [htmlKids]
    exact .bind (htmlNode_errIn dbg _ n h.head) fun _ => .bind (htmlKids_errIn dbg .rest ns h.tail) fun _ => .ok _
end

theorem htmlDocument_errIn (dbg : Str → Str) {ns : List PNode} (h : Goods S ns) : ErrIn S (htmlDocument dbg ns) := by
  unfold htmlDocument
  split
  · exact .ok _
  · exact .bind (htmlKids_errIn dbg _ _ h) fun _ => .ok _

theorem xmlDocument_errIn {ns : List PNode} (h : Goods S ns) : ErrIn S (xmlDocument ns) := by
  unfold xmlDocument
  split
  · exact .ok _
  · exact .bind (xmlKids_errIn _ _ h) fun _ => .ok _

theorem cssDocument_errIn (dbg : Str → Str) {ns : List PNode} (h : Goods S ns) : ErrIn S (cssDocument dbg ns) := by
  unfold cssDocument
  split
  · exact .ok _
  · exact cssGenerate_errIn dbg h

theorem generate_errIn (dbg : Str → Str) {target : Str} {doc : Bool} {ns : List PNode} {r : Res Str} (h : Goods S ns)
    (hg : generate dbg target doc ns = some r) : ErrIn S r := by
  unfold generate at hg
  repeat' split at hg
  all_goals (try cases hg)
  all_goals first
    | exact .ok _
    | exact htmlDocument_errIn dbg h
    | exact htmlKids_errIn dbg _ _ h
    | exact xmlDocument_errIn h
    | exact xmlKids_errIn _ _ h
    | exact cssDocument_errIn dbg h
    | exact cssGenerate_errIn dbg h

end

/-! ## Printing -/

theorem report_eq {s : Site} {p c above left text rest : Str} (h : Marks s p c above left text rest)
    (width : Str → Nat) (what msg : Str) :
    report width what msg s = some (linePrefix s ++ ' ' :: (left ++ upToNewline (text ++ rest)) ++ '\n' ::
      (padding (width (linePrefix s)) 1 ++ '|' :: ' ' :: List.replicate (width left) '~' ++ List.replicate (width text) '^' ++
      '\n' :: (str! "[**] " ++ what ++ ' ' :: ('(' :: p ++ ':' :: natStr s.line ++ ':' :: natStr (width left + 1) ++ [')']) ++
      str! ": " ++ msg))) := by
  obtain ⟨h1, h2, h3⟩ := h.slices
  simp only [report, Site.lineColumn, Site.width, Site.display, h1, h2, h3, Option.map_some, Option.bind_eq_bind, Option.bind_some,
    Nat.add_sub_cancel, h.path_eq]

theorem natStr_ascii (n : Nat) : ∀ c ∈ natStr n, 32 ≤ c.toNat ∧ c.toNat < 127 := by
  intro c hc
  have h := (natStr_digits n).1 c hc
  have h1 : '0'.toNat = 48 := rfl
  have h2 : '9'.toNat = 57 := rfl
  omega

theorem prefix_width {width : Str → Nat} (hw : AsciiColumns width) (s : Site) :
    width (linePrefix s) = (natStr s.line).length + 4 := by
  rw [hw]
  · simp [linePrefix]
  · intro c hc
    simp only [linePrefix, List.mem_append] at hc
    rcases hc with (hc | hc) | hc
    · simp at hc; subst hc; decide
    · exact natStr_ascii _ c hc
    · simp at hc; rcases hc with rfl | rfl <;> decide

theorem report_text {s : Site} {p c above left text rest : Str} (h : Marks s p c above left text rest)
    {width : Str → Nat} (hw : AsciiColumns width) (what msg : Str) :
    report width what msg s = some (errorText width what msg p s.line left text (upToNewline (text ++ rest))) := by
  rw [report_eq h, prefix_width hw, show padding ((natStr s.line).length + 4) 1 = List.replicate ((natStr s.line).length + 3) ' ' from rfl]
  unfold errorText linePrefix
  simp only [List.append_assoc, List.cons_append, List.nil_append]

theorem logLine_text {s : Site} {p c above left text rest : Str} (h : Marks s p c above left text rest)
    (width : Str → Nat) (words : List Str) : logLine width words s =
    some (str! "[#] log (" ++ p ++ str! ":" ++ natStr s.line ++ str! ":" ++ natStr (width left + 1) ++ str! "): " ++ joinStr [' '] words) := by
  obtain ⟨_, h2, _⟩ := h.slices
  simp [logLine, Site.display, Site.lineColumn, h2, h.path_eq, List.append_assoc]

theorem parse_errorPlace {u : Unescape} {b : Buf} {x : Err} (h : parse u b = .err x) : ErrorPlace u b x := by
  obtain ⟨toks, e, ht⟩ := tokens_total b [] 1 b.code
  have hout := parse_out u b ht
  rw [h] at hout
  cases hout with
  | mk ts ns ts' _ _ h1 h2 => exact errorPlace_expr h2 ts ht (fun _ _ _ => ⟨ns, h1⟩)

theorem expand_fromFiles (ext : Ext) {order : Order} (ho : Fair order) (fuel : Nat) (path code : Str) :
    Inv (FromFiles ext path code) (expand ext order fuel path code).2 ∧
    ROk (FromFiles ext path code) False (Goods (FromFiles ext path code)) (expand ext order fuel path code).1 := by
  have hi : Inv (FromFiles ext path code) (St.init order) :=
    ⟨fun _ _ h => by simp [St.init, Scope.empty] at h, fun _ h => by simp [St.init] at h, ho⟩
  unfold expand
  rcases hp : parse ext.unescape { path := path, id := 1, code := code } with tree | e | _ | _
  · refine expandNodes_snd (run_snd (extSnd_fromFiles ext path code) fuel) ?_ _ trivial hi
    refine goods_iff.2 ⟨fun x hx => ?_, fun _ _ => trivial⟩
    obtain ⟨a, l, t, r, hm⟩ := (goods_iff.1 (parse_goods hp)).1 x hx
    exact ⟨path, code, a, l, t, r, .inl ⟨rfl, rfl⟩, hm⟩
  · refine ⟨hi, ?_⟩
    obtain ⟨a, l, t, r, hm⟩ := errorPlace_marks (parse_errorPlace hp)
    exact ⟨path, code, a, l, t, r, .inl ⟨rfl, rfl⟩, hm⟩
  · exact ⟨hi, id⟩
  · exact ⟨hi, trivial⟩

end Seam
