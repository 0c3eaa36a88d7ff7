import Verif.Spec.Reader
import Verif.Lemmas.Lexer
import Verif.Lemmas.Written
import Verif.Lemmas.Letters
import Verif.Model.Assemble

/-! How much text is written for a tree, compared with the place it takes in its source. -/

namespace Seam
open Spec

mutual
/-- The node lies between the places `lo` and `hi` of its source. -/
inductive Sits : Nat → PNode → Nat → Prop
  | symbol (n : Node) (lo hi : Nat) : lo + blen n.lw ≤ n.site.off → n.site.off + blen n.value ≤ hi → n.site.off + 1 ≤ hi → Sits lo (.symbol n) hi
  | number (n : Node) (lo hi : Nat) : lo + blen n.lw ≤ n.site.off → n.site.off + blen n.value ≤ hi → n.site.off + 1 ≤ hi → Sits lo (.number n) hi
  | string (n : Node) (lo hi : Nat) : lo + blen n.lw ≤ n.site.off → n.site.off + blen n.value + 2 ≤ hi → Sits lo (.string n) hi
  | list (ns : List PNode) (s : Site) (e : Token) (w : Str) (lo m m' hi : Nat) : lo + blen w ≤ s.off → s.off + 1 ≤ m → SitsAll m ns m' →
      m' + blen e.lw ≤ e.site.off → e.site.off + 1 ≤ hi → Sits lo (.list ns s e w) hi
  | attr (k : Str) (n : PNode) (s : Site) (w : Str) (lo m hi : Nat) : lo + blen w ≤ s.off → s.off + 1 + blen k ≤ m → Sits m n hi →
      Sits lo (.attr k n s w) hi
inductive SitsAll : Nat → List PNode → Nat → Prop
  | nil (lo hi : Nat) : lo ≤ hi → SitsAll lo [] hi
  | cons (n : PNode) (ns : List PNode) (lo m hi : Nat) : Sits lo n m → SitsAll m ns hi → SitsAll lo (n :: ns) hi
end

/-- The tokens lie one after the other between two places. -/
inductive Run : Nat → List Token → Nat → Prop
  | nil (lo hi : Nat) : lo ≤ hi → Run lo [] hi
  | cons (t : Token) (ts : List Token) (lo m hi : Nat) : lo + blen t.lw ≤ t.site.off → t.site.off + t.site.span ≤ m → 1 ≤ t.site.span →
      (t.kind = .string → blen t.value + 2 ≤ t.site.span) → (t.kind ≠ .string → blen t.value ≤ t.site.span) →
      (t.kind = .keyword → blen t.value + 1 ≤ t.site.span) → Run m ts hi → Run lo (t :: ts) hi

theorem trivia_blen {t lead : Str} (h : Trivia t lead) : blen lead ≤ blen t := by
  induction h with
  | blanks => exact Nat.le_refl _
  | comment w text r lead _ _ _ ih => simp only [blen_append, blen_cons] at ih ⊢; omega

theorem run_split : ∀ {ts us : List Token} {lo hi : Nat}, Run lo (ts ++ us) hi → ∃ m, Run lo ts m ∧ Run m us hi
  | [], us, lo, hi, h => ⟨lo, .nil _ _ (Nat.le_refl _), h⟩
  | t :: ts, us, lo, hi, h => by
    cases h with
    | cons _ _ _ m _ h1 h2 h3 h4 h5 h6 h7 =>
      obtain ⟨m', i1, i2⟩ := run_split h7
      exact ⟨m', .cons _ _ _ _ _ h1 h2 h3 h4 h5 h6 i1, i2⟩

theorem tokens_run {b : Buf} {before : Str} {line : Nat} {rest : Str} {toks : List Token} {e : Ending}
    (h : Tokens b before line rest toks e) : Run (blen before) toks (blen (before ++ rest)) := by
  induction h with
  | eof => exact .nil _ _ (by simp)
  | unclosed => exact .nil _ _ (by simp)
  | cut => exact .nil _ _ (by simp)
  | token before line triv lead kind text value rest toks e ht hl _ ih =>
    have hb := trivia_blen ht
    have hx : blen (before ++ (triv ++ (text ++ rest))) = blen (before ++ triv ++ text ++ rest) := by simp only [blen_append]; omega
    rw [hx]
    refine .cons _ _ _ _ _ ?_ ?_ ?_ ?_ ?_ ?_ ih
    · simp only [siteOf, blen_append]; omega
    · simp only [siteOf, blen_append]; omega
    · simp only [siteOf]
      cases hl with
      | lparen => decide
      | rparen => decide
      | symbol _ _ _ h2 => cases text with
        | nil => simp [Starts] at h2
        | cons c cs => have := Char.utf8Size_pos c; simp only [blen_cons]; omega
      | number _ _ _ h2 => cases text with
        | nil => simp [Starts] at h2
        | cons c cs => have := Char.utf8Size_pos c; simp only [blen_cons]; omega
      | keyword => simp only [blen_cons]; have := Char.utf8Size_pos ':'; omega
      | string q body _ _ h2 =>
        rcases h2 with ⟨rfl, _⟩ | ⟨rfl, _⟩ <;> simp only [q3, q1, blen_append, blen_cons] <;> have := Char.utf8Size_pos '"' <;> omega
    · intro hk
      dsimp only at hk
      subst hk
      cases hl with
      | string q body _ _ h2 =>
        rcases h2 with ⟨rfl, _⟩ | ⟨rfl, _⟩ <;> simp only [siteOf, q3, q1, blen_append, blen_cons] <;> have := Char.utf8Size_pos '"' <;> omega
    · intro hk
      simp only [siteOf]
      cases hl with
      | string => exact absurd rfl hk
      | keyword => simp only [blen_cons]; omega
      | _ => exact Nat.le_refl _
    · intro hk
      dsimp only at hk
      subst hk
      cases hl with
      | keyword => simp only [siteOf, blen_cons]; have := Char.utf8Size_pos ':'; omega

theorem noBackslash_blen : ∀ s : Str, blen (noBackslash s) ≤ blen s
  | [] => Nat.le_refl _
  | c :: s => by
    have := noBackslash_blen s
    simp only [noBackslash, List.filter_cons] at this ⊢
    split <;> simp only [blen_cons] <;> omega

mutual
theorem expr_sits {u : Unescape} (hu : ∀ s v, u s = some v → blen v ≤ blen s) : ∀ {ts : List Token} {n : PNode}, Expr u ts n →
    ∀ {lo hi : Nat}, Run lo ts hi → Sits lo n hi
  | _, _, .symbol t hk, lo, hi, h => by
    cases h with
    | cons _ _ _ m _ h1 h2 h3 h4 h5 h6 h7 =>
      cases h7 with
      | nil _ _ h8 =>
        have := h5 (by rw [hk]; decide)
        have := noBackslash_blen t.value
        exact .symbol _ _ _ h1 (by dsimp only; omega) (by dsimp only; omega)
  | _, _, .number t hk, lo, hi, h => by
    cases h with
    | cons _ _ _ m _ h1 h2 h3 h4 h5 h6 h7 =>
      cases h7 with
      | nil _ _ h8 =>
        have := h5 (by rw [hk]; decide)
        have := noBackslash_blen t.value
        exact .number _ _ _ h1 (by dsimp only; omega) (by dsimp only; omega)
  | _, _, .string t v hk hv, lo, hi, h => by
    cases h with
    | cons _ _ _ m _ h1 h2 h3 h4 h5 h6 h7 =>
      cases h7 with
      | nil _ _ h8 =>
        have := h4 hk
        have := hu _ _ hv
        exact .string _ _ _ h1 (by dsimp only; omega)
  | _, _, .list o c ts ns ho hc hn, lo, hi, h => by
    cases h with
    | cons _ _ _ m _ h1 h2 h3 h4 h5 h6 h7 =>
      obtain ⟨m', i1, i2⟩ := run_split h7
      cases i2 with
      | cons _ _ _ m2 _ j1 j2 j3 j4 j5 j6 j7 =>
        cases j7 with
        | nil _ _ j8 => exact .list _ _ _ _ _ m m' _ h1 (by omega) (exprs_sits hu hn i1) j1 (by omega)
  | _, _, .attr k ts n hk hn, lo, hi, h => by
    cases h with
    | cons _ _ _ m _ h1 h2 h3 h4 h5 h6 h7 =>
      have := h6 hk
      exact .attr _ _ _ _ _ m _ h1 (by omega) (expr_sits hu hn h7)
theorem exprs_sits {u : Unescape} (hu : ∀ s v, u s = some v → blen v ≤ blen s) : ∀ {ts : List Token} {ns : List PNode}, Exprs u ts ns →
    ∀ {lo hi : Nat}, Run lo ts hi → SitsAll lo ns hi
  | _, _, .nil, lo, hi, h => by
    cases h with
    | nil _ _ h => exact .nil _ _ h
  | _, _, .cons ts n ts' ns h1 h2, lo, hi, h => by
    obtain ⟨m, i1, i2⟩ := run_split h
    exact .cons _ _ _ m _ (expr_sits hu h1 i1) (exprs_sits hu h2 i2)
end

mutual
theorem Sits.le : ∀ {n : PNode} {lo hi : Nat}, Sits lo n hi → lo + blen n.lw + 1 ≤ hi
  | _, _, _, .symbol n lo hi h1 h2 h3 => by simp only [PNode.lw]; omega
  | _, _, _, .number n lo hi h1 h2 h3 => by simp only [PNode.lw]; omega
  | _, _, _, .string n lo hi h1 h2 => by simp only [PNode.lw]; omega
  | _, _, _, .list ns s e w lo m m' hi h1 h2 h3 h4 h5 => by have := h3.le; simp only [PNode.lw]; omega
  | _, _, _, .attr k n s w lo m hi h1 h2 h3 => by have := h3.le; simp only [PNode.lw]; omega
theorem SitsAll.le : ∀ {ns : List PNode} {lo hi : Nat}, SitsAll lo ns hi → lo ≤ hi
  | _, _, _, .nil _ _ h => h
  | _, _, _, .cons n ns lo m hi h1 h2 => by have := h1.le; have := h2.le; omega
end

theorem Sits.setLw {n : PNode} {lo hi : Nat} (h : Sits lo n hi) {w : Str} (hw : blen w ≤ blen n.lw) : Sits lo (n.setLw w) hi := by
  cases h with
  | symbol n _ _ h1 h2 h3 => exact .symbol _ _ _ (by simp only [PNode.lw] at hw; dsimp only; omega) h2 h3
  | number n _ _ h1 h2 h3 => exact .number _ _ _ (by simp only [PNode.lw] at hw; dsimp only; omega) h2 h3
  | string n _ _ h1 h2 => exact .string _ _ _ (by simp only [PNode.lw] at hw; dsimp only; omega) h2
  | list ns s e w _ m m' _ h1 h2 h3 h4 h5 => exact .list _ _ _ _ _ m m' _ (by simp only [PNode.lw] at hw; omega) h2 h3 h4 h5
  | attr k n s w _ m _ h1 h2 h3 => exact .attr _ _ _ _ _ m _ (by simp only [PNode.lw] at hw; omega) h2 h3

theorem firstLw_blen (w : Str) : blen (firstLw w) ≤ blen w := by
  unfold firstLw
  split
  · exact Nat.le_refl _
  · simp

theorem SitsAll.adjust {ns : List PNode} {lo hi : Nat} (h : SitsAll lo ns hi) : SitsAll lo (adjustFirst ns) hi := by
  cases h with
  | nil _ _ h => exact .nil _ _ h
  | cons n ns _ m _ h1 h2 => exact .cons _ _ _ m _ (h1.setLw (firstLw_blen _)) h2

/-! ## Text and S-expressions -/

mutual
theorem text_size : ∀ {n : PNode} {lo hi : Nat}, Sits lo n hi → lo + blen (textNode n) ≤ hi
  | _, _, _, .symbol n lo hi h1 h2 h3 => by simp only [textNode, blen_append]; omega
  | _, _, _, .number n lo hi h1 h2 h3 => by simp only [textNode, blen_append]; omega
  | _, _, _, .string n lo hi h1 h2 => by simp only [textNode, blen_append]; omega
  | _, _, _, .list ns s e w lo m m' hi h1 h2 h3 h4 h5 => by
    have := texts_size h3
    simp only [textNode, blen_append, blen_cons, blen_nil, show ('(' : Char).utf8Size = 1 from rfl, show (')' : Char).utf8Size = 1 from rfl]
    omega
  | _, _, _, .attr k n s w lo m hi h1 h2 h3 => by
    have := text_size h3
    simp only [textNode, blen_append, blen_cons, show (':' : Char).utf8Size = 1 from rfl]
    omega
theorem texts_size : ∀ {ns : List PNode} {lo hi : Nat}, SitsAll lo ns hi → lo + blen (textNodes ns) ≤ hi
  | _, _, _, .nil _ _ h => by simpa [textNodes] using h
  | _, _, _, .cons n ns lo m hi h1 h2 => by
    have := text_size h1
    have := texts_size h2
    simp only [textNodes, blen_append]; omega
end

mutual
theorem sexp_size {dbg : Str → Str} (hd : ∀ s, blen (dbg s) ≤ 6 * blen s + 2) : ∀ {n : PNode} {lo hi : Nat}, Sits lo n hi →
    6 * lo + blen (sexpNode dbg n) ≤ 6 * hi
  | _, _, _, .symbol n lo hi h1 h2 h3 => by simp only [sexpNode, blen_append]; omega
  | _, _, _, .number n lo hi h1 h2 h3 => by simp only [sexpNode, blen_append]; omega
  | _, _, _, .string n lo hi h1 h2 => by have := hd n.value; simp only [sexpNode, blen_append]; omega
  | _, _, _, .list ns s e w lo m m' hi h1 h2 h3 h4 h5 => by
    have := sexps_size hd h3
    simp only [sexpNode, blen_append, blen_cons, blen_nil, show ('(' : Char).utf8Size = 1 from rfl, show (')' : Char).utf8Size = 1 from rfl]
    omega
  | _, _, _, .attr k n s w lo m hi h1 h2 h3 => by
    have := sexp_size hd h3
    simp only [sexpNode, blen_append, blen_cons, show (':' : Char).utf8Size = 1 from rfl]
    omega
theorem sexps_size {dbg : Str → Str} (hd : ∀ s, blen (dbg s) ≤ 6 * blen s + 2) : ∀ {ns : List PNode} {lo hi : Nat}, SitsAll lo ns hi →
    6 * lo + blen (sexpNodes dbg ns) ≤ 6 * hi
  | _, _, _, .nil _ _ h => by simp only [sexpNodes, blen_nil]; omega
  | _, _, _, .cons n ns lo m hi h1 h2 => by
    have := sexp_size hd h1
    have := sexps_size hd h2
    simp only [sexpNodes, blen_append]; omega
end

/-! ## XML -/

theorem escape_size : ∀ s : Str, blen (escapeXml s) ≤ 6 * blen s
  | [] => by simp [escapeXml]
  | c :: s => by
    have ih := escape_size s
    have hc : blen (escapeXmlChar c) ≤ 6 * c.utf8Size := by
      have := Char.utf8Size_pos c
      unfold escapeXmlChar
      split
      · exact Nat.le_trans (show _ ≤ 6 by decide) (by omega)
      · split
        · exact Nat.le_trans (show _ ≤ 6 by decide) (by omega)
        · split
          · exact Nat.le_trans (show _ ≤ 6 by decide) (by omega)
          · split
            · exact Nat.le_trans (show _ ≤ 6 by decide) (by omega)
            · split
              · exact Nat.le_trans (show _ ≤ 6 by decide) (by omega)
              · simp only [blen_cons, blen_nil]; omega
    simp only [escapeXml, blen_append, blen_cons]; omega

theorem atomic_size {n : PNode} {a : Node} (ha : n.atomic? = some a) {lo hi : Nat} (h : Sits lo n hi) :
    lo + blen a.lw + blen a.value ≤ hi := by
  cases h with
  | symbol n _ _ h1 h2 h3 => simp only [PNode.atomic?, Option.some.injEq] at ha; subst ha; omega
  | number n _ _ h1 h2 h3 => simp only [PNode.atomic?, Option.some.injEq] at ha; subst ha; omega
  | string n _ _ h1 h2 => simp only [PNode.atomic?, Option.some.injEq] at ha; subst ha; omega
  | list => simp [PNode.atomic?] at ha
  | attr => simp [PNode.atomic?] at ha

theorem xmlAttr_size {k : Str} {n : PNode} {s : Site} {w out : Str} (h : xmlAttr (.attr k n s w) = .ok out) {lo hi : Nat}
    (hs : Sits lo (.attr k n s w) hi) : lo + blen out + blen w ≤ hi + 2 := by
  simp only [xmlAttr] at h
  cases ha : n.atomic? with
  | none => rw [ha] at h; cases h
  | some a =>
    rw [ha] at h
    simp only [Res.ok.injEq] at h
    subst h
    cases hs with
    | attr _ _ _ _ _ m _ h1 h2 h3 =>
      have := atomic_size ha h3
      simp only [blen_append, blen_cons, blen_nil, show ('"' : Char).utf8Size = 1 from rfl, show ('=' : Char).utf8Size = 1 from rfl]
      omega

theorem xmlAttrs_size : ∀ {rest : List PNode} {out : Str}, xmlAttrs rest = .ok out → ∀ {lo hi : Nat}, SitsAll lo rest hi →
    ∃ mid, lo ≤ mid ∧ 3 * lo + blen out ≤ 3 * mid ∧ SitsAll mid (kids rest) hi
  | [], out, h, lo, hi, hs => by
    simp only [xmlAttrs, Res.ok.injEq] at h
    subst h
    exact ⟨lo, Nat.le_refl _, by simp, hs⟩
  | n :: rest, out, h, lo, hi, hs => by
    cases n with
    | attr k v s w =>
      simp only [xmlAttrs, Res.bind_eq_ok] at h
      obtain ⟨a, h1, b, h2, h3⟩ := h
      simp only [Res.ok.injEq] at h3
      subst h3
      cases hs with
      | cons _ _ _ m _ i1 i2 =>
        obtain ⟨mid, j1, j2, j3⟩ := xmlAttrs_size h2 i2
        have := xmlAttr_size h1 i1
        have := i1.le
        refine ⟨mid, by omega, ?_, ?_⟩
        · simp only [blen_append, blen_cons, show (' ' : Char).utf8Size = 1 from rfl]
          cases i1 with
          | attr _ _ _ _ _ m1 _ k1 k2 k3 =>
            have := k3.le
            omega
        · exact j3
    | _ =>
      simp only [xmlAttrs, Res.ok.injEq] at h
      subst h
      exact ⟨lo, Nat.le_refl _, by simp, hs⟩

theorem xmlDecl_size : ∀ {rest : List PNode} {out : Str}, xmlDecl rest = .ok out → ∀ {lo hi : Nat}, SitsAll lo rest hi →
    3 * lo + blen out ≤ 3 * hi
  | [], out, h, lo, hi, hs => by
    simp only [xmlDecl, Res.ok.injEq] at h
    subst h
    have := hs.le
    simp only [blen_nil]; omega
  | n :: rest, out, h, lo, hi, hs => by
    cases hs with
    | cons _ _ _ m _ i1 i2 =>
      cases n with
      | attr k v s w =>
        simp only [xmlDecl, Res.bind_eq_ok] at h
        obtain ⟨a, h1, b, h2, h3⟩ := h
        simp only [Res.ok.injEq] at h3
        subst h3
        have := xmlDecl_size h2 i2
        have := xmlAttr_size h1 i1
        simp only [blen_append, blen_cons, show (' ' : Char).utf8Size = 1 from rfl]
        cases i1 with
        | attr _ _ _ _ _ m1 _ k1 k2 k3 =>
          have := k3.le
          omega
      | symbol a =>
        simp only [xmlDecl, Res.bind_eq_ok] at h
        obtain ⟨b, h2, h3⟩ := h
        simp only [Res.ok.injEq] at h3
        subst h3
        have := xmlDecl_size h2 i2
        have := atomic_size rfl i1
        simp only [blen_append]; omega
      | number a =>
        simp only [xmlDecl, Res.bind_eq_ok] at h
        obtain ⟨b, h2, h3⟩ := h
        simp only [Res.ok.injEq] at h3
        subst h3
        have := xmlDecl_size h2 i2
        have := atomic_size rfl i1
        simp only [blen_append]; omega
      | string a => simp [xmlDecl] at h
      | raw a => simp [xmlDecl] at h
      | list => simp [xmlDecl] at h

theorem closeWs_blen (tag lw : Str) (e : Token) (nl : Bool) : blen (closeWs tag lw e nl) ≤ blen lw + blen e.lw := by
  unfold closeWs
  split
  · split <;> simp
  · omega

theorem xmlLead_kids : ∀ rest : List PNode, xmlKids .lead rest = xmlKids .lead (kids rest)
  | [] => rfl
  | n :: ns => by
    simp only [kids, List.dropWhile_cons]
    split
    · rename_i h
      rw [xmlKids, if_pos h]
      exact xmlLead_kids ns
    · rfl

mutual
theorem xml_size : ∀ {n : PNode} {lw out : Str}, xmlNode lw n = .ok out → blen lw ≤ blen n.lw → ∀ {lo hi : Nat}, Sits lo n hi →
    6 * lo + blen out ≤ 6 * hi
  | .symbol n, lw, out, h, hw, lo, hi, hs => by
    simp only [xmlNode, Res.ok.injEq] at h
    subst h
    have := atomic_size rfl hs
    have := escape_size n.value
    simp only [PNode.lw] at hw
    simp only [blen_append]; omega
  | .number n, lw, out, h, hw, lo, hi, hs => by
    simp only [xmlNode, Res.ok.injEq] at h
    subst h
    have := atomic_size rfl hs
    have := escape_size n.value
    simp only [PNode.lw] at hw
    simp only [blen_append]; omega
  | .string n, lw, out, h, hw, lo, hi, hs => by
    simp only [xmlNode, Res.ok.injEq] at h
    subst h
    have := atomic_size rfl hs
    have := escape_size n.value
    simp only [PNode.lw] at hw
    simp only [blen_append]; omega
  | .raw n, lw, out, h, _, _, _, _ => by simp [xmlNode] at h
  | .attr .., lw, out, h, _, _, _, _ => by simp [xmlNode] at h
  | .list [] .., lw, out, h, _, _, _, _ => by simp [xmlNode] at h
  | .list (.symbol hd :: rest) s e w, lw, out, h, hw, lo, hi, hs => by
    cases hs with
    | list _ _ _ _ _ m m' _ h1 h2 h3 h4 h5 =>
      cases h3 with
      | cons _ _ _ m2 _ i1 i2 =>
        have a1 := atomic_size rfl i1
        have a2 := i1.le
        simp only [PNode.lw] at hw
        rw [xmlNode] at h
        cases hv : hd.value with
        | nil => rw [hv] at h; cases h
        | cons c cs =>
          rw [hv] at h
          rw [hv] at a1
          dsimp only at h
          split at h
          · rw [Res.bind_eq_ok] at h
            obtain ⟨d, k1, k2⟩ := h
            simp only [Res.ok.injEq] at k2
            subst k2
            have := xmlDecl_size k1 i2
            have := i2.le
            simp only [blen_append, blen_cons, show ('<' : Char).utf8Size = 1 from rfl] at a1 ⊢
            have : blen (if (c == '?') = true then str! " ?>" else str! ">") ≤ 3 := by split <;> decide
            omega
          · rw [Res.bind_eq_ok] at h
            obtain ⟨as, k1, k2⟩ := h
            rw [Res.bind_eq_ok] at k2
            obtain ⟨cs', k2, k3⟩ := k2
            simp only [Res.ok.injEq] at k3
            subst k3
            obtain ⟨mid, j1, j2, j3⟩ := xmlAttrs_size k1 i2
            rw [xmlLead_kids] at k2
            have := xmlKids_kids_size (rest := rest) k2 j3
            have := j3.le
            have := closeWs_blen (c :: cs) lw e (firstOnNextLine (kids rest))
            simp only [blen_append, blen_cons, blen_nil, show ('<' : Char).utf8Size = 1 from rfl, show ('>' : Char).utf8Size = 1 from rfl,
              show ('/' : Char).utf8Size = 1 from rfl] at a1 ⊢
            omega
  | .list (.number _ :: _) .., lw, out, h, _, _, _, _ => by simp [xmlNode] at h
  | .list (.string _ :: _) .., lw, out, h, _, _, _, _ => by simp [xmlNode] at h
  | .list (.raw _ :: _) .., lw, out, h, _, _, _, _ => by simp [xmlNode] at h
  | .list (.list .. :: _) .., lw, out, h, _, _, _, _ => by simp [xmlNode] at h
  | .list (.attr .. :: _) .., lw, out, h, _, _, _, _ => by simp [xmlNode] at h
theorem xmlKids_kids_size : ∀ {rest : List PNode} {out : Str}, xmlKids .lead (kids rest) = .ok out → ∀ {lo hi : Nat}, SitsAll lo (kids rest) hi →
    6 * lo + blen out ≤ 6 * hi
  | [], out, h, lo, hi, hs => by
    simp only [kids, List.dropWhile_nil, xmlKids, Res.ok.injEq] at h
    subst h
    have := hs.le
    simp only [blen_nil]; omega
  | n :: rest, out, h, lo, hi, hs => by
    simp only [kids, List.dropWhile_cons] at h hs
    split at h
    · rename_i ha
      rw [if_pos ha] at hs
      exact xmlKids_kids_size (rest := rest) h hs
    · rename_i ha
      rw [if_neg ha] at hs
      rw [xmlKids, if_neg ha, Res.bind_eq_ok] at h
      obtain ⟨a, h1, h2⟩ := h
      rw [Res.bind_eq_ok] at h2
      obtain ⟨b, h2, h3⟩ := h2
      simp only [Res.ok.injEq] at h3
      subst h3
      cases hs with
      | cons _ _ _ m _ i1 i2 =>
        have := xml_size h1 (firstLw_blen _) i1
        have := xmlRest_size h2 i2
        simp only [blen_append]; omega
theorem xmlRest_size : ∀ {ns : List PNode} {out : Str}, xmlKids .rest ns = .ok out → ∀ {lo hi : Nat}, SitsAll lo ns hi →
    6 * lo + blen out ≤ 6 * hi
  | [], out, h, lo, hi, hs => by
    simp only [xmlKids, Res.ok.injEq] at h
    subst h
    have := hs.le
    simp only [blen_nil]; omega
  | n :: ns, out, h, lo, hi, hs => by
    rw [xmlKids, Res.bind_eq_ok] at h
    obtain ⟨a, h1, h2⟩ := h
    rw [Res.bind_eq_ok] at h2
    obtain ⟨b, h2, h3⟩ := h2
    simp only [Res.ok.injEq] at h3
    subst h3
    cases hs with
    | cons _ _ _ m _ i1 i2 =>
      have := xml_size h1 (Nat.le_refl _) i1
      have := xmlRest_size h2 i2
      simp only [blen_append]; omega
end

/-! ## CSS -/

theorem dropWhile_blen (p : Char → Bool) : ∀ s : Str, blen (s.dropWhile p) ≤ blen s
  | [] => Nat.le_refl _
  | c :: s => by
    have := dropWhile_blen p s
    simp only [List.dropWhile_cons]
    split <;> simp only [blen_cons] <;> omega

theorem reverse_blen : ∀ s : Str, blen s.reverse = blen s
  | [] => rfl
  | c :: s => by simp only [List.reverse_cons, blen_append, blen_cons, blen_nil, reverse_blen s]; omega

theorem trim_blen (s : Str) : blen (trim s) ≤ blen s := by
  unfold trim trimEnd trimStart
  rw [reverse_blen]
  refine Nat.le_trans (dropWhile_blen _ _) ?_
  rw [reverse_blen]
  exact dropWhile_blen _ _

/-- The size of several texts, with three bytes for each of them. -/
def threes : List Str → Nat
  | [] => 0
  | v :: vs => blen v + 3 + threes vs

theorem join_size (sep : Str) (h : blen sep ≤ 3) : ∀ vs : List Str, blen (joinStr sep vs) ≤ threes vs
  | [] => by simp [joinStr, threes]
  | [v] => by simp only [joinStr, threes]; omega
  | v :: w :: vs => by
    have := join_size sep h (w :: vs)
    simp only [joinStr, threes, blen_append] at this ⊢
    omega

theorem operator_blen : ∀ h ∈ cssBinaryOperators, blen h = 1 := by decide

theorem apply_size (head : Str) (tail : List Str) : blen (cssApply head tail) ≤ blen head + threes tail + 2 := by
  have ht : ∀ sep, blen sep ≤ 3 → blen (trim (joinStr sep tail)) ≤ threes tail :=
    fun sep hs => Nat.le_trans (trim_blen _) (join_size sep hs tail)
  unfold cssApply
  dsimp only
  have h1 := ht (if cssCommaDelim.contains head then str! ", " else str! " ") (by split <;> decide)
  split
  · simp only [blen_append, blen_cons, blen_nil, show ('(' : Char).utf8Size = 1 from rfl, show (')' : Char).utf8Size = 1 from rfl]; omega
  · split
    · rename_i hb
      have hm : head ∈ cssBinaryOperators := by simpa using hb
      have h2 := join_size (' ' :: head ++ [' ']) (by
        simp only [blen_append, blen_cons, blen_nil, show (' ' : Char).utf8Size = 1 from rfl, List.cons_append, operator_blen head hm]
        decide) tail
      simp only [blen_append, blen_cons, blen_nil, show ('(' : Char).utf8Size = 1 from rfl, show (')' : Char).utf8Size = 1 from rfl]; omega
    · simp only [blen_append, blen_cons, show (' ' : Char).utf8Size = 1 from rfl]; omega

mutual
theorem value_size {dbg : Str → Str} (hd : ∀ s, blen (dbg s) ≤ 6 * blen s + 2) : ∀ {n : PNode} {out : Str}, cssValue dbg n = .ok out →
    ∀ {lo hi : Nat}, Sits lo n hi → 11 * lo + blen out + 3 ≤ 11 * hi
  | .symbol n, out, h, lo, hi, hs => by
    simp only [cssValue, Res.ok.injEq] at h
    subst h
    have := hd n.value
    cases hs with
    | symbol _ _ _ h1 h2 h3 => split <;> omega
  | .number n, out, h, lo, hi, hs => by
    simp only [cssValue, Res.ok.injEq] at h
    subst h
    have := hd n.value
    cases hs with
    | number _ _ _ h1 h2 h3 => split <;> omega
  | .string n, out, h, lo, hi, hs => by
    simp only [cssValue, Res.ok.injEq] at h
    subst h
    have := hd n.value
    cases hs with
    | string _ _ _ h1 h2 => split <;> omega
  | .raw n, out, h, lo, hi, hs => nomatch hs
  | .attr .., out, h, lo, hi, hs => by simp [cssValue] at h
  | .list [] s e w, out, h, lo, hi, hs => by
    simp only [cssValue, Res.ok.injEq] at h
    subst h
    have := hs.le
    simp only [blen_nil]; omega
  | .list (hd' :: t) s e w, out, h, lo, hi, hs => by
    rw [cssValue, Res.bind_eq_ok] at h
    obtain ⟨a, h1, h2⟩ := h
    rw [Res.bind_eq_ok] at h2
    obtain ⟨b, h2, h3⟩ := h2
    simp only [Res.ok.injEq] at h3
    subst h3
    cases hs with
    | list _ _ _ _ _ m m' _ i1 i2 i3 i4 i5 =>
      cases i3 with
      | cons _ _ _ m2 _ j1 j2 =>
        have := value_size hd h1 j1
        have := values_size hd h2 j2
        have := apply_size a b
        omega
theorem values_size {dbg : Str → Str} (hd : ∀ s, blen (dbg s) ≤ 6 * blen s + 2) : ∀ {ns : List PNode} {vs : List Str}, cssValues dbg ns = .ok vs →
    ∀ {lo hi : Nat}, SitsAll lo ns hi → 11 * lo + threes vs ≤ 11 * hi
  | [], vs, h, lo, hi, hs => by
    simp only [cssValues, Res.ok.injEq] at h
    subst h
    have := hs.le
    simp only [threes]; omega
  | n :: ns, vs, h, lo, hi, hs => by
    rw [cssValues, Res.bind_eq_ok] at h
    obtain ⟨a, h1, h2⟩ := h
    rw [Res.bind_eq_ok] at h2
    obtain ⟨b, h2, h3⟩ := h2
    simp only [Res.ok.injEq] at h3
    subst h3
    cases hs with
    | cons _ _ _ m _ i1 i2 =>
      have := value_size hd h1 i1
      have := values_size hd h2 i2
      simp only [threes]; omega
end

theorem attr_inv {k : Str} {v : PNode} {s : Site} {w : Str} {lo hi : Nat} (h : Sits lo (.attr k v s w) hi) :
    ∃ m, lo + blen w + 1 + blen k ≤ m ∧ Sits m v hi := by
  cases h with
  | attr _ _ _ _ _ m _ h1 h2 h3 => exact ⟨m, by omega, h3⟩

theorem oneline_size {dbg : Str → Str} (hd : ∀ s, blen (dbg s) ≤ 6 * blen s + 2) : ∀ {ns : List PNode} {out : Str}, cssOneline dbg ns = .ok out →
    ∀ {lo hi : Nat}, SitsAll lo ns hi → 11 * lo + blen out ≤ 11 * hi
  | [], out, h, lo, hi, hs => by
    simp only [cssOneline, Res.ok.injEq] at h
    subst h
    have := hs.le
    simp only [blen_nil]; omega
  | n :: ns, out, h, lo, hi, hs => by
    cases hs with
    | cons _ _ _ m _ i1 i2 =>
      cases n with
      | attr k v s w =>
        rw [cssOneline, Res.bind_eq_ok] at h
        obtain ⟨a, h1, h2⟩ := h
        rw [Res.bind_eq_ok] at h2
        obtain ⟨b, h2, h3⟩ := h2
        simp only [Res.ok.injEq] at h3
        subst h3
        obtain ⟨m1, k1, k2⟩ := attr_inv i1
        have := value_size hd h1 k2
        have := oneline_size hd h2 i2
        simp only [blen_append, blen_cons, blen_nil, show ('(' : Char).utf8Size = 1 from rfl, show (')' : Char).utf8Size = 1 from rfl,
          show (':' : Char).utf8Size = 1 from rfl, show (' ' : Char).utf8Size = 1 from rfl]
        omega
      | _ =>
        rw [cssOneline, Res.bind_eq_ok] at h
        · obtain ⟨a, h1, h2⟩ := h
          rw [Res.bind_eq_ok] at h2
          obtain ⟨b, h2, h3⟩ := h2
          simp only [Res.ok.injEq] at h3
          subst h3
          have := value_size hd h1 i1
          have := oneline_size hd h2 i2
          simp only [blen_append, blen_cons, show (' ' : Char).utf8Size = 1 from rfl]
          omega
        · intros; simp_all

theorem props_size {dbg : Str → Str} (hd : ∀ s, blen (dbg s) ≤ 6 * blen s + 2) : ∀ {ns : List PNode} {out : Str}, cssProps dbg ns = .ok out →
    ∀ {lo hi : Nat}, SitsAll lo ns hi → 11 * lo + blen out ≤ 11 * hi
  | [], out, h, lo, hi, hs => by
    simp only [cssProps, Res.ok.injEq] at h
    subst h
    have := hs.le
    simp only [blen_nil]; omega
  | n :: ns, out, h, lo, hi, hs => by
    cases hs with
    | cons _ _ _ m _ i1 i2 =>
      cases n with
      | attr k v s w =>
        rw [cssProps, Res.bind_eq_ok] at h
        obtain ⟨a, h1, h2⟩ := h
        rw [Res.bind_eq_ok] at h2
        obtain ⟨b, h2, h3⟩ := h2
        simp only [Res.ok.injEq] at h3
        subst h3
        obtain ⟨m1, k1, k2⟩ := attr_inv i1
        have := value_size hd h1 k2
        have := props_size hd h2 i2
        simp only [blen_append, blen_cons, blen_nil, show (';' : Char).utf8Size = 1 from rfl, show ('\n' : Char).utf8Size = 1 from rfl,
          show (':' : Char).utf8Size = 1 from rfl, show (' ' : Char).utf8Size = 1 from rfl]
        omega
      | _ => simp [cssProps] at h

theorem sitsAll_split : ∀ {as bs : List PNode} {lo hi : Nat}, SitsAll lo (as ++ bs) hi → ∃ m, SitsAll lo as m ∧ SitsAll m bs hi
  | [], bs, lo, hi, h => ⟨lo, .nil _ _ (Nat.le_refl _), h⟩
  | a :: as, bs, lo, hi, h => by
    cases h with
    | cons _ _ _ m _ h1 h2 =>
      obtain ⟨m', i1, i2⟩ := sitsAll_split h2
      exact ⟨m', .cons _ _ _ m _ h1 i1, i2⟩

theorem selectors_size : ∀ {ns : List PNode} {lo hi : Nat}, SitsAll lo ns hi → 2 * lo + blen (cssSelectorText ns) ≤ 2 * hi
  | [], lo, hi, h => by have := h.le; simp only [cssSelectorText, blen_nil]; omega
  | n :: ns, lo, hi, h => by
    cases h with
    | cons _ _ _ m _ h1 h2 =>
      have := selectors_size h2
      have := h1.le
      simp only [cssSelectorText]
      cases ha : n.atomic? with
      | none =>
        simp only [blen_append, blen_cons, blen_nil, show (' ' : Char).utf8Size = 1 from rfl]
        omega
      | some a =>
        have := atomic_size ha h1
        simp only [blen_append, blen_cons, show (' ' : Char).utf8Size = 1 from rfl]
        omega

theorem properties_cases (ns : List PNode) : ns = cssSelectors ns ++ cssProperties ns ∨ ∃ n rest, cssProperties ns = n :: rest ∧ n.isAttr = false := by
  unfold cssProperties
  dsimp only
  split
  · left
    rw [Nat.add_sub_cancel]
    unfold cssSelectors
    have := List.takeWhile_append_dropWhile (p := PNode.isAtomic) (l := ns)
    conv => lhs; rw [← this]
    congr 1
    conv => rhs; arg 2; rw [← this]
    rw [List.drop_left]
  · rename_i hk
    have hle : (cssSelectors ns).length ≤ ns.length := (List.takeWhile_sublist _).length_le
    have he : cssSelectors ns = ns := (List.takeWhile_sublist _).eq_of_length (by unfold cssSelectors at hle hk; omega)
    by_cases hn : ns = []
    · subst hn; left; rfl
    · right
      have hpos : 0 < ns.length := List.length_pos_iff.2 hn
      rw [he]
      refine ⟨ns[ns.length - 1], [], ?_, ?_⟩
      · rw [List.drop_eq_getElem_cons (by omega), List.drop_eq_nil_of_le (by omega)]
      · have hall : ∀ x ∈ ns, PNode.isAtomic x = true := by
          rw [← he]
          intro x hx
          exact (List.all_eq_true.1 (List.all_takeWhile) x hx)
        have := hall ns[ns.length - 1] (List.getElem_mem _)
        generalize ns[ns.length - 1] = x at this ⊢
        cases x <;> first | rfl | simp [PNode.isAtomic, PNode.atomic?] at this

mutual
theorem rule_size {dbg : Str → Str} (hd : ∀ s, blen (dbg s) ≤ 6 * blen s + 2) : ∀ {ns : List PNode} {out : Str}, cssRule dbg ns = .ok out →
    ∀ {lo hi : Nat}, SitsAll lo ns hi → 11 * lo + blen out ≤ 11 * hi + 5
  | [], out, h, lo, hi, hs => by simp [cssRule] at h
  | hd' :: rest, out, h, lo, hi, hs => by
    rw [cssRule] at h
    cases ha : hd'.atomic? with
    | none => rw [ha] at h; cases h
    | some a =>
      rw [ha] at h
      dsimp only at h
      have hle := hs.le
      split at h
      · cases hs with
        | cons _ _ _ m _ i1 i2 =>
          have a1 := atomic_size ha i1
          split at h
          · rw [Res.bind_eq_ok] at h
            obtain ⟨r, h1, h2⟩ := h
            simp only [Res.ok.injEq] at h2
            subst h2
            have := oneline_size hd h1 i2
            simp only [blen_append, blen_cons, blen_nil, show (';' : Char).utf8Size = 1 from rfl, show ('\n' : Char).utf8Size = 1 from rfl,
              show (' ' : Char).utf8Size = 1 from rfl]
            omega
          · rw [Res.bind_eq_ok] at h
            obtain ⟨r, h1, h2⟩ := h
            simp only [Res.ok.injEq] at h2
            subst h2
            have := nested_size hd h1 i2
            simp only [blen_append, blen_cons, blen_nil, show ('}' : Char).utf8Size = 1 from rfl,
              show (' ' : Char).utf8Size = 1 from rfl]
            split at this <;> omega
      · rw [Res.bind_eq_ok] at h
        obtain ⟨ps, h1, h2⟩ := h
        simp only [Res.ok.injEq] at h2
        subst h2
        rcases properties_cases (hd' :: rest) with he | ⟨n, r, he, hn⟩
        · rw [he] at hs
          obtain ⟨m, i1, i2⟩ := sitsAll_split hs
          have := selectors_size i1
          have := props_size hd h1 i2
          have := i1.le
          simp only [blen_append, blen_cons, blen_nil, show ('}' : Char).utf8Size = 1 from rfl, show ('{' : Char).utf8Size = 1 from rfl,
              show ('\n' : Char).utf8Size = 1 from rfl]
          omega
        · rw [he] at h1
          cases n with
          | attr => simp [PNode.isAttr, PNode.attribute?] at hn
          | _ => simp [cssProps] at h1
theorem nested_size {dbg : Str → Str} (hd : ∀ s, blen (dbg s) ≤ 6 * blen s + 2) : ∀ {ns : List PNode} {rules : Bool} {out : Str},
    cssNested dbg rules ns = .ok out → ∀ {lo hi : Nat}, SitsAll lo ns hi → 11 * lo + blen out ≤ 11 * hi + (if rules then 0 else 2)
  | [], rules, out, h, lo, hi, hs => by
    simp only [cssNested, Res.ok.injEq] at h
    subst h
    have := hs.le
    simp only [blen_nil]; omega
  | n :: ns, rules, out, h, lo, hi, hs => by
    cases hs with
    | cons _ _ _ m _ i1 i2 =>
      cases n with
      | attr k v s w =>
        rw [cssNested] at h
        split at h
        · cases h
        · rw [Res.bind_eq_ok] at h
          obtain ⟨a, h1, h2⟩ := h
          rw [Res.bind_eq_ok] at h2
          obtain ⟨b, h2, h3⟩ := h2
          simp only [Res.ok.injEq] at h3
          subst h3
          obtain ⟨m1, k1, k2⟩ := attr_inv i1
          have := value_size hd h1 k2
          have := nested_size hd h2 i2
          simp only [blen_append, blen_cons, blen_nil, show ('(' : Char).utf8Size = 1 from rfl, show (')' : Char).utf8Size = 1 from rfl,
            show (':' : Char).utf8Size = 1 from rfl, show (' ' : Char).utf8Size = 1 from rfl]
          omega
      | list rule s e w =>
        rw [cssNested] at h
        rw [Res.bind_eq_ok] at h
        obtain ⟨a, h1, h2⟩ := h
        rw [Res.bind_eq_ok] at h2
        obtain ⟨b, h2, h3⟩ := h2
        simp only [Res.ok.injEq] at h3
        subst h3
        cases i1 with
        | list _ _ _ _ _ m1 m2 _ j1 j2 j3 j4 j5 =>
          have := rule_size hd h1 j3
          have := j3.le
          have := nested_size hd h2 i2
          simp only [if_true] at this
          have hb : blen (if rules = true then [] else str! "{\n") = (if rules = true then 0 else 2) := by cases rules <;> decide
          simp only [blen_append, hb]
          omega
      | _ =>
        rw [cssNested] at h
        · split at h
          · cases h
          · rw [Res.bind_eq_ok] at h
            obtain ⟨a, h1, h2⟩ := h
            rw [Res.bind_eq_ok] at h2
            obtain ⟨b, h2, h3⟩ := h2
            simp only [Res.ok.injEq] at h3
            subst h3
            have := value_size hd h1 i1
            have := nested_size hd h2 i2
            simp only [blen_append, blen_cons, show (' ' : Char).utf8Size = 1 from rfl]
            omega
        · intros; simp_all
        · intros; simp_all
end

theorem css_size {dbg : Str → Str} (hd : ∀ s, blen (dbg s) ≤ 6 * blen s + 2) : ∀ {ns : List PNode} {out : Str}, cssGenerate dbg ns = .ok out →
    ∀ {lo hi : Nat}, SitsAll lo ns hi → 11 * lo + blen out ≤ 11 * hi
  | [], out, h, lo, hi, hs => by
    simp only [cssGenerate, Res.ok.injEq] at h
    subst h
    have := hs.le
    simp only [blen_nil]; omega
  | n :: ns, out, h, lo, hi, hs => by
    cases hs with
    | cons _ _ _ m _ i1 i2 =>
      cases n with
      | list rule s e w =>
        rw [cssGenerate, Res.bind_eq_ok] at h
        obtain ⟨a, h1, h2⟩ := h
        rw [Res.bind_eq_ok] at h2
        obtain ⟨b, h2, h3⟩ := h2
        simp only [Res.ok.injEq] at h3
        subst h3
        cases i1 with
        | list _ _ _ _ _ m1 m2 _ j1 j2 j3 j4 j5 =>
          have := rule_size hd h1 j3
          have := j3.le
          have := css_size hd h2 i2
          simp only [blen_append]
          omega
      | _ => simp [cssGenerate] at h

/-! ## HTML -/

theorem utf8Size_low {c : Char} (h : c.toNat < 128) : c.utf8Size = 1 := by
  unfold Char.utf8Size
  dsimp only
  rw [if_pos]
  rw [UInt32.le_iff_toNat_le]
  exact Nat.le_of_lt_succ h

theorem lowerChar_size (c : Char) : (lowerChar c).utf8Size = c.utf8Size := by
  have hn := lowerChar_toNat c
  split at hn
  · rename_i h
    have h1 : c.utf8Size = 1 := utf8Size_low (by omega)
    have h2 : (lowerChar c).utf8Size = 1 := utf8Size_low (by omega)
    rw [h1, h2]
  · rw [Char.toNat_inj.1 hn]

theorem lower_blen : ∀ s : Str, blen (lower s) = blen s
  | [] => rfl
  | c :: s => by
    have := lower_blen s
    simp only [lower, List.map_cons, blen_cons, lowerChar_size] at this ⊢
    omega

theorem htmlDecl_size : ∀ {rest : List PNode} {out : Str}, htmlDecl rest = .ok out → ∀ {lo hi : Nat}, SitsAll lo rest hi →
    2 * lo + blen out ≤ 2 * hi
  | [], out, h, lo, hi, hs => by
    simp only [htmlDecl, Res.ok.injEq] at h
    subst h
    have := hs.le
    simp only [blen_nil]; omega
  | n :: rest, out, h, lo, hi, hs => by
    cases hs with
    | cons _ _ _ m _ i1 i2 =>
      rw [htmlDecl] at h
      cases ha : n.symbolic? with
      | none => rw [ha] at h; cases h
      | some a =>
        rw [ha] at h
        dsimp only at h
        rw [Res.bind_eq_ok] at h
        obtain ⟨b, h2, h3⟩ := h
        simp only [Res.ok.injEq] at h3
        subst h3
        have := htmlDecl_size h2 i2
        have := i1.le
        have : lo + blen a.value ≤ m := by
          cases i1 with
          | symbol _ _ _ k1 k2 k3 => simp only [PNode.symbolic?, Option.some.injEq] at ha; subst ha; omega
          | number _ _ _ k1 k2 k3 => simp only [PNode.symbolic?, Option.some.injEq] at ha; subst ha; omega
          | string _ _ _ k1 k2 => simp [PNode.symbolic?] at ha
          | list => simp [PNode.symbolic?] at ha
          | attr => simp [PNode.symbolic?] at ha
        simp only [blen_append, blen_cons, show (' ' : Char).utf8Size = 1 from rfl]
        omega

theorem htmlAttrs_size : ∀ {rest : List PNode} {out : Str}, htmlAttrs rest = .ok out → ∀ {lo hi : Nat}, SitsAll lo rest hi →
    ∃ mid, lo ≤ mid ∧ 3 * lo + blen out ≤ 3 * mid ∧ SitsAll mid (kids rest) hi
  | [], out, h, lo, hi, hs => by
    simp only [htmlAttrs, Res.ok.injEq] at h
    subst h
    exact ⟨lo, Nat.le_refl _, by simp, hs⟩
  | n :: rest, out, h, lo, hi, hs => by
    cases n with
    | attr k v s w =>
      rw [htmlAttrs] at h
      cases ha : v.atomic? with
      | none => rw [ha] at h; cases h
      | some a =>
        rw [ha] at h
        dsimp only at h
        rw [Res.bind_eq_ok] at h
        obtain ⟨b, h2, h3⟩ := h
        simp only [Res.ok.injEq] at h3
        subst h3
        cases hs with
        | cons _ _ _ m _ i1 i2 =>
          obtain ⟨mid, j1, j2, j3⟩ := htmlAttrs_size h2 i2
          have := i1.le
          refine ⟨mid, by omega, ?_, j3⟩
          obtain ⟨m1, k1, k2⟩ := attr_inv i1
          have := atomic_size ha k2
          have := k2.le
          have hb : blen (if w.isEmpty = true then str! " " else w) ≤ blen w + 1 := by
            split
            · exact Nat.le_trans (show _ ≤ 1 by decide) (by omega)
            · omega
          simp only [blen_append, blen_cons, blen_nil, show ('"' : Char).utf8Size = 1 from rfl, show ('=' : Char).utf8Size = 1 from rfl]
          omega
    | _ =>
      simp only [htmlAttrs, Res.ok.injEq] at h
      subst h
      exact ⟨lo, Nat.le_refl _, by simp, hs⟩

theorem rawText_size {ks : List PNode} {e : Token} {out : Str} (h : rawText ks.head? e = .ok out) {lo m' : Nat} (hs : SitsAll lo ks m')
    (he : m' + blen e.lw ≤ e.site.off) : lo + blen out ≤ e.site.off := by
  cases hs with
  | nil _ _ hle =>
    simp only [List.head?_nil, rawText, Res.ok.injEq] at h
    subst h
    omega
  | cons n ns _ m _ i1 i2 =>
    simp only [List.head?_cons, rawText] at h
    have hlo : lo + blen n.lw ≤ n.site.off := by
      cases i1 <;> simp only [PNode.lw, PNode.site] <;> assumption
    split at h
    · split at h
      · generalize hx : sliceBytes e.site.code _ e.site.off = r at h
        cases r with
        | none => cases h
        | some t =>
          simp only [Res.ok.injEq] at h
          subst h
          obtain ⟨before, after, _, h2, h3⟩ := sliceBytes_some hx
          omega
      · cases h
    · cases h

theorem special_size {dbg : Str → Str} (hd : ∀ s, blen (dbg s) ≤ 6 * blen s + 2) {tag : Str} {ks : List PNode} {e : Token} {out : Str}
    (h : htmlSpecialContent dbg tag ks e = .ok out) {lo m' : Nat} (hs : SitsAll lo ks m') (he : m' + blen e.lw ≤ e.site.off) :
    11 * lo + blen out + blen e.lw ≤ 11 * e.site.off + 1 := by
  have hs' := hs.adjust
  have hle := hs.le
  unfold htmlSpecialContent at h
  split at h
  · have := rawText_size h hs he
    omega
  · split at h
    · simp only [Res.ok.injEq] at h
      subst h
      have := texts_size hs'
      omega
    · split at h
      · generalize adjustFirst ks = as at h hs'
        have hc : ∀ out, (cssGenerate dbg as >>= fun c => Res.ok ('\n' :: c)) = .ok out → 11 * lo + blen out + blen e.lw ≤ 11 * e.site.off + 1 := by
          intro out h
          rw [Res.bind_eq_ok] at h
          obtain ⟨c, h1, h2⟩ := h
          simp only [Res.ok.injEq] at h2
          subst h2
          have := css_size hd h1 hs'
          simp only [blen_cons, show ('\n' : Char).utf8Size = 1 from rfl]
          omega
        match as, hs', hc, h with
        | [], _, hc, h => exact hc _ h
        | [.string n], hs', _, h =>
          simp only [Res.ok.injEq] at h
          subst h
          cases hs' with
          | cons _ _ _ m _ i1 i2 =>
            have := atomic_size rfl i1
            have := i2.le
            omega
        | .string _ :: _ :: _, _, _, h => cases h
        | .symbol _ :: _, _, hc, h => exact hc _ h
        | .number _ :: _, _, hc, h => exact hc _ h
        | .raw _ :: _, _, hc, h => exact hc _ h
        | .list .. :: _, _, hc, h => exact hc _ h
        | .attr .. :: _, _, hc, h => exact hc _ h
      · split at h
        · simp only [Res.ok.injEq] at h
          subst h
          have := sexps_size hd hs'
          omega
        · have := xmlRest_size h hs'
          omega

theorem htmlLead_kids (dbg : Str → Str) : ∀ rest : List PNode, htmlKids dbg .lead rest = htmlKids dbg .lead (kids rest)
  | [] => rfl
  | n :: ns => by
    simp only [kids, List.dropWhile_cons]
    split
    · rename_i h
      rw [htmlKids, if_pos h]
      exact htmlLead_kids dbg ns
    · rfl

mutual
theorem html_size {dbg : Str → Str} (hd : ∀ s, blen (dbg s) ≤ 6 * blen s + 2) : ∀ {n : PNode} {lw out : Str}, htmlNode dbg lw n = .ok out →
    blen lw ≤ blen n.lw → ∀ {lo hi : Nat}, Sits lo n hi → 11 * lo + blen out ≤ 11 * hi
  | .symbol n, lw, out, h, hw, lo, hi, hs => by
    simp only [htmlNode, Res.ok.injEq] at h
    subst h
    have := atomic_size rfl hs
    have := escape_size n.value
    simp only [PNode.lw] at hw
    simp only [blen_append]; omega
  | .number n, lw, out, h, hw, lo, hi, hs => by
    simp only [htmlNode, Res.ok.injEq] at h
    subst h
    have := atomic_size rfl hs
    have := escape_size n.value
    simp only [PNode.lw] at hw
    simp only [blen_append]; omega
  | .string n, lw, out, h, hw, lo, hi, hs => by
    simp only [htmlNode, Res.ok.injEq] at h
    subst h
    have := atomic_size rfl hs
    have := escape_size n.value
    simp only [PNode.lw] at hw
    simp only [blen_append]; omega
  | .raw n, lw, out, h, _, _, _, hs => nomatch hs
  | .attr .., lw, out, h, _, _, _, _ => by simp [htmlNode] at h
  | .list [] .., lw, out, h, _, _, _, _ => by simp [htmlNode] at h
  | .list (.symbol hh :: rest) s e w, lw, out, h, hw, lo, hi, hs => by
    cases hs with
    | list _ _ _ _ _ m m' _ h1 h2 h3 h4 h5 =>
      cases h3 with
      | cons _ _ _ m2 _ i1 i2 =>
        have a1 := atomic_size rfl i1
        have a2 := i1.le
        have hlb := lower_blen hh.value
        simp only [PNode.lw] at hw
        rw [htmlNode] at h
        dsimp only at h
        cases hv : lower hh.value with
        | nil => rw [hv] at h; cases h
        | cons c cs =>
          rw [hv] at h
          rw [hv] at hlb
          dsimp only at h
          split at h
          · rw [Res.bind_eq_ok] at h
            obtain ⟨d, k1, k2⟩ := h
            simp only [Res.ok.injEq] at k2
            subst k2
            have := htmlDecl_size k1 i2
            have := i2.le
            simp only [blen_append, blen_cons, blen_nil, show ('<' : Char).utf8Size = 1 from rfl, show ('>' : Char).utf8Size = 1 from rfl]
            omega
          · rw [Res.bind_eq_ok] at h
            obtain ⟨as, k1, k2⟩ := h
            obtain ⟨mid, j1, j2, j3⟩ := htmlAttrs_size k1 i2
            have := j3.le
            split at k2
            · generalize kids rest = ks at k2
              cases ks with
              | cons => cases k2
              | nil =>
                simp only [Res.ok.injEq] at k2
                subst k2
                simp only [blen_append, blen_cons, blen_nil, show ('<' : Char).utf8Size = 1 from rfl, show ('>' : Char).utf8Size = 1 from rfl]
                omega
            · have hc := closeWs_blen (c :: cs) lw e (firstOnNextLine (kids rest))
              obtain ⟨cs', hk, k3⟩ : ∃ cs', 11 * mid + blen cs' + blen e.lw ≤ 11 * e.site.off + 1 ∧
                  lw ++ '<' :: hh.value ++ as ++ ['>'] ++ cs' ++ closeWs (c :: cs) lw e (firstOnNextLine (kids rest)) ++ ['<', '/'] ++ c :: cs ++ ['>'] = out := by
                split at k2
                · rw [Res.bind_eq_ok] at k2
                  obtain ⟨cs', k2, k3⟩ := k2
                  simp only [Res.ok.injEq] at k3
                  exact ⟨cs', special_size hd k2 j3 h4, k3⟩
                · rw [Res.bind_eq_ok] at k2
                  obtain ⟨cs', k2, k3⟩ := k2
                  simp only [Res.ok.injEq] at k3
                  rw [htmlLead_kids] at k2
                  have := htmlKids_kids_size hd (rest := rest) k2 j3
                  exact ⟨cs', by omega, k3⟩
              subst k3
              simp only [blen_append, blen_cons, blen_nil, show ('<' : Char).utf8Size = 1 from rfl, show ('>' : Char).utf8Size = 1 from rfl,
                show ('/' : Char).utf8Size = 1 from rfl] at hlb ⊢
              omega
  | .list (.number _ :: _) .., lw, out, h, _, _, _, _ => by simp [htmlNode] at h
  | .list (.string _ :: _) .., lw, out, h, _, _, _, _ => by simp [htmlNode] at h
  | .list (.raw _ :: _) .., lw, out, h, _, _, _, _ => by simp [htmlNode] at h
  | .list (.list .. :: _) .., lw, out, h, _, _, _, _ => by simp [htmlNode] at h
  | .list (.attr .. :: _) .., lw, out, h, _, _, _, _ => by simp [htmlNode] at h
theorem htmlKids_kids_size {dbg : Str → Str} (hd : ∀ s, blen (dbg s) ≤ 6 * blen s + 2) : ∀ {rest : List PNode} {out : Str},
    htmlKids dbg .lead (kids rest) = .ok out → ∀ {lo hi : Nat}, SitsAll lo (kids rest) hi → 11 * lo + blen out ≤ 11 * hi
  | [], out, h, lo, hi, hs => by
    simp only [kids, List.dropWhile_nil, htmlKids, Res.ok.injEq] at h
    subst h
    have := hs.le
    simp only [blen_nil]; omega
  | n :: rest, out, h, lo, hi, hs => by
    simp only [kids, List.dropWhile_cons] at h hs
    split at h
    · rename_i ha
      rw [if_pos ha] at hs
      exact htmlKids_kids_size hd (rest := rest) h hs
    · rename_i ha
      rw [if_neg ha] at hs
      rw [htmlKids, if_neg ha, Res.bind_eq_ok] at h
      obtain ⟨a, h1, h2⟩ := h
      rw [Res.bind_eq_ok] at h2
      obtain ⟨b, h2, h3⟩ := h2
      simp only [Res.ok.injEq] at h3
      subst h3
      cases hs with
      | cons _ _ _ m _ i1 i2 =>
        have := html_size hd h1 (firstLw_blen _) i1
        have := htmlRest_size hd h2 i2
        simp only [blen_append]; omega
theorem htmlRest_size {dbg : Str → Str} (hd : ∀ s, blen (dbg s) ≤ 6 * blen s + 2) : ∀ {ns : List PNode} {out : Str},
    htmlKids dbg .rest ns = .ok out → ∀ {lo hi : Nat}, SitsAll lo ns hi → 11 * lo + blen out ≤ 11 * hi
  | [], out, h, lo, hi, hs => by
    simp only [htmlKids, Res.ok.injEq] at h
    subst h
    have := hs.le
    simp only [blen_nil]; omega
  | n :: ns, out, h, lo, hi, hs => by
    rw [htmlKids, Res.bind_eq_ok] at h
    obtain ⟨a, h1, h2⟩ := h
    rw [Res.bind_eq_ok] at h2
    obtain ⟨b, h2, h3⟩ := h2
    simp only [Res.ok.injEq] at h3
    subst h3
    cases hs with
    | cons _ _ _ m _ i1 i2 =>
      have := html_size hd h1 (Nat.le_refl _) i1
      have := htmlRest_size hd h2 i2
      simp only [blen_append]; omega
end

end Seam
