import Verif.Lemmas.Never
import Verif.Lemmas.Pre
import Verif.Lemmas.Check
import Verif.Model.Bytes
import Verif.Props.Tree

/-!
# Properties of HTML and XML output (C17–C28)

`htmlGenerate dbg tree`, `xmlGenerate tree` are the `generate`/`display` methods of
the formatters, `htmlDocument`, `xmlDocument` their `document` methods; `dbg` is
Rust's `{:?}` on strings (used for `script` and `style` contents only).
-/

namespace Seam
open Spec

/-- Nodes for examples. -/
def exSym (s : Str) (w : Str := []) : PNode := .symbol ⟨s, default, w⟩
def exStr (s : Str) (w : Str := []) : PNode := .string ⟨s, default, w⟩
def exList (ns : List PNode) (w : Str := []) : PNode := .list ns default default w
def exAttr (k : Str) (n : PNode) (w : Str := [' ']) : PNode := .attr k n default w

def exNum (s : Str) (w : Str := []) : PNode := .number ⟨s, default, w⟩

instance : Inhabited Token := ⟨⟨.lparen, [], [], default⟩⟩

/-! ## C17 -/

/-- C17: the result of `escape_xml` is escaped text that stands for the input. -/
theorem C17_escapes (s : Str) : EscText (escapeXml s) s := escapeXml_escText s

/-- C17: escaped text has no markup characters... -/
theorem C17_no_markup (s : Str) : ∀ c ∈ escapeXml s, c ≠ '<' ∧ c ≠ '>' ∧ c ≠ '"' ∧ c ≠ '\'' :=
  escText_chars (escapeXml_escText s)

/-- C17: ...it stands for one text only... -/
theorem C17_decodes_uniquely (t v v' : Str) (h : EscText t v) (h' : EscText t v') : v = v' := escText_unique h h'

/-- C17: ...so different inputs have different escapes. -/
theorem C17_injective (s s' : Str) (h : escapeXml s = escapeXml s') : s = s' := by
  have h1 := escapeXml_escText s
  have h2 := escapeXml_escText s'
  rw [h] at h1
  exact escText_unique h1 h2

/-- C17: escaping goes through concatenation. -/
theorem C17_append (a b : Str) : escapeXml (a ++ b) = escapeXml a ++ escapeXml b := escapeXml_append a b

/-- Text without special characters is left alone. -/
theorem C17_plain (s : Str) (h : ∀ c ∈ s, ∀ e ∈ entities, c ≠ e.1) : escapeXml s = s := by
  induction s with
  | nil => rfl
  | cons c s ih =>
    rw [escapeXml, ih (fun d hd => h d (by simp [hd]))]
    rcases escapeXmlChar_cases c with ⟨e, h1, _⟩ | ⟨_, h2⟩
    · exact absurd rfl (h c (by simp) _ h1)
    · rw [h2]; rfl

example : escapeXml (str! "a<b & \"c\"") = str! "a&lt;b &amp; &quot;c&quot;" := by decide

/-! ## C18 -/

theorem escapeXmlBytes_append (a b : List UInt8) : escapeXmlBytes (a ++ b) = escapeXmlBytes a ++ escapeXmlBytes b := by
  induction a with
  | nil => rfl
  | cons c a ih => simp [escapeXmlBytes, ih]

theorem escapeXmlByte_high {b : UInt8} (h : 128 ≤ b.toNat) : escapeXmlByte b = [b] := by
  have hne : ∀ k : UInt8, k.toNat < 128 → b ≠ k := by
    rintro k hk rfl
    omega
  unfold escapeXmlByte
  simp [hne 60 (by decide), hne 62 (by decide), hne 34 (by decide), hne 39 (by decide), hne 38 (by decide)]

theorem escapeXmlBytes_high : ∀ {bs : List UInt8}, (∀ b ∈ bs, 128 ≤ b.toNat) → escapeXmlBytes bs = bs
  | [], _ => rfl
  | b :: bs, h => by
    rw [escapeXmlBytes, escapeXmlByte_high (h b (by simp)), escapeXmlBytes_high (fun c hc => h c (by simp [hc]))]
    rfl

theorem escapeXmlByte_ascii {c : Char} (h : c.toNat < 128) :
    escapeXmlByte (UInt8.ofNat c.toNat) = bytesOf (escapeXmlChar c) := by
  have heq : ∀ (k : Char), k.toNat < 128 → ((UInt8.ofNat c.toNat == UInt8.ofNat k.toNat) = (c == k)) := by
    intro k hk
    by_cases hck : c = k
    · subst hck; simp
    · have : UInt8.ofNat c.toNat ≠ UInt8.ofNat k.toNat := by
        intro hx
        have := congrArg UInt8.toNat hx
        rw [UInt8.toNat_ofNat', UInt8.toNat_ofNat', Nat.mod_eq_of_lt (by omega), Nat.mod_eq_of_lt (by omega)] at this
        exact hck (char_of_toNat this)
      rw [beq_eq_false_iff_ne.2 this, beq_eq_false_iff_ne.2 hck]
  have h1 := heq '<' (by decide)
  have h2 := heq '>' (by decide)
  have h3 := heq '"' (by decide)
  have h4 := heq '\'' (by decide)
  have h5 := heq '&' (by decide)
  unfold escapeXmlByte escapeXmlChar
  have e1 : (60 : UInt8) = UInt8.ofNat ('<' : Char).toNat := by decide
  have e2 : (62 : UInt8) = UInt8.ofNat ('>' : Char).toNat := by decide
  have e3 : (34 : UInt8) = UInt8.ofNat ('"' : Char).toNat := by decide
  have e4 : (39 : UInt8) = UInt8.ofNat ('\'' : Char).toNat := by decide
  have e5 : (38 : UInt8) = UInt8.ofNat ('&' : Char).toNat := by decide
  rw [e1, e2, e3, e4, h1, h2, h3, h4]
  split
  · decide
  split
  · decide
  split
  · decide
  split
  · decide
  rw [e5, h5]
  split
  · decide
  rcases encode_cases c with ⟨_, hx⟩ | ⟨hx, _⟩
  · simp [hx]
  · omega

/-- C18: the byte-wise escape of the bytes of a text are the bytes of the escaped
text; in particular they are valid UTF-8. -/
theorem C18_bytes (s : Str) : escapeXmlBytes (bytesOf s) = bytesOf (escapeXml s) := by
  induction s with
  | nil => rfl
  | cons c s ih =>
    rw [bytesOf_cons, escapeXmlBytes_append, ih, escapeXml, bytesOf_append]
    congr 1
    rcases encode_cases c with ⟨h1, h2⟩ | ⟨h1, b, bs, h2, h3, _, h4⟩
    · rw [h2]
      simp only [escapeXmlBytes, List.append_nil]
      exact escapeXmlByte_ascii h1
    · have hc : escapeXmlChar c = [c] := by
        rcases escapeXmlChar_cases c with ⟨e, hx, _⟩ | ⟨_, hx⟩
        · exfalso
          simp [entities] at hx
          rcases hx with ⟨rfl, _⟩ | ⟨rfl, _⟩ | ⟨rfl, _⟩ | ⟨rfl, _⟩ | ⟨rfl, _⟩ <;> revert h1 <;> decide
        · exact hx
      rw [hc, escapeXmlBytes_high]
      · simp
      · intro x hx
        rw [h2] at hx
        rcases List.mem_cons.1 hx with rfl | hx
        · omega
        · exact (h4 x hx).1

/-- `é<` in UTF-8. -/
example : escapeXmlBytes [195, 169, 60] = bytesOf (str! "é&lt;") := C18_bytes (str! "é<")

/-! ## C19 -/

theorem htmlKids_append (dbg : Str → Str) : ∀ (as bs : List PNode),
    htmlKids dbg .rest (as ++ bs) = (htmlKids dbg .rest as >>= fun a => htmlKids dbg .rest bs >>= fun b => .ok (a ++ b))
  | [], bs => by
    cases h : htmlKids dbg .rest bs <;> simp [htmlKids, h]
  | n :: as, bs => by
    rw [List.cons_append, htmlKids, htmlKids, htmlKids_append dbg as bs]
    cases htmlNode dbg n.lw n <;> simp
    cases htmlKids dbg .rest as <;> simp
    cases htmlKids dbg .rest bs <;> simp

/-- C19: between what comes before and after, a text contributes its leading
whitespace and escaped text that stands for its value. -/
theorem C19_text_is_escaped (dbg : Str → Str) (pre post : List PNode) (n : PNode) (a : Node) (out : Str)
    (hn : n = .symbol a ∨ n = .number a ∨ n = .string a) (h : htmlGenerate dbg (pre ++ n :: post) = .ok out) :
    ∃ p q t, htmlGenerate dbg pre = .ok p ∧ htmlGenerate dbg post = .ok q ∧
      out = p ++ a.lw ++ t ++ q ∧ EscText t a.value := by
  unfold htmlGenerate at h ⊢
  rw [htmlKids_append] at h
  simp only [Res.bind_eq_ok, Res.ok.injEq] at h
  obtain ⟨p, h1, q, h2, rfl⟩ := h
  simp only [htmlKids, Res.bind_eq_ok, Res.ok.injEq] at h2
  obtain ⟨t, h3, q, h4, rfl⟩ := h2
  refine ⟨p, q, escapeXml a.value, h1, h4, ?_, escapeXml_escText _⟩
  rcases hn with rfl | rfl | rfl <;> simp [htmlNode, PNode.lw] at h3 <;> subst h3 <;> simp

/-- C19: in a tree of ordinary elements, what is scanned from the output is exactly
the markup of the tree: all text is escaped text of the text nodes in order, and
all tags are those of the elements. -/
theorem C19_output_shows_tree (dbg : Str → Str) (tree : List PNode) (out : Str)
    (ho : Ordinaries htmlDialect (fun s => htmlSpecial (lower s)) tree) (h : htmlGenerate dbg tree = .ok out) :
    ShowsAll htmlDialect tree (scan .text out) := by
  obtain ⟨is, h1, h2⟩ := htmlKids_shows (dbg := dbg) ho h
  have := h1 []
  simp only [List.append_nil, scan] at this
  rw [this]
  exact h2

/-- `(p :class "a" "<b>" (br))`. -/
def pageTree : List PNode :=
  [exList [exSym ['p'], exAttr (str! "class") (exStr ['a'] [' ']), exStr (str! "<b>") [' '], exList [exSym (str! "br")] [' ']]]

theorem blanks_dec {w : Str} (h : w.all blank = true) : Blanks w := List.all_eq_true.1 h
theorem nameOk_dec {s : Str} (h : (!s.isEmpty && s.all nameChar) = true) : NameOk s := by
  simp at h
  exact ⟨h.1, h.2⟩

theorem pageTree_ordinary : Ordinaries htmlDialect (fun s => htmlSpecial (lower s)) pageTree := by
  refine .cons _ _ (.elem _ _ _ _ _ (blanks_dec rfl) (blanks_dec rfl) (nameOk_dec (by decide)) (by decide) ?_) .nil
  refine .cons _ _ (.attr _ _ _ _ (blanks_dec (by decide)) (nameOk_dec (by decide)) ?_) ?_
  · intro a ha
    rcases ha with h | h | h | h <;> cases h
    decide
  refine .cons _ _ (.string _ (blanks_dec (by decide))) (.cons _ _ ?_ .nil)
  exact .elem _ _ _ _ _ (blanks_dec (by decide)) (blanks_dec rfl) (nameOk_dec (by decide)) (by decide) .nil

example : htmlGenerate id pageTree = .ok (str! "<p class=\"a\">&lt;b&gt; <br></p>") := by decide +kernel

/-- `C19_text_is_escaped` for the text of `(i) "<b>" (br)`, `C19_output_shows_tree` for `pageTree`. -/
example : ∃ p q t, htmlGenerate id [exList [exSym ['i']]] = .ok p ∧ htmlGenerate id [exList [exSym (str! "br")]] = .ok q ∧
    str! "<i></i> &lt;b&gt;<br>" = p ++ [' '] ++ t ++ q ∧ EscText t (str! "<b>") :=
  C19_text_is_escaped id _ _ _ _ _ (.inr (.inr rfl))
    (by decide +kernel : htmlGenerate id ([exList [exSym ['i']]] ++ exStr (str! "<b>") [' '] :: [exList [exSym (str! "br")]]) = _)
example : ShowsAll htmlDialect pageTree (scan .text (str! "<p class=\"a\">&lt;b&gt; <br></p>")) :=
  C19_output_shows_tree id _ _ pageTree_ordinary (by decide +kernel)

/-! ## C20 -/

/-- C20: the tags in the output for a tree of ordinary elements are properly nested,
and no tag is left unfinished. -/
theorem C20_well_nested (dbg : Str → Str) (tree : List PNode) (out : Str)
    (ho : Ordinaries htmlDialect (fun s => htmlSpecial (lower s)) tree) (h : htmlGenerate dbg tree = .ok out) :
    Nested htmlDialect (tagsOf (scan .text out)) ∧ Item.broken ∉ scan .text out := by
  have hs := C19_output_shows_tree dbg tree out ho h
  exact ⟨nested_showsAll hs, showsAll_whole hs⟩

example : tagsOf (scan .text (str! "<p class=\"a\">&lt;b&gt; <br></p>")) =
    [str! "p class=\"a\"", str! "br", str! "/p"] := by decide

example : Nested htmlDialect (tagsOf (scan .text (str! "<p class=\"a\">&lt;b&gt; <br></p>"))) ∧
    Item.broken ∉ scan .text (str! "<p class=\"a\">&lt;b&gt; <br></p>") :=
  C20_well_nested id _ _ pageTree_ordinary (by decide +kernel)

/-! ## C21 -/

/-- The opening tag of an element. -/
theorem htmlAttrs_text : ∀ {rest : List PNode} {t : Str}, htmlAttrs rest = .ok t →
    ∃ ans as ks, rest = ans ++ ks ∧ ks = kids rest ∧ GivesAttrs ans as ∧ (∀ n ∈ ks.head?, n.isAttr = false) ∧
      t = (List.zip (ans.map PNode.lw) as).flatMap fun p => attrText p.1 p.2.1 p.2.2
  | [], t, h => by
    simp [htmlAttrs] at h
    exact ⟨[], [], [], rfl, rfl, .nil, by simp, by simp [h]⟩
  | n :: rest, t, h => by
    cases n with
    | attr k v s w =>
      simp only [htmlAttrs] at h
      cases hv : v.atomic? with
      | none => simp [hv] at h
      | some a =>
        simp only [hv, Res.bind_eq_ok, Res.ok.injEq] at h
        obtain ⟨t', h1, rfl⟩ := h
        obtain ⟨ans, as, ks, rfl, h3, h4, h5, rfl⟩ := htmlAttrs_text h1
        refine ⟨.attr k v s w :: ans, (k, a.value) :: as, ks, rfl, ?_, .cons _ _ _ _ _ _ _ (isAtom_iff.1 hv) h4, h5, ?_⟩
        · have : ∀ l, kids (.attr k v s w :: l) = kids l := fun l => rfl
          rw [this]; exact h3
        · simp [attrText, PNode.lw]
    | _ =>
      simp [htmlAttrs] at h
      subst h
      exact ⟨[], [], _, rfl, by simp [kids, PNode.isAttr, PNode.attribute?], .nil, by simp [PNode.isAttr, PNode.attribute?], rfl⟩

/-- C21: for a void element (named, in any case, as one of the fourteen) the output is
the opening tag with its attributes, and there was no content. -/
theorem C21_void_is_opening_tag (dbg : Str → Str) (h : Node) (rest : List PNode) (s : Site) (e : Token) (w out : Str)
    (hv : h.value.map lowerChar ∈ voidNames) (ho : htmlGenerate dbg [.list (.symbol h :: rest) s e w] = .ok out) :
    ∃ as, GivesAttrs rest as ∧
      out = w ++ '<' :: h.value ++ ((List.zip (rest.map PNode.lw) as).flatMap fun p => attrText p.1 p.2.1 p.2.2) ++ ['>'] := by
  unfold htmlGenerate at ho
  simp only [htmlKids, Res.bind_eq_ok, Res.ok.injEq, exists_eq_left', List.append_nil] at ho
  obtain ⟨out', ho, rfl⟩ := ho
  rw [htmlNode] at ho
  split at ho
  · cases ho
  · rename_i front t hl
    have hfr : (front == '!') = false := by
      rw [beq_eq_false_iff_ne]
      rintro rfl
      have : lower h.value = h.value.map lowerChar := rfl
      rw [← this, hl] at hv
      revert hv
      simp [voidNames]
    rw [hfr] at ho
    simp only [Bool.false_eq_true, if_false, Res.bind_eq_ok] at ho
    obtain ⟨t', h1, ho⟩ := ho
    obtain ⟨ans, as, ks, h2, h3, h4, _, rfl⟩ := htmlAttrs_text h1
    have hvoid : binarySearch voidElements (lower h.value) = true := by
      rw [void_iff]; exact decide_eq_true hv
    rw [hvoid] at ho
    simp only [if_true] at ho
    split at ho
    · cases ho
    · rename_i hk
      cases ho
      rw [hk] at h3
      subst h3
      rw [List.append_nil] at h2
      subst h2
      exact ⟨as, h4, by simp [PNode.lw]⟩

/-- C21: content in a void element is an error at the first content node. -/
theorem C21_void_content_error (dbg : Str → Str) (h : Node) (ans : List PNode) (as : List (Str × Str)) (k : PNode)
    (ks : List PNode) (s : Site) (e : Token) (w : Str) (hv : h.value.map lowerChar ∈ voidNames)
    (ha : GivesAttrs ans as) (hk : k.isAttr = false) :
    ∃ msg, htmlGenerate dbg [.list (.symbol h :: (ans ++ k :: ks)) s e w] =
      .err { stage := .gen, msg := msg, site := k.site } := by
  have hattrs : ∀ {ans as}, GivesAttrs ans as → ∃ t, htmlAttrs (ans ++ k :: ks) = .ok t ∧ kids (ans ++ k :: ks) = k :: ks := by
    intro ans as ha
    induction ha with
    | nil =>
      refine ⟨[], ?_, by simp [kids, hk]⟩
      cases k with
      | attr => simp [PNode.isAttr, PNode.attribute?] at hk
      | _ => rfl
    | cons k' v a s' w' ns as' hat _ ih =>
      obtain ⟨t, h1, h2⟩ := ih
      have h3 : kids (.attr k' v s' w' :: ns ++ k :: ks) = k :: ks := by
        have : ∀ l, kids (.attr k' v s' w' :: l) = kids l := fun l => rfl
        rw [List.cons_append, this, h2]
      refine ⟨attrText w' k' a.value ++ t, ?_, h3⟩
      rw [List.cons_append, htmlAttrs, isAtom_iff.2 hat]
      simp [h1, attrText]
  obtain ⟨t, h1, h2⟩ := hattrs ha
  refine ⟨"A void element cannot have children.", ?_⟩
  unfold htmlGenerate
  rw [htmlKids, htmlNode]
  have hvoid : binarySearch voidElements (lower h.value) = true := by
    rw [void_iff]; exact decide_eq_true hv
  have hl' : lower h.value ∈ voidNames := hv
  split
  · rename_i hl
    rw [hl] at hl'
    revert hl'
    simp [voidNames]
  · rename_i front t' hl
    have hfr : (front == '!') = false := by
      rw [beq_eq_false_iff_ne]
      rintro rfl
      rw [hl] at hl'
      revert hl'
      simp [voidNames]
    rw [hfr, h1, h2, hvoid]
    simp [genErr]

/-- C21: an element that is not void (and not a declaration) ends with its closing tag. -/
theorem C21_other_is_closed (dbg : Str → Str) (h : Node) (rest : List PNode) (s : Site) (e : Token) (w out : Str)
    (hv : h.value.map lowerChar ∉ voidNames) (hd : h.value.head? ≠ some '!')
    (ho : htmlGenerate dbg [.list (.symbol h :: rest) s e w] = .ok out) :
    ∃ p, out = p ++ str! "</" ++ h.value.map lowerChar ++ ['>'] := by
  unfold htmlGenerate at ho
  simp only [htmlKids, Res.bind_eq_ok, Res.ok.injEq, exists_eq_left', List.append_nil] at ho
  obtain ⟨out', ho, rfl⟩ := ho
  rw [htmlNode] at ho
  split at ho
  · cases ho
  · rename_i front t hl
    have hfr : (front == '!') = false := by
      rw [beq_eq_false_iff_ne]
      rintro rfl
      cases hx : h.value with
      | nil => rw [hx] at hl; cases hl
      | cons c r =>
        rw [hx] at hl
        have h1 : lowerChar c = '!' := by simpa [lower] using congrArg List.head? hl
        rw [lowerChar_eq_iff (by decide)] at h1
        rw [hx, h1] at hd
        exact hd rfl
    rw [hfr] at ho
    simp only [Bool.false_eq_true, if_false, Res.bind_eq_ok] at ho
    obtain ⟨t', h1, ho⟩ := ho
    have hvoid : binarySearch voidElements (lower h.value) = false := by
      rw [void_iff]; exact decide_eq_false hv
    rw [hvoid] at ho
    simp only [Bool.false_eq_true, if_false] at ho
    split at ho
    · simp only [Res.bind_eq_ok, Res.ok.injEq] at ho
      obtain ⟨cs, _, rfl⟩ := ho
      exact ⟨_, rfl⟩
    · simp only [Res.bind_eq_ok, Res.ok.injEq] at ho
      obtain ⟨cs, _, rfl⟩ := ho
      exact ⟨_, rfl⟩

example : htmlGenerate id [exList [exSym (str! "IMG"), exAttr (str! "src") (exStr ['x'])]] = .ok (str! "<IMG src=\"x\">") := by
  decide +kernel
example : htmlGenerate id [exList [exSym (str! "P"), exSym ['x']]] = .ok (str! "<P>x</p>") := by decide +kernel

/-- `(IMG :src "x")`, `(IMG :src "x" y)` and `(P x)`. -/
example : ∃ as, GivesAttrs [exAttr (str! "src") (exStr ['x'])] as ∧ str! "<IMG src=\"x\">" = [] ++ '<' :: str! "IMG" ++
    ((List.zip [[' ']] as).flatMap fun p => attrText p.1 p.2.1 p.2.2) ++ ['>'] :=
  C21_void_is_opening_tag id ⟨str! "IMG", default, []⟩ [exAttr (str! "src") (exStr ['x'])] default default [] _ (by decide)
    (by decide +kernel)
example : ∃ msg, htmlGenerate id [exList [exSym (str! "IMG"), exAttr (str! "src") (exStr ['x']), exSym ['y']]] =
    .err { stage := .gen, msg := msg, site := default } :=
  C21_void_content_error id ⟨str! "IMG", default, []⟩ [exAttr (str! "src") (exStr ['x'])] [(str! "src", ['x'])] (exSym ['y']) []
    default default [] (by decide) (.cons _ _ _ _ _ _ _ (.inr (.inr (.inl rfl))) .nil) rfl
example : ∃ p, str! "<P>x</p>" = p ++ str! "</" ++ ['p'] ++ ['>'] :=
  C21_other_is_closed id ⟨['P'], default, []⟩ [exSym ['x']] default default [] _ (by decide) (by decide) (by decide +kernel)

end Seam
