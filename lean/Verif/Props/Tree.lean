import Verif.Lemmas.Letters
import Verif.Lemmas.Tree
import Verif.Lemmas.Check
import Verif.Props.Reader

/-!
# Properties of trees: printing, equality, search (C13–C16, C32)

`dbg` is Rust's `{:?}` on strings, `u` the unescaping of the crate `descape`.
-/

namespace Seam
open Spec

/-! ## C13 -/

/-- C13: the S-expression output of a parsed source without comments, trailing
blanks and backslashes, whose strings are written between single quotes and need
no escaping, is the source. -/
theorem C13_sexp_reproduces_source (u : Unescape) (dbg : Str → Str) (hu : ∀ s, '\\' ∉ s → u s = some s)
    (hd : QuotesPlain dbg) (b : Buf) (ns : List PNode) (h : parse u b = .ok ns)
    (hsp : Spaced [] b.code (sitess ns)) (hb : '\\' ∉ b.code)
    (hstr : ∀ n, Within (.string n) ns → (∀ c ∈ n.value, plainChar c = true) ∧
      ∀ text, n.site.view = some text → ¬ q3 <+: text) :
    sexpNodes dbg ns = b.code := by
  obtain ⟨toks, ht, hs⟩ := parse_ok_tokens h
  rw [sexps_exprs hs]
  rw [sites_expr.sitess_exprs hs] at hsp
  refine (spaced_tokens ht (by simp) rfl (showTok u dbg) hsp ?_).symm
  intro t htm text rest hl hv
  obtain ⟨p, _⟩ := placed_of_tokensOf ht t htm
  have hview : t.site.view = some p.text := by
    rw [p.site]; exact siteOf_view b _ _ _ p.after p.code
  have htext : text = p.text := by rw [hv] at hview; exact Option.some.inj hview
  have hnb : '\\' ∉ text := by
    intro hm; apply hb; rw [p.code, ← htext]; simp [hm]
  have hfil : noBackslash text = text := by
    unfold noBackslash
    rw [List.filter_eq_self]
    intro c hc
    simp only [bne_iff_ne, ne_eq]
    rintro rfl; exact hnb hc
  generalize hk : t.kind = k at hl
  generalize hval : t.value = v at hl
  cases hl with
  | lparen => simp [showTok, hk]
  | rparen => simp [showTok, hk]
  | symbol _ _ _ _ _ => simp [showTok, hk, hval, hfil]
  | number _ _ _ _ _ => simp [showTok, hk, hval, hfil]
  | keyword name _ _ _ => simp [showTok, hk, hval]
  | string q body _ hbody ho =>
    obtain ⟨m, h1, h2, h3⟩ := string_token_exprs hs t htm hk
    obtain ⟨h4, h5⟩ := hstr m h1
    have hub : u v = some v := hu v (fun hm => hnb (by simp [hm]))
    rw [hval, hub] at h3
    cases h3
    have h6 := h5 _ (by rw [h2]; exact hv)
    have hq : q = q1 := by
      rcases ho with ⟨rfl, _⟩ | ⟨rfl, _⟩
      · exact absurd ⟨m.value ++ q3, by simp⟩ h6
      · rfl
    subst hq
    simp [showTok, hk, hval, hub, hd _ h4, q1]

/-- C13: the same of the textual form (`to_string`) of the nodes of the tree. -/
theorem C13_display_reproduces_source (u : Unescape) (dbg : Str → Str) (hu : ∀ s, '\\' ∉ s → u s = some s)
    (hd : QuotesPlain dbg) (b : Buf) (ns : List PNode) (h : parse u b = .ok ns)
    (hsp : Spaced [] b.code (sitess ns)) (hb : '\\' ∉ b.code)
    (hstr : ∀ n, Within (.string n) ns → (∀ c ∈ n.value, plainChar c = true) ∧
      ∀ text, n.site.view = some text → ¬ q3 <+: text) :
    ns.flatMap (PNode.display dbg) = b.code := by
  obtain ⟨toks, ht, hs⟩ := parse_ok_tokens h
  have : ∀ ns, PNode.displays dbg ns = ns.flatMap (PNode.display dbg) := by
    intro ns
    induction ns with
    | nil => simp [PNode.displays]
    | cons n ns ih => simp [PNode.displays, ih]
  rw [← this, displays_exprs hs]
  exact C13_sexp_reproduces_source u dbg hu hd b ns h hsp hb hstr

/-- Where the pieces of a text lie. -/
def places (before : Str) : List (Str × Str) → List (Nat × Nat)
  | [] => []
  | (g, t) :: l => (blen (before ++ g), blen t) :: places (before ++ g ++ t) l

theorem spaced_places : ∀ (l : List (Str × Str)) (before : Str) (ss : List Site), (l.all fun p => p.1.all blank) = true →
    ss.map (fun s => (s.off, s.span)) = places before l → Spaced before (l.flatMap fun p => p.1 ++ p.2) ss
  | [], before, ss, _, h => by cases ss <;> simp [places] at h; exact .nil _
  | (g, t) :: l, before, ss, hb, h => by
    cases ss with
    | nil => simp [places] at h
    | cons s ss =>
      simp only [List.map_cons, places, List.cons.injEq, Prod.mk.injEq] at h
      simp only [List.all_cons, Bool.and_eq_true] at hb
      simp only [List.flatMap_cons, List.append_assoc]
      exact .cons _ _ _ _ _ _ (fun c hc => List.all_eq_true.1 hb.1 c hc) h.1.1 h.1.2
        (spaced_places l _ ss hb.2 h.2)

/-- `(p :a "x")⏎ y` meets the hypotheses. -/
example : ∃ (b : Buf) (ns : List PNode), b.code = str! "(p :a \"x\")\n y" ∧ parse some b = .ok ns ∧ '\\' ∉ b.code ∧
    Spaced [] b.code (sitess ns) ∧ (allNodess ns).all (fun n => match n with
      | .string n => n.value.all plainChar && decide (n.site.view = some (str! "\"x\""))
      | _ => true) = true := by
  obtain ⟨ns, h1, h2⟩ := Res.okP_elim (r := parse some { path := [], id := 1, code := str! "(p :a \"x\")\n y" })
    (p := fun ns => decide ((sitess ns).map (fun s => (s.off, s.span)) =
        places [] [([], ['(']), ([], ['p']), ([' '], [':', 'a']), ([' '], str! "\"x\""), ([], [')']), (str! "\n ", ['y'])]) &&
      (allNodess ns).all (fun n => match n with
      | .string n => n.value.all plainChar && decide (n.site.view = some (str! "\"x\""))
      | _ => true)) (by decide +kernel)
  simp only [Bool.and_eq_true, decide_eq_true_eq] at h2
  exact ⟨_, ns, rfl, h1, by decide, spaced_places _ _ _ rfl h2.1, h2.2⟩

/-! ## C14 -/

/-- C14: the S-expression output of a printable tree parses, to a tree that
differs from it at most in positions. -/
theorem C14_sexp_reads_back (u : Unescape) (dbg : Str → Str) (ns : List PNode) (h : Printables u dbg ns)
    (path : Str) (id : Nat) :
    ∃ ns', parse u { path := path, id := id, code := sexpNodes dbg ns } = .ok ns' ∧ SameNodes ns ns' := by
  obtain ⟨toks, ns', h1, h2, b', l', h3⟩ := reads_nodes { path := path, id := id, code := sexpNodes dbg ns } h []
    (by intro n _; exact ⟨fun _ => trivial, by simp⟩) [] 1
  refine ⟨ns', (C09_accepts_exactly_grammar u _ ns').2 ⟨toks, ?_, h1⟩, h2⟩
  have := h3 [] .eof (.eof _ _ _ ⟨[], [], .blanks _ (by intro c hc; simp at hc), Or.inl rfl⟩)
  simpa [TokensOf] using this

/-- `(p "x" y)` as a tree. -/
example : Printables some (fun s => '"' :: s ++ ['"'])
    [.list [.symbol ⟨str! "p", default, []⟩, .string ⟨str! "x", default, []⟩, .symbol ⟨str! "y", default, [' ']⟩]
      default { kind := .rparen, value := [')'], lw := [], site := default } []] := by
  have nb : ∀ w : Str, (w.all blank = true) → Blanks w := fun w h c hc => List.all_eq_true.1 h c hc
  have wd : ∀ w : Str, (w.all identChar = true) → Starts symbolStart w → Word symbolStart w :=
    fun w h h' => ⟨h', fun c hc => List.all_eq_true.1 h c hc⟩
  refine .one _ (.list _ _ _ _ (nb _ rfl) (nb _ rfl) ?_)
  refine .cons _ _ _ (.symbol _ (nb _ rfl) (wd _ rfl rfl)) ?_ ?_
  · intro _; simp [endsInWord, startsWithWord, endsInEmptyString]
  refine .cons _ _ _ (.string _ (str! "x") (nb _ rfl) rfl (.plain _ _ (by decide) (by decide) .nil) rfl) ?_ ?_
  · intro h; simp [PNode.lw] at h
  exact .one _ (.symbol _ (nb _ rfl) (wd _ rfl rfl))

/-! ## C15 -/

/-- C15: `==` on nodes holds exactly for nodes of the same kind, text and structure. -/
theorem C15_eq_is_same_value (a b : PNode) : a.eqv b = true ↔ SameValue a b := eqv_iff a b

/-- C15: it is an equivalence. -/
theorem C15_equivalence : (∀ a : PNode, a.eqv a = true) ∧ (∀ a b : PNode, a.eqv b = true → b.eqv a = true) ∧
    (∀ a b c : PNode, a.eqv b = true → b.eqv c = true → a.eqv c = true) := by
  refine ⟨fun a => (eqv_iff a a).2 (sameValue_refl a), fun a b h => ?_, fun a b c h h' => ?_⟩
  · exact (eqv_iff b a).2 (sameValue_symm ((eqv_iff a b).1 h))
  · exact (eqv_iff a c).2 (sameValue_trans ((eqv_iff a b).1 h) ((eqv_iff b c).1 h'))

/-- C15: equal nodes write the same to the hasher, and nodes that are not equal
write different sequences. -/
theorem C15_hash (a b : PNode) : a.hashOps = b.hashOps ↔ a.eqv b = true := by
  rw [eqv_iff]
  refine ⟨fun h => ?_, hash_same⟩
  exact (hash_inj (r := []) (r' := []) (by rw [h])).1

/-- Two different places and layouts, the same value. -/
example : (PNode.symbol ⟨str! "a", default, [' ']⟩).eqv (.symbol ⟨str! "a", { (default : Site) with off := 7 }, []⟩) = true := by
  decide

/-! ## C16 -/

/-- C16: `search_node` on a tree returns the first hit, in document order, among the
nodes down to the given level. -/
theorem C16_search_first (kind : SearchType) (value : Str) (ins : Bool) (level : Nat) (ns : List PNode) (r : PNode) :
    searchNodes kind value ins ns level = some r ↔
      ∃ pre n post, downTos level ns = pre ++ n :: post ∧ Hit kind value ins n r ∧
        ∀ m ∈ pre, ∀ r', ¬ Hit kind value ins m r' := by
  rw [searchs_eq, List.findSome?_eq_some_iff]
  constructor
  · rintro ⟨pre, n, post, h1, h2, h3⟩
    refine ⟨pre, n, post, h1, (hit_iff ..).1 h2, fun m hm r' hr => ?_⟩
    have := h3 m hm
    rw [(hit_iff ..).2 hr] at this
    cases this
  · rintro ⟨pre, n, post, h1, h2, h3⟩
    refine ⟨pre, n, post, h1, (hit_iff ..).2 h2, fun m hm => ?_⟩
    cases hh : hit? kind value ins m with
    | none => rfl
    | some r' => exact absurd ((hit_iff ..).1 hh) (h3 m hm r')

/-- C16: it returns nothing exactly if there is no hit. -/
theorem C16_search_none (kind : SearchType) (value : Str) (ins : Bool) (level : Nat) (ns : List PNode) :
    searchNodes kind value ins ns level = none ↔ ∀ n ∈ downTos level ns, ∀ r, ¬ Hit kind value ins n r := by
  rw [searchs_eq, List.findSome?_eq_none_iff]
  constructor
  · intro h n hn r hr
    have := h n hn
    rw [(hit_iff ..).2 hr] at this
    cases this
  · intro h n hn
    cases hh : hit? kind value ins n with
    | none => rfl
    | some r => exact absurd ((hit_iff ..).1 hh) (h n hn r)

/-- C16: texts are the same without regard to case if they have the same letters at the same places,
in upper or lower case; other characters have to be the same. -/
theorem C16_letters (a b : Str) : TextEq true a b ↔ Pairs SameLetter a b := textEq_letters a b

/-- C16: the lower case of a capital letter is the small letter, and every other character is its own. -/
theorem C16_lower (c : Char) : (∃ i : Nat, capitals[i]? = some c ∧ smalls[i]? = some (lowerChar c)) ∨ c ∉ capitals ∧ lowerChar c = c :=
  lowerChar_letters c

/-- C16: the model compares without regard to the case of ASCII letters only, `str::to_lowercase` knows
other letters.  For a query of ASCII characters without `k` the comparison is the same: whatever
`to_lowercase` does to other characters, as long as it maps ASCII letters as usual and the result for a
text with other characters has one of them or a `k` (as for the Kelvin sign). -/
theorem C16_unicode (low : Str → Str) (h1 : ∀ s : Str, (∀ c ∈ s, c.toNat < 128) → low s = s.map lowerChar)
    (h2 : ∀ s : Str, (∃ c ∈ s, 128 ≤ c.toNat) → ∃ c ∈ low s, 128 ≤ c.toNat ∨ c = 'k')
    (w : Str) (hw : ∀ c ∈ w, c.toNat < 128 ∧ c ≠ 'k' ∧ c ≠ 'K') (s : Str) : low s = low w ↔ TextEq true s w :=
  lowercase_same low h1 h2 w hw s

/-- The words that documents are searched for have no `k`. -/
example : ∀ w ∈ [str! "!doctype", str! "html", str! "head", str! "body", str! "?xml"], ∀ c ∈ w, c.toNat < 128 ∧ c ≠ 'k' ∧ c ≠ 'K' := by
  decide

/-- In `(p (B))` the query for a list headed by `b`, in any case, finds `(B)` on level 2
but not on level 1. -/
example : ∃ (inner : PNode) (ns : List PNode), (searchNodes .listHead (str! "b") true ns 2).isSome = true ∧
    searchNodes .listHead (str! "b") true ns 1 = none ∧ ns.length = 1 ∧ Within inner ns :=
  ⟨.list [.symbol ⟨str! "B", default, []⟩] default { kind := .rparen, value := [')'], lw := [], site := default } [],
   [.list [.symbol ⟨str! "p", default, []⟩,
      .list [.symbol ⟨str! "B", default, []⟩] default { kind := .rparen, value := [')'], lw := [], site := default } []]
      default { kind := .rparen, value := [')'], lw := [], site := default } []], by decide, by rfl, rfl,
   .inList _ _ _ _ _ List.mem_cons_self (.here _ (by simp))⟩

/-! ## C32 -/

mutual
theorem text_pieces : ∀ n : PNode, textNode n = (pieces n).flatMap (fun p => p.1 ++ p.2)
  | .symbol n | .number n | .string n | .raw n => by simp [textNode, pieces]
  | .list ns s e w => by simp [textNode, pieces, texts_pieces ns]
  | .attr k n s w => by simp [textNode, pieces, text_pieces n]
theorem texts_pieces : ∀ ns : List PNode, textNodes ns = (piecess ns).flatMap (fun p => p.1 ++ p.2)
  | [] => by simp [textNodes, piecess]
  | n :: ns => by simp [textNodes, piecess, text_pieces n, texts_pieces ns]
end

/-- C32: plain-text output is the whitespace and text of each piece of the tree in
document order. -/
theorem C32_text_is_pieces (ns : List PNode) : textNodes ns = (piecess ns).flatMap (fun p => p.1 ++ p.2) :=
  texts_pieces ns

/-- C32: for a parsed source this is, token by token, the leading whitespace and
then the token: identifiers without their backslashes, strings without their
quotes. -/
theorem C32_text_of_source (u : Unescape) (b : Buf) (ns : List PNode) (h : parse u b = .ok ns) :
    ∃ toks, TokensOf b toks .eof ∧ Exprs u toks ns ∧ textNodes ns = toks.flatMap fun t => t.lw ++
      (match t.kind with
        | .lparen => ['(']
        | .rparen => [')']
        | .symbol | .number => noBackslash t.value
        | .string => (u t.value).getD []
        | .keyword => ':' :: t.value) := by
  obtain ⟨toks, ht, hs⟩ := parse_ok_tokens h
  refine ⟨toks, ht, hs, ?_⟩
  have key := sexps_exprs (dbg := id) hs
  have : textNodes ns = sexpNodes id ns := texts_sexps hs
  rw [this, key]
  rfl

end Seam
