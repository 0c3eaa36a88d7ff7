import Verif.Lemmas.Snip
import Verif.Props.Cutoff

/-!
# Programs cut off inside a string or after a keyword (C114)
-/

namespace Seam
open Spec

/-- C114: a program that is cut off inside a string, before its last quote, is not accepted.  The only exception is
a cut right behind the first two of three opening quotes, which leaves an empty string. -/
theorem C114_cut_string (u u' : Unescape) (b b' : Buf) (ns ns' : List PNode) (d : Node) (p x y : Str)
    (h : parse u b = .ok ns) (hb : b.code = p ++ x ++ y) (hb' : b'.code = p ++ x) (hw : Within (.string d) ns)
    (hp : d.site.off = blen p) (hx : x ≠ []) (hx2 : x ≠ str! "\"\"") (hs : blen x < d.site.span) : parse u' b' ≠ .ok ns' := by
  intro h'
  obtain ⟨toks, ht, hexp⟩ := parse_ok_tokens h
  obtain ⟨toks', ht', hexp'⟩ := parse_ok_tokens h'
  obtain ⟨pre, us, q, rfl, hl⟩ := within_infix hw hexp
  cases hl with
  | string t v hk hv =>
    obtain ⟨skip, triv, lead, text, value, rest', line', h1, h2, h3, h4, h5, h6, h7⟩ :=
      tokens_to (t1 := pre) (t := t) (t2 := q) (show Tokens b [] 1 b.code _ _ by simpa [TokensOf] using ht)
    rw [hk] at h3
    simp only [List.nil_append] at h4
    have hcode : p ++ (x ++ y) = (skip ++ triv) ++ (text ++ rest') := by rw [← List.append_assoc, ← hb, h1]; simp
    have hp' : p = skip ++ triv := prefix_blen_inj hcode (by rw [← hp, ← h4])
    subst hp'
    have hxy : text ++ rest' = x ++ y := by simpa using hcode.symm
    have : blen x < blen text := by rw [← h5]; exact hs
    rcases List.append_eq_append_iff.1 hxy with ⟨f, rfl, hf⟩ | ⟨f, rfl, hf⟩
    · simp at this; omega
    · have hf' : f ≠ [] := by rintro rfl; simp at this
      obtain ⟨s1, before', line'', h8⟩ := h7 (triv ++ x) y (by rw [hxy]; simp) b' [] 1
      obtain ⟨e, h9, h10⟩ := string_part (b := b') (before := before') (line := line'') h2 h3 hx hx2 hf' rfl
      have h11 := h8 _ _ h9
      obtain ⟨_, _, huniq⟩ := C09_tokens_unique b'
      have hu := (huniq _ _ ht').trans (huniq _ _ (show TokensOf b' (s1 ++ []) e by rw [TokensOf, hb', List.append_assoc]; exact h11)).symm
      have := (Prod.mk.inj hu).2
      exact h10 this.symm

/-- C114: a program that is cut off after a keyword has begun, and before its value begins, is not accepted. -/
theorem C114_cut_keyword (u u' : Unescape) (b b' : Buf) (ns ns' : List PNode) (k w x y : Str) (n : PNode) (s : Site)
    (h : parse u b = .ok ns) (hb : b.code = x ++ y) (hb' : b'.code = x) (hw : Within (.attr k n s w) ns)
    (h1 : s.off < blen x) (h2 : ∀ s' ∈ (sites n).head?, blen x ≤ s'.off) : parse u' b' ≠ .ok ns' := by
  intro h'
  obtain ⟨toks, ht, hexp⟩ := parse_ok_tokens h
  obtain ⟨toks', ht', hexp'⟩ := parse_ok_tokens h'
  obtain ⟨pre, us, q, rfl, hl⟩ := within_infix hw hexp
  cases hl with
  | attr t ts _ hk hn =>
    rw [sites_expr hn] at h2
    obtain ⟨t', ts', rfl, _⟩ := expr_head hn
    obtain ⟨skip, triv, lead, text, value, rest', line', h3, h4, h5, h6, h7, h8, h9⟩ :=
      tokens_to (t1 := pre) (t := t) (t2 := t' :: ts' ++ q) (show Tokens b [] 1 b.code _ _ by simpa [TokensOf] using ht)
    rw [hk] at h5
    simp only [List.nil_append] at h6 h8
    have hcode : (skip ++ triv) ++ (text ++ rest') = x ++ y := by rw [← hb, h3]; simp
    obtain ⟨z, rfl, hz⟩ := cut_behind hcode (by omega)
    have hz' : z ≠ [] := by rintro rfl; simp at h1 h6; omega
    obtain ⟨s1, before', line'', h10⟩ := h9 (triv ++ z) y (by rw [hz]; simp) b' [] 1
    have key : ∃ toks e, Tokens b' before' line'' (triv ++ z) toks e ∧ (e = .eof → ∃ k, toks = [k] ∧ k.kind = .keyword) := by
      rcases List.append_eq_append_iff.1 hz with ⟨f, rfl, hf⟩ | ⟨f, rfl, hf⟩
      · have hend : EndTrivia f := before_next h8 hf (by
          intro t ht
          simp at ht; subst ht
          simpa using h2 t'.site (by simp))
        subst hf
        exact ⟨_, .eof, .token _ _ _ _ _ _ _ _ _ _ h4 (lexeme_cut h5) (.eof _ _ _ hend), fun _ => ⟨_, rfl, rfl⟩⟩
      · exact keyword_part h4 h5 hz' rfl
    obtain ⟨toks, e, h11, h12⟩ := key
    have h13 := h10 _ _ h11
    obtain ⟨_, _, huniq⟩ := C09_tokens_unique b'
    have hu := (huniq _ _ ht').trans (huniq _ _ (show TokensOf b' (s1 ++ toks) e by rw [TokensOf, hb', List.append_assoc]; exact h13)).symm
    obtain ⟨rfl, rfl⟩ := Prod.mk.inj hu
    obtain ⟨k', rfl, hk'⟩ := h12 rfl
    exact exprs_last hexp' s1 k' rfl hk'

/-- C114: the exception is one: `"""a"""`, cut off behind two quotes, is the empty string. -/
theorem C114_two_quotes : (∃ ns, parse some ⟨[], 1, str! "\"\"\"a\"\"\""⟩ = .ok ns ∧ ns.length = 1) ∧
    ∃ ns, parse some ⟨[], 1, str! "\"\""⟩ = .ok ns ∧ ns.length = 1 := by
  constructor
  · obtain ⟨ns, h, hl⟩ := Res.okP_elim (r := parse some ⟨[], 1, str! "\"\"\"a\"\"\""⟩) (p := fun ns => decide (ns.length = 1)) (by decide +kernel)
    exact ⟨ns, h, of_decide_eq_true hl⟩
  · obtain ⟨ns, h, hl⟩ := Res.okP_elim (r := parse some ⟨[], 1, str! "\"\""⟩) (p := fun ns => decide (ns.length = 1)) (by decide +kernel)
    exact ⟨ns, h, of_decide_eq_true hl⟩

/-- The program `a "b c" :k d`, cut off inside the string, and behind the keyword. -/
def exSnip : Buf := ⟨[], 1, str! "a \"b c\" :k d"⟩

example (ns' : List PNode) : parse some ⟨[], 1, str! "a \"b "⟩ ≠ .ok ns' := by
  obtain ⟨ns, n, h1, h2, h3⟩ := exists_within (r := parse some exSnip)
    (fun n => match n with | .string d => decide (d.site.off = 2 ∧ d.site.span = 5) | _ => false) (by decide +kernel)
  cases n with
  | string d =>
    obtain ⟨h3, h4⟩ := of_decide_eq_true h3
    exact C114_cut_string some some exSnip _ ns ns' d (str! "a ") (str! "\"b ") (str! "c\" :k d") h1 rfl rfl h2 (by rw [h3]; decide) (by decide) (by decide) (by rw [h4]; decide)
  | _ => simp at h3
example (ns' : List PNode) : parse some ⟨[], 1, str! "a \"b c\" :k "⟩ ≠ .ok ns' := by
  obtain ⟨ns, n, h1, h2, h3⟩ := exists_within (r := parse some exSnip)
    (fun n => match n with | .attr _ n s _ => decide (s.off = 8 ∧ (sites n).head?.map (·.off) = some 11) | _ => false) (by decide +kernel)
  cases n with
  | attr k n s w =>
    obtain ⟨h3, h4⟩ := of_decide_eq_true h3
    refine C114_cut_keyword some some exSnip _ ns ns' k w (str! "a \"b c\" :k ") (str! "d") n s h1 rfl rfl h2 (by rw [h3]; decide) (fun s' hs => ?_)
    rw [Option.mem_def] at hs
    rw [hs] at h4
    simp at h4
    rw [h4]; decide
  | _ => simp at h3

end Seam
