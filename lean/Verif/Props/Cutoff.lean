import Verif.Lemmas.Cutoff
import Verif.Props.Reader

/-!
# Missing parentheses (C114)
-/

namespace Seam
open Spec

/-- C114: a program that is cut off inside a list, anywhere from behind its opening to in front of its closing
parenthesis, is not accepted. -/
theorem C114_cut_off (u u' : Unescape) (b b' : Buf) (ns ns' kids : List PNode) (s : Site) (e : Token) (w x y : Str)
    (h : parse u b = .ok ns) (hb : b.code = x ++ y) (hb' : b'.code = x) (hw : Within (.list kids s e w) ns)
    (h1 : s.off < blen x) (h2 : blen x ≤ e.site.off) : parse u' b' ≠ .ok ns' := by
  intro h'
  obtain ⟨toks, ht, hs⟩ := parse_ok_tokens h
  obtain ⟨toks', ht', hs'⟩ := parse_ok_tokens h'
  obtain ⟨p, us, q, rfl, hx⟩ := within_infix hw hs
  obtain ⟨t1, t2, h3, h4, h5, toks₂, e₂, h6, h7⟩ := tokens_cutoff (b' := b') ht x y [] 1 hb
  obtain ⟨_, _, huniq⟩ := C09_tokens_unique b'
  have hu := (huniq _ _ ht').trans (huniq _ _ (show TokensOf b' toks₂ e₂ by rw [TokensOf, hb']; exact h6)).symm
  obtain ⟨rfl, rfl⟩ : toks' = toks₂ ∧ .eof = e₂ := by simpa using hu
  have h8 := h7 rfl
  rw [(exprs_depth hs').1] at h8
  cases hx with
  | list o _ ts _ ho hc hv =>
    have hp := (exprs_depth hs).2 p (o :: (ts ++ [e]) ++ q) (by simp)
    have hts := (exprs_depth hv).2
    rw [List.append_assoc] at h3
    rcases List.append_eq_append_iff.1 h3 with ⟨d, rfl, hd⟩ | ⟨d, rfl, hd⟩
    · cases d with
      | nil =>
        simp only [List.nil_append] at hd
        have := h5 o (by rw [← hd]; simp)
        simp at this h1; omega
      | cons o' d =>
        simp only [List.cons_append, List.cons.injEq] at hd
        obtain ⟨rfl, hd⟩ := hd
        rw [List.append_assoc] at hd
        have ho : weight o = 1 := by simp [weight, ho]
        rcases List.append_eq_append_iff.1 hd with ⟨f, rfl, hf⟩ | ⟨f, hf, hf'⟩
        · cases f with
          | nil =>
            have := hts ts [] (by simp)
            simp only [List.append_nil, openDepth_append, openDepth, ho] at h8
            omega
          | cons e' f =>
            simp only [List.cons_append, List.nil_append, List.cons.injEq] at hf
            obtain ⟨rfl, hf⟩ := hf
            have := h4 e (by simp)
            simp at this h2; omega
        · have := hts d f hf
          simp only [openDepth_append, openDepth, ho] at h8
          omega
    · have := h5 o (by rw [hd]; simp)
      simp at this h1; omega

/-- C114: a program in which one of the parentheses of a list is overwritten with a blank is not accepted. -/
theorem C114_overwritten (u u' : Unescape) (b b' : Buf) (ns ns' kids : List PNode) (s : Site) (e : Token) (w x y : Str) (p c : Char)
    (h : parse u b = .ok ns) (hb : b.code = x ++ p :: y) (hc : blank c = true) (hb' : b'.code = x ++ c :: y)
    (hw : Within (.list kids s e w) ns) (hx : s.off = blen x ∨ e.site.off = blen x) : parse u' b' ≠ .ok ns' := by
  intro h'
  obtain ⟨toks, ht, hs⟩ := parse_ok_tokens h
  obtain ⟨toks', ht', hs'⟩ := parse_ok_tokens h'
  obtain ⟨pre, us, q, rfl, hl⟩ := within_infix hw hs
  have key : ∀ t1 t t2, pre ++ us ++ q = t1 ++ t :: t2 → t.kind = .lparen ∨ t.kind = .rparen → t.site.off = blen x → False := by
    intro t1 t t2 he hk ho
    have hd := (exprs_depth hs).1
    rw [he] at ht hd
    obtain ⟨x', p', y', h1, h2, h3⟩ := tokens_overwrite (b' := b') hc ht hk
    have : x = x' := prefix_blen_inj (hb.symm.trans h1) (by simpa using ho.symm.trans h2)
    subst this
    obtain ⟨rfl, rfl⟩ : p = p' ∧ y = y' := by simpa using hb.symm.trans h1
    obtain ⟨toks₂, h4, h5⟩ := h3 [] 1
    obtain ⟨_, _, huniq⟩ := C09_tokens_unique b'
    have hu := (huniq _ _ ht').trans (huniq _ _ (show TokensOf b' toks₂ .eof by rw [TokensOf, hb']; exact h4)).symm
    obtain ⟨rfl, _⟩ : toks' = toks₂ ∧ True := by simpa using hu
    rw [(exprs_depth hs').1] at h5
    rw [openDepth_append] at hd
    simp only [openDepth] at hd
    have : weight t ≠ 0 := by rcases hk with hk | hk <;> simp [weight, hk]
    omega
  cases hl with
  | list o _ ts _ ho hc hv =>
    rcases hx with hx | hx
    · exact key pre o (ts ++ e :: q) (by simp) (.inl ho) hx
    · exact key (pre ++ o :: ts) e q (by simp) (.inr hc) hx

/-- C114: deleting a parenthesis can go unnoticed, as what was a comment can become part of a word: `a(;(` and
`)` on the next line, without the first parenthesis. -/
theorem C114_deleted_false : (∃ ns, parse some ⟨[], 1, str! "a(;(\n)"⟩ = .ok ns ∧ ns.length = 2) ∧
    ∃ ns, parse some ⟨[], 1, str! "a;(\n)"⟩ = .ok ns ∧ ns.length = 2 := by
  constructor
  · obtain ⟨ns, h, hl⟩ := Res.okP_elim (r := parse some ⟨[], 1, str! "a(;(\n)"⟩) (p := fun ns => decide (ns.length = 2)) (by decide +kernel)
    exact ⟨ns, h, of_decide_eq_true hl⟩
  · obtain ⟨ns, h, hl⟩ := Res.okP_elim (r := parse some ⟨[], 1, str! "a;(\n)"⟩) (p := fun ns => decide (ns.length = 2)) (by decide +kernel)
    exact ⟨ns, h, of_decide_eq_true hl⟩

/-- The program `p (a "b" :k (c))`, cut off behind `"b`, and without one of its parentheses. -/
def exWhole : Buf := ⟨[], 1, str! "p (a \"b\" :k (c))"⟩

theorem exWhole_list : ∃ ns kids s e w, parse some exWhole = .ok ns ∧ Within (.list kids s e w) ns ∧ s.off = 2 ∧ e.site.off = 15 := by
  obtain ⟨ns, n, h1, h2, h3⟩ := exists_within (r := parse some exWhole)
    (fun n => match n with | .list _ s e _ => decide (s.off = 2 ∧ e.site.off = 15) | _ => false) (by decide +kernel)
  cases n with
  | list kids s e w => exact ⟨ns, kids, s, e, w, h1, h2, of_decide_eq_true h3⟩
  | _ => simp at h3

example (ns' : List PNode) : parse some ⟨[], 1, str! "p (a \"b"⟩ ≠ .ok ns' := by
  obtain ⟨ns, kids, s, e, w, h1, h2, h3, h4⟩ := exWhole_list
  exact C114_cut_off some some exWhole _ ns ns' kids s e w (str! "p (a \"b") (str! "\" :k (c))") h1 rfl rfl h2 (by rw [h3]; decide) (by rw [h4]; decide)
example (ns' : List PNode) : parse some ⟨[], 1, str! "p  a \"b\" :k (c))"⟩ ≠ .ok ns' := by
  obtain ⟨ns, kids, s, e, w, h1, h2, h3, h4⟩ := exWhole_list
  exact C114_overwritten some some exWhole _ ns ns' kids s e w (str! "p ") (str! "a \"b\" :k (c))") '(' ' ' h1 rfl rfl rfl h2 (.inl (by rw [h3]; decide))

end Seam
