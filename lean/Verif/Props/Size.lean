import Verif.Lemmas.Double
import Verif.Props.Again

/-!
# The size of the output (C103)

`blen` is the number of bytes of a text in UTF-8.
-/

namespace Seam
open Spec

/-- C103: a source without macros is written as plain text in at most as many bytes as the source
has, as S-expressions or XML in at most six times, and as HTML or CSS in at most eleven times as many. -/
theorem C103_sizes (ext : Ext) (hu : NoLonger ext.unescape) (dbg : Str → Str) (hd : SixFold dbg) (order : Order) (path code : Str)
    (tree : List PNode) (hp : parse ext.unescape { path := path, id := 1, code := code } = .ok tree) (hm : MacrosFree tree)
    (fuel : Nat) (out : List PNode) (st : St) (h : expand ext order fuel path code = (.ok out, st)) :
    blen (textNodes out) ≤ blen code ∧
    blen (sexpNodes dbg out) ≤ 6 * blen code ∧
    (∀ o, xmlGenerate out = .ok o → blen o ≤ 6 * blen code) ∧
    (∀ o, htmlGenerate dbg out = .ok o → blen o ≤ 11 * blen code) ∧
    (∀ o, cssGenerate dbg out = .ok o → blen o ≤ 11 * blen code) := by
  have := expand_free hp hm h
  subst this
  have hs := sits_of_parse hu hp
  have h1 := texts_size hs
  have h2 := sexps_size hd hs
  refine ⟨by simpa using h1, by simpa using h2, fun o ho => ?_, fun o ho => ?_, fun o ho => ?_⟩
  · have := xmlRest_size ho hs
    simpa using this
  · have := htmlRest_size hd ho hs
    simpa using this
  · have := css_size hd ho hs
    simpa using this

/-- C103: whatever the format, and as a document or a fragment, the output of a source without macros
has at most eleven times as many bytes as the source, and 120 more. -/
theorem C103_documents (ext : Ext) (hu : NoLonger ext.unescape) (dbg : Str → Str) (hd : SixFold dbg) (order : Order) (path code : Str)
    (tree : List PNode) (hp : parse ext.unescape { path := path, id := 1, code := code } = .ok tree) (hm : MacrosFree tree)
    (fuel : Nat) (out : List PNode) (st : St) (h : expand ext order fuel path code = (.ok out, st))
    (target : Str) (doc : Bool) (o : Str) (ho : generate dbg target doc out = some (.ok o)) : blen o ≤ 11 * blen code + 120 := by
  obtain ⟨h1, h2, h3, h4, h5⟩ := C103_sizes ext hu dbg hd order path code tree hp hm fuel out st h
  unfold generate at ho
  split at ho
  · simp only [Option.some.injEq, Res.ok.injEq] at ho; subst ho; omega
  split at ho
  · simp only [Option.some.injEq, Res.ok.injEq] at ho; subst ho; omega
  split at ho
  · simp only [Option.some.injEq] at ho
    split at ho
    · unfold htmlDocument at ho
      dsimp only at ho
      split at ho
      · simp only [Res.ok.injEq] at ho
        subst ho
        have : blen htmlDefault ≤ 120 := by decide +kernel
        omega
      · rw [Res.bind_eq_ok] at ho
        obtain ⟨d, k1, k2⟩ := ho
        simp only [Res.ok.injEq] at k2
        have := h4 d k1
        subst k2
        refine Nat.le_trans (popNewline_blen _) ?_
        simp only [blen_append]
        have g1 := wrap_blen (searchNodes .listHead (str! "!doctype") true out 1).isNone (searchNodes .listHead (str! "html") true out 1).isNone
          (searchNodes .listHead (str! "head") true out 2).isNone (searchNodes .listHead (str! "body") true out 2).isNone
        omega
    · have := h4 o ho; omega
  split at ho
  · simp only [Option.some.injEq] at ho
    split at ho
    · unfold xmlDocument at ho
      have : blen xmlDefault ≤ 120 := by decide +kernel
      split at ho
      · simp only [Res.ok.injEq] at ho
        subst ho
        omega
      · rw [Res.bind_eq_ok] at ho
        obtain ⟨d, k1, k2⟩ := ho
        simp only [Res.ok.injEq] at k2
        have := h3 d k1
        subst k2
        simp only [blen_append]
        split <;> first | omega | (simp only [blen_nil]; omega)
    · have := h3 o ho; omega
  split at ho
  · simp only [Option.some.injEq] at ho
    split at ho
    · unfold cssDocument at ho
      split at ho
      · simp only [Res.ok.injEq] at ho
        subst ho
        have : blen ['\n'] ≤ 120 := by decide +kernel
        omega
      · have := h5 o ho; omega
    · have := h5 o ho; omega
  · cases ho

/-- C103: with macros there is no such bound: this program of 27 + 5·n bytes has a plain text of at
least 2ⁿ bytes. -/
theorem C103_macros (ext : Ext) (order : Order) (hf : Fair order) (path : Str) (n : Nat) :
    ∃ code out st fuel, code = str! "(%define (d x) (p %x %x)) " ++ (List.replicate n (str! "(%d ")).flatten ++ 'a' :: List.replicate n ')' ∧
      blen code = 27 + 5 * n ∧ (∀ g, fuel ≤ g → expand ext order g path code = (.ok out, st)) ∧ 2 ^ n ≤ blen (textNodes out) := by
  obtain ⟨ns, h1, h2⟩ := C14_sexp_reads_back ext.unescape id (doubling n) (doubling_printable _ _ n) path 1
  rw [doubling_text] at h1
  obtain ⟨o, t, h3, h4⟩ := doubling_evals ext n ns h2 (St.init order) hf
  obtain ⟨f, hg⟩ := h3.ev
  refine ⟨_, [o], t, f, rfl, ?_, fun g hgg => ?_, ?_⟩
  · have e1 : ∀ n, blen (List.replicate n (str! "(%d ")).flatten = 4 * n := by
      intro n
      induction n with
      | zero => rfl
      | succ n ih =>
        rw [List.replicate_succ, List.flatten_cons, blen_append, ih]
        show 4 + _ = _
        omega
    have e2 : ∀ n, blen (List.replicate n ')') = n := by
      intro n
      induction n with
      | zero => rfl
      | succ n ih =>
        rw [List.replicate_succ, blen_cons, ih]
        show 1 + _ = _
        omega
    have e3 : blen ('a' :: List.replicate n ')') = 1 + n := by rw [blen_cons, e2]; rfl
    rw [blen_append, blen_append, e1, e3]
    show 26 + _ + (1 + _) = _
    omega
  · unfold expand
    rw [h1]
    exact hg g hgg
  · have := h4.size
    simp only [textNodes, List.append_nil]
    omega

/-- The hypotheses of C103 can be met: quotes without escapes, and the source `(p :k "v" <x>)`. -/
example : NoLonger some ∧ SixFold exQuote := by
  refine ⟨fun s v h => by cases h; exact Nat.le_refl _, fun s => ?_⟩
  simp only [exQuote, blen_append, blen_cons, blen_nil, show ('"' : Char).utf8Size = 1 from rfl, List.cons_append]
  omega

example : ∃ tree, parse some { path := [], id := 1, code := str! "(p :k \"v\" <x>)" } = .ok tree ∧ MacrosFree tree := by
  obtain ⟨ns, h1, h2⟩ := Res.okP_elim (r := parse some { path := [], id := 1, code := str! "(p :k \"v\" <x>)" })
    (p := fun ns => match ns with
      | [.list [.symbol p, .attr _ (.string _) _ _, .symbol x] _ _ _] => p.value == str! "p" && x.value == str! "<x>"
      | _ => false) (by decide +kernel)
  refine ⟨ns, h1, ?_⟩
  split at h2
  · simp only [Bool.and_eq_true, beq_iff_eq] at h2
    exact .cons _ _ (.list _ _ _ _ (.cons _ _ (.symbol _ (by rw [h2.1]; simp)) (.cons _ _ (.attr _ _ _ _ (.string _))
      (.cons _ _ (.symbol _ (by rw [h2.2]; simp)) .nil)))) .nil
  · cases h2

end Seam
