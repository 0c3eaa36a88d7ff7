import Verif.Lemmas.Css
import Verif.Lemmas.Sheet

/-! A style sheet never opens more braces than it closes, and as many only if every rule with nested
rules has one. -/

namespace Seam
open Spec

/-- How often a character occurs. -/
def opens (s : Str) : Nat := s.count '{'
/-- How often a character occurs. -/
def closes (s : Str) : Nat := s.count '}'

theorem opens_append (a b : Str) : opens (a ++ b) = opens a + opens b := by simp [opens]
theorem closes_append (a b : Str) : closes (a ++ b) = closes a + closes b := by simp [closes]

theorem depth_count : ∀ {s : Str} {n m : Nat}, depth n s = some m → n + opens s = m + closes s
  | [], n, m, h => by simp [depth] at h; simp [opens, closes, h]
  | c :: s, n, m, h => by
    rw [depth] at h
    by_cases hc : c = '{'
    · subst hc
      rw [if_pos rfl] at h
      have := depth_count h
      simp only [opens, closes, List.count_cons] at this ⊢
      simp only [beq_self_eq_true, if_true, show (('{' : Char) == '}') = false from rfl, Bool.false_eq_true, if_false]
      omega
    · rw [if_neg hc] at h
      by_cases hd : c = '}'
      · subst hd
        rw [if_pos rfl] at h
        by_cases hn : n = 0
        · rw [if_pos hn] at h; cases h
        · rw [if_neg hn] at h
          have := depth_count h
          simp only [opens, closes, List.count_cons] at this ⊢
          simp only [beq_self_eq_true, if_true, show (('}' : Char) == '{') = false from rfl, Bool.false_eq_true, if_false]
          omega
      · rw [if_neg hd] at h
        have := depth_count h
        simp only [opens, closes, List.count_cons] at this ⊢
        rw [if_neg (by simpa using hc), if_neg (by simpa using hd)]
        omega

theorem neutral_count {s : Str} (h : Neutral s) : opens s = closes s := by
  have := depth_count (h 0)
  omega

theorem noBrace_count {s : Str} (h : NoBrace s) : opens s = closes s := neutral_count (neutral_noBrace h)

theorem textss_append (a b : List PNode) : textss (a ++ b) = textss a ++ textss b := by
  induction a with
  | nil => rfl
  | cons n ns ih => rw [List.cons_append, textss, textss, ih, List.append_assoc]

section
variable {dbg : Str → Str} (hd : ∀ s, NoBrace s → Balanced (dbg s))
include hd

theorem args_count {ns : List PNode} {ts : List Str} (ht : ∀ t ∈ textss ns, NoBrace t) (h : Pairs (ArgText dbg) ns ts) :
    opens ts.flatten = closes ts.flatten :=
  neutral_count (cssOneline_neutral hd ht (text_cssOneline dbg h))

theorem props_count {ns : List PNode} {ts : List Str} (ht : ∀ t ∈ textss ns, NoBrace t) (h : Pairs (PropText dbg) ns ts) :
    opens ts.flatten = closes ts.flatten :=
  neutral_count (cssProps_neutral hd ht (text_cssProps dbg h))

omit hd in
theorem sels_count {ns : List PNode} {ts : List Str} (ht : ∀ t ∈ textss ns, NoBrace t) (h : Pairs SelText ns ts) :
    opens ts.flatten = closes ts.flatten := by
  rw [← (text_selText h).1]
  exact neutral_count (cssSelectorText_neutral ht)

omit hd in
theorem head_noBrace {h : PNode} {a : Node} {rest : List PNode} (ha : IsAtom h a) (ht : ∀ t ∈ textss (h :: rest), NoBrace t) :
    NoBrace a.value := by
  refine ht _ ?_
  rcases ha with rfl | rfl | rfl | rfl <;> simp [textss, texts]

mutual
theorem rule_excess : ∀ {ns : List PNode} {t : Str}, RuleText dbg ns t → (∀ t ∈ textss ns, NoBrace t) →
    opens t ≤ closes t ∧ (opens t = closes t → RuleOk true ns)
  | _, _, .plain h a sels props ss ps ha hnb hnl hs hne hp, ht => by
    have h1 := noBrace_count (head_noBrace ha ht)
    have h2 := sels_count (fun t hm => ht t (by simp [textss_append, textss, hm])) hs
    have h3 := props_count hd (fun t hm => ht t (by simp [textss_append, textss, hm])) hp
    refine ⟨?_, fun _ => ?_⟩
    · simp only [opens_append, closes_append, h1, h2, h3]
      have e1 : opens (str! " ") = 0 ∧ closes (str! " ") = 0 := by decide
      have e2 : opens (str! "{\n") = 1 ∧ closes (str! "{\n") = 0 := by decide
      have e3 : opens (str! "}") = 0 ∧ closes (str! "}") = 1 := by decide
      omega
    · exact .mk h a _ ha (fun h => absurd h hnb) (fun h => absurd h hnb)
  | _, _, .line h a args ts ha hl hts, ht => by
    have h1 := noBrace_count (head_noBrace ha ht)
    have h2 := args_count hd (fun t hm => ht t (by simp [textss, hm])) hts
    have hnb : a.value ∉ blockRules := by
      intro hb
      revert hl hb
      generalize a.value = v
      intro hl hb
      simp only [lineRules, List.mem_cons, List.not_mem_nil, or_false] at hl
      rcases hl with rfl | rfl | rfl <;> revert hb <;> decide
    refine ⟨?_, fun _ => .mk h a _ ha (fun h => absurd h hnb) (fun h => absurd h hnb)⟩
    simp only [opens_append, closes_append, h1, h2]
    have e1 : opens (str! " ") = 0 ∧ closes (str! " ") = 0 := by decide
    have e2 : opens (str! ";\n") = 0 ∧ closes (str! ";\n") = 0 := by decide
    omega
  | _, _, .block h a args rules ts t ha hb hna hts hne hu, ht => by
    have h1 := noBrace_count (head_noBrace ha ht)
    have h2 := args_count hd (fun t hm => ht t (by simp [textss_append, textss, hm])) hts
    have h3 := sheet_excess hu (fun t hm => ht t (by simp [textss_append, textss, hm]))
    have e1 : opens (str! " ") = 0 ∧ closes (str! " ") = 0 := by decide
    have e2 : opens (str! "{\n") = 1 ∧ closes (str! "{\n") = 0 := by decide
    have e3 : opens (str! "}") = 0 ∧ closes (str! "}") = 1 := by decide
    simp only [opens_append, closes_append, h1, h2]
    refine ⟨by omega, fun he => ?_⟩
    have h4 := h3.2 (by omega)
    refine .mk h a _ ha (fun _ _ => ?_) (fun _ ns s e w hm => ?_)
    · cases rules with
      | nil => exact absurd rfl hne
      | cons n rules =>
        obtain ⟨ns, s, e, w, rfl, _⟩ := h4 n (by simp)
        exact ⟨ns, s, e, w, by simp⟩
    · rcases List.mem_append.1 hm with hm | hm
      · exact absurd rfl (hna _ hm ns s e w)
      · obtain ⟨ns', s', e', w', heq, hr⟩ := h4 _ hm
        cases heq
        exact hr
  | _, _, .bare h a args ts ha hb hna hts, ht => by
    have h1 := noBrace_count (head_noBrace ha ht)
    have h2 := args_count hd (fun t hm => ht t (by simp [textss, hm])) hts
    have e1 : opens (str! " ") = 0 ∧ closes (str! " ") = 0 := by decide
    have e3 : opens (str! "}") = 0 ∧ closes (str! "}") = 1 := by decide
    simp only [opens_append, closes_append, h1, h2]
    exact ⟨by omega, fun he => by omega⟩
theorem sheet_excess : ∀ {ns : List PNode} {t : Str}, SheetText dbg ns t → (∀ t ∈ textss ns, NoBrace t) →
    opens t ≤ closes t ∧ (opens t = closes t → SheetOk true ns)
  | _, _, .nil, _ => ⟨by simp [opens, closes], fun _ n hn => by simp at hn⟩
  | _, _, .cons ns s e w rest t u h hs, ht => by
    have h1 := rule_excess h (fun t hm => ht t (by simp [textss, texts, hm]))
    have h2 := sheet_excess hs (fun t hm => ht t (by simp [textss, hm]))
    have h3 := noBrace_count (ht w (by simp [textss, texts]))
    simp only [opens_append, closes_append, h3]
    refine ⟨by omega, fun he => ?_⟩
    have g1 := h1.2 (by omega)
    have g2 := h2.2 (by omega)
    intro n hn
    rcases List.mem_cons.1 hn with rfl | hn
    · exact ⟨_, _, _, _, rfl, g1⟩
    · exact g2 n hn
end

end

end Seam
