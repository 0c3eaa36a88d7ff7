import Verif.Lemmas.Cases
import Verif.Lemmas.Get
import Verif.Props.Lists

/-!
# Properties of `%get` (C47)

`vs` are the expanded arguments of the call `c`; `u` is the state after their expansion.
`Gets` (Spec/Builtins) says what it means to follow a path.
-/

namespace Seam
open Spec

/-- The options of `%get`. -/
example : NamedArgs (fun k v => k = str! "separator" ∧ ∃ a, Literal v a) [exStr ['a'], exAttr (str! "separator") (exStr ['.'])] := by
  intro k v s w h
  simp only [exStr, exAttr, List.mem_cons, List.not_mem_nil, or_false, reduceCtorEq, false_or, PNode.attr.injEq] at h
  obtain ⟨rfl, rfl, _⟩ := h
  exact ⟨rfl, _, .string _⟩

/-- C47: the result is the node at the end of the path, unchanged; if there is none it is
an error. -/
theorem C47_get (ext : Ext) (c pn v : PNode) (args vs : List PNode) (a : Node) (o : Option Node) (s u t : St)
    (r : Res (List PNode)) (hc : IsCall (str! "get") args c) (ha : Evals ext args s (.ok vs) u)
    (hp : positional vs = [pn, v]) (hl : Literal pn a)
    (hn : NamedArgs (fun k v => k = str! "separator" ∧ ∃ a, Literal v a) vs) (ho : Given (str! "separator") vs o)
    (hs : (o.map (·.value)).getD ['/'] ≠ []) :
    (∀ n, Evals ext [c] s (.ok [n]) t ↔ Gets ((o.map (·.value)).getD ['/']) a.value v n ∧ t = u) ∧
    ((∀ n, ¬ Gets ((o.map (·.value)).getD ['/']) a.value v n) → ∃ e, Evals ext [c] s (.err e) u) ∧
    (Evals ext [c] s r t → t = u ∧ ((∃ n, r = .ok [n]) ∨ ∃ e, r = .err e)) := by
  have key := fun r t => get_runs (r := r) (t := t) hc ha hp hl hn ho
  rcases getPath_cases (splitStr a.value ((o.map (·.value)).getD ['/'])) v with ⟨n, h⟩ | ⟨e, h⟩
  · have hg := (gets_iff hs).2 h
    refine ⟨fun m => ?_, fun hm => absurd hg (hm n), fun h' => ?_⟩
    · rw [key, gets_iff hs, h]
      constructor
      · rintro ⟨h1, h2⟩; cases h1; exact ⟨rfl, h2⟩
      · rintro ⟨h1, h2⟩; cases h1; exact ⟨rfl, h2⟩
    · obtain ⟨h1, h2⟩ := (key _ _).1 h'
      rw [h] at h1
      exact ⟨h2, Or.inl ⟨n, h1⟩⟩
  · refine ⟨fun m => ?_, fun hm => ⟨e, (key _ _).2 ⟨by rw [h]; rfl, rfl⟩⟩, fun h' => ?_⟩
    · rw [key, gets_iff hs, h]
      constructor
      · rintro ⟨h1, h2⟩; cases h1
      · rintro ⟨h1, h2⟩; cases h1
    · obtain ⟨h1, h2⟩ := (key _ _).1 h'
      rw [h] at h1
      exact ⟨h2, Or.inr ⟨e, h1⟩⟩

/-- C47: a path leads to one node at most. -/
theorem C47_unique (sep p : Str) (v n m : PNode) (hs : sep ≠ []) (h : Gets sep p v n) (h' : Gets sep p v m) : n = m := by
  rw [gets_iff hs] at h h'
  exact Res.ok.inj (h.symm.trans h')

/-- C47: with a separator of one character, following `p`, the separator and `q` is following
`p` and then `q`; `p` and `q` may have any number of components. -/
theorem C47_paths (d : Char) (p q : Str) (v n : PNode) :
    Gets [d] (p ++ [d] ++ q) v n ↔ ∃ m, Gets [d] p v m ∧ Gets [d] q m n := by
  simp only [gets_iff (List.cons_ne_nil d []), splitStr_char, getPath_append]
  rcases getPath_cases (splitStr p [d]) v with ⟨m, h⟩ | ⟨e, h⟩
  · rw [h]
    exact ⟨fun h' => ⟨m, rfl, h'⟩, fun ⟨m', h1, h2⟩ => by cases h1; exact h2⟩
  · rw [h]
    exact ⟨fun h' => (nomatch h'), fun ⟨m', h1, h2⟩ => (nomatch h1)⟩

/-- C47: `(%get "p/q" x)` has the same outcome as `(%get "q" (%get "p" x))`, for all paths
`p` and `q`, if `p` does not lead to an attribute. -/
theorem C47_compose (ext : Ext) (c c₁ c₂ x v : PNode) (a b ab : Node) (s u t : St) (r : Res (List PNode))
    (hc : IsCall (str! "get") [.string ab, x] c) (hc₁ : IsCall (str! "get") [.string a, x] c₁)
    (hc₂ : IsCall (str! "get") [.string b, c₁] c₂) (hab : ab.value = a.value ++ ['/'] ++ b.value)
    (hx : Evals ext [x] s (.ok [v]) u) (hv : ∀ k n si w, v ≠ .attr k n si w)
    (hg : ∀ m, Gets ['/'] a.value v m → ∀ k n si w, m ≠ .attr k n si w) :
    Evals ext [c] s r t ↔ Evals ext [c₂] s r t := by
  rw [get_two hc hx hv, hab, splitStr_char, getPath_append]
  have h₁ := fun r t => get_two (r := r) (t := t) hc₁ hx hv
  rcases getPath_cases (splitStr a.value ['/']) v with ⟨m, h⟩ | ⟨e, h⟩
  · have h2 : Evals ext [c₁] s (.ok [m]) u := (h₁ _ _).2 ⟨by rw [h]; rfl, rfl⟩
    rw [get_two hc₂ h2 (hg m ((gets_iff (by simp)).2 h)), h]
    exact Iff.rfl
  · have h2 : Evals ext [c₁] s (.err e) u := (h₁ _ _).2 ⟨by rw [h]; rfl, rfl⟩
    have h3 : Evals ext [c₂] s (.err e) u := eager_fails get_mem hc₂ (Spec.Evals.cons_fail (evals_string ext b s) h2 (by simp)) (by simp)
    rw [h]
    constructor
    · rintro ⟨rfl, rfl⟩; exact h3
    · intro h4
      exact h4.unique h3

/-- C47: if `p` leads to an attribute, both are errors. -/
theorem C47_compose_attribute (ext : Ext) (c c₁ c₂ x v m : PNode) (a b ab : Node) (s u : St)
    (hc : IsCall (str! "get") [.string ab, x] c) (hc₁ : IsCall (str! "get") [.string a, x] c₁)
    (hc₂ : IsCall (str! "get") [.string b, c₁] c₂) (hab : ab.value = a.value ++ ['/'] ++ b.value)
    (hx : Evals ext [x] s (.ok [v]) u) (hv : ∀ k n si w, v ≠ .attr k n si w)
    (hg : Gets ['/'] a.value v m) (hm : ∃ k n si w, m = .attr k n si w) :
    (∃ e, Evals ext [c] s (.err e) u) ∧ ∃ e, Evals ext [c₂] s (.err e) u := by
  obtain ⟨k, n, si, w, rfl⟩ := hm
  constructor
  · have h : ∀ y, ¬ Gets ['/'] ab.value v y := by
      intro y hy
      rw [hab, C47_paths] at hy
      obtain ⟨m, h1, h2⟩ := hy
      rw [C47_unique _ _ _ _ _ (by simp) h1 hg] at h2
      rw [gets_iff (by simp)] at h2
      exact getPath_attr (splitStr_ne_nil _ _) h2
    rcases getPath_cases (splitStr ab.value ['/']) v with ⟨y, hy⟩ | ⟨e, he⟩
    · exact absurd ((gets_iff (by simp)).2 hy) (h y)
    · exact ⟨e, (get_two hc hx hv).2 ⟨by rw [he]; rfl, rfl⟩⟩
  · have h2 : Evals ext [c₁] s (.ok [.attr k n si w]) u :=
      (get_two hc₁ hx hv).2 ⟨by rw [(gets_iff (by simp)).1 hg]; rfl, rfl⟩
    refine get_rejects hc₂ ((evals_string ext b s).cons h2) ?_
    rintro ⟨⟨p, v, a, h, _⟩, _⟩
    cases h

/-- C47: anything but a literal, a node and a literal separator is an error. -/
theorem C47_rejects (ext : Ext) (c : PNode) (args vs : List PNode) (s u : St) (hc : IsCall (str! "get") args c)
    (ha : Evals ext args s (.ok vs) u)
    (hn : ¬ ((∃ p v a, positional vs = [p, v] ∧ Literal p a) ∧ NamedArgs (fun k v => k = str! "separator" ∧ ∃ a, Literal v a) vs)) :
    ∃ e, Evals ext [c] s (.err e) u := get_rejects hc ha hn

/-- `(:b (10 :k 20))`. -/
def exGetList : PNode := exList [exAttr ['b'] (exList [exNum (str! "10"), exAttr ['k'] (exNum (str! "20"))])]

/-- The path `b/k` leads to `20`. -/
example : Gets ['/'] (str! "b/k") exGetList (exNum (str! "20")) := by
  refine (C47_paths '/' ['b'] ['k'] _ _).2 ⟨exList [exNum (str! "10"), exAttr ['k'] (exNum (str! "20"))], ?_, ?_⟩
  · exact (gets_iff (by simp)).2 rfl
  · exact (gets_iff (by simp)).2 rfl
/-- The path `b/2` leads nowhere. -/
example (n : PNode) : ¬ Gets ['/'] (str! "b/2") exGetList n := by
  rw [gets_iff (by simp)]
  obtain ⟨e, h⟩ : ∃ e, getPath exGetList (splitStr (str! "b/2") ['/']) = .err e := ⟨_, rfl⟩
  rw [h]
  exact nofun
/-- `(%get "b/0" (%list :b (10 :k 20)))` and `(%get "0" (%get "b" (%list …)))`. -/
example : ∃ t, Evals exExt [exList [exSym (str! "%get"), exStr (str! "b/0"), exGetList]] exSt (.ok [exNum (str! "10")]) t ∧
    true = true := evals_ok_of 10 (fun _ => true) (by decide +kernel)
example : ∃ t, Evals exExt [exList [exSym (str! "%get"), exStr ['0'], exList [exSym (str! "%get"), exStr ['b'], exGetList]]]
    exSt (.ok [exNum (str! "10")]) t ∧ true = true := evals_ok_of 10 (fun _ => true) (by decide +kernel)
/-- The hypotheses of `C47_compose`. -/
example : IsCall (str! "get") [exStr (str! "b/0"), exGetList] (exList [exSym (str! "%get"), exStr (str! "b/0"), exGetList]) ∧
    (∃ u, Evals exExt [exGetList] exSt (.ok [exGetList]) u ∧ true = true) ∧ (∀ k n si w, exGetList ≠ .attr k n si w) ∧
    ∀ m, Gets ['/'] ['b'] exGetList m → ∀ k n si w, m ≠ .attr k n si w :=
  ⟨.mk _ _ _ _ _ rfl rfl, evals_ok_of 10 (fun _ => true) (by decide +kernel), fun _ _ _ _ => nofun, fun m hm k n si w h => by
    have h' : Gets ['/'] ['b'] exGetList (exList [exNum (str! "10"), exAttr ['k'] (exNum (str! "20"))]) :=
      (gets_iff (by simp)).2 rfl
    have := C47_unique _ _ _ _ _ (by simp) hm h'
    rw [h] at this
    cases this⟩
/-- The hypotheses of `C47_get`: no separator is given. -/
example : positional [exStr ['b'], exGetList] = [exStr ['b'], exGetList] ∧ Given (str! "separator") [exStr ['b'], exGetList] none :=
  ⟨rfl, .absent rfl⟩

/-- The theorems on `(%get "b/0" (:b (10 :k 20)))`, `(%get "b" …)`, and `(%get "b")`. -/
example (s t : St) (r : Res (List PNode)) := C47_get exExt (exList [exSym (str! "%get"), exStr (str! "b/0"), exGetList])
  (exStr (str! "b/0")) exGetList _ _ _ none s s t r (.mk _ _ _ _ _ rfl rfl) (plain_evals _ _ _ rfl) rfl (.string _)
  (no_namedArgs _ rfl) (.absent rfl) (by simp)
example (s t : St) (r : Res (List PNode)) := C47_compose exExt (exList [exSym (str! "%get"), exStr (str! "b/0"), exGetList])
  (exList [exSym (str! "%get"), exStr ['b'], exGetList])
  (exList [exSym (str! "%get"), exStr ['0'], exList [exSym (str! "%get"), exStr ['b'], exGetList]]) exGetList exGetList _ _ _ s s t r
  (.mk _ _ _ _ _ rfl rfl) (.mk _ _ _ _ _ rfl rfl) (.mk _ _ _ _ _ rfl rfl) rfl (plain_evals _ _ _ rfl) (fun _ _ _ _ => nofun)
  (fun m hm k n si w h => by
    have h' : Gets ['/'] ['b'] exGetList (exList [exNum (str! "10"), exAttr ['k'] (exNum (str! "20"))]) :=
      (gets_iff (by simp)).2 rfl
    have := C47_unique _ _ _ _ _ (by simp) hm h'
    rw [h] at this
    cases this)
example (s : St) := C47_compose_attribute exExt (exList [exSym (str! "%get"), exStr (str! "0/0"), exGetList])
  (exList [exSym (str! "%get"), exStr ['0'], exGetList])
  (exList [exSym (str! "%get"), exStr ['0'], exList [exSym (str! "%get"), exStr ['0'], exGetList]]) exGetList exGetList
  (exAttr ['b'] (exList [exNum (str! "10"), exAttr ['k'] (exNum (str! "20"))])) _ _ _ s s
  (.mk _ _ _ _ _ rfl rfl) (.mk _ _ _ _ _ rfl rfl) (.mk _ _ _ _ _ rfl rfl) rfl (plain_evals _ _ _ rfl) (fun _ _ _ _ => nofun)
  ((gets_iff (by simp)).2 rfl) ⟨_, _, _, _, rfl⟩
example (s : St) := C47_rejects exExt (exList [exSym (str! "%get"), exStr ['b']]) _ [exStr ['b']] s s (.mk _ _ _ _ _ rfl rfl)
  (plain_evals _ _ _ rfl) (by rintro ⟨⟨_, _, _, h, _⟩, _⟩; simp [positional, exStr] at h)

end Seam
