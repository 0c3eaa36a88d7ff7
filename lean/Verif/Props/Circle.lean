import Verif.Lemmas.Circle
import Verif.Props.Include
import Verif.Props.Halt

/-! Files that include each other in a circle, and macros that are sure to use themselves (C95). -/

namespace Seam
open Spec

/-- C95: if a document cannot be expanded without including one of the paths `G`, and none of
these files can be expanded without including one of the paths `G`, then the expansion gives no
result, whatever is defined. -/
theorem C95_files (ext : Ext) (G : Str → Prop) (hG : Circular ext (fun _ => False) G) (ns : List PNode) (n : PNode) (hn : n ∈ ns)
    (hf : Forced (fun _ => False) G n) (s t : St) (out : List PNode) : ¬ Evals ext ns s (.ok out) t := by
  rintro ⟨_, fuel, h⟩
  rw [← watch_true] at h
  exact never_nodes (forced_never hG (fun _ _ _ h => h.elim) fuel hf) hn s out t h

/-- C95: the same for macros.  As long as all definitions that the macros `F` have during the run
are ones that cannot be expanded without using one of these macros (or including one of the files
`G`), there is no result. -/
theorem C95_macros (ext : Ext) (F G : Str → Prop) (hG : Circular ext F G) (ok : St → Bool) (hF : ∀ s, ok s = true → Recursive F G s)
    (ns : List PNode) (n : PNode) (hn : n ∈ ns) (hf : Forced F G n) (s t : St) (out : List PNode) :
    ¬ WatchEvals ext ok ns s (.ok out) t := by
  rintro ⟨_, fuel, h⟩
  exact never_nodes (forced_never hG hF fuel hf) hn s out t h

/-- C95: watching the states does not change the run. -/
theorem C95_same_run (ext : Ext) (ok : St → Bool) (ns : List PNode) (s t : St) (r : Res (List PNode)) (h : WatchEvals ext ok ns s r t) :
    Evals ext ns s r t := watchEvals_evals h

/-- C95: an error is not reported either: including a file that consists of nothing but
`(%include path)` for its own path has no outcome at all. -/
theorem C95_endless (ext : Ext) (path file code : Str) (hf : FirstRead ext (includeFiles ext path) file code) (c n : PNode) (a : Node)
    (hp : parse ext.unescape { path := file, id := 1, code := code } = .ok [c]) (hc : IsCall (str! "include") [n] c)
    (hl : Literal n a) (hm : MacroFree n) (ha : a.value = path) (s t : St) (r : Res (List PNode)) : ¬ Evals ext [c] s r t := by
  rintro ⟨hr, fuel, h⟩
  have := include_loop hf hp hc hl hm ha fuel s hc hl hm ha
  rw [expandNodes_one] at h
  rw [h] at this
  exact hr this

/-- C95: the way out is a guard: of a file that consists of `(%ifdef guard one other)` only the first
branch is expanded once `guard` is defined, so that the file may be included in the second one. -/
theorem C95_guard (ext : Ext) (c n d x one other : PNode) (a b : Node) (file code : Str) (s t : St) (r : Res (List PNode))
    (hc : IsCall (str! "include") [n] c) (hl : Literal n a) (hm : MacroFree n) (hf : FirstRead ext (includeFiles ext a.value) file code)
    (hp : parse ext.unescape { path := file, id := s.fresh, code := code } = .ok [d]) (hd : IsCall (str! "ifdef") [x, one, other] d)
    (hx : Literal x b) (hg : (s.scope b.value).isSome) :
    Evals ext [c] s r t ↔ ∃ r', Evals ext [one] { s with fresh := s.fresh + 1 } r' t ∧ r = spacedRes c.lw r' := by
  rw [C52_include ext c n [n] [d] a file code s s t r hc (macrosFree_evals ext [n] (.cons _ _ hm .nil) s) hl hf hp]
  have hdef := fun r' => C42_defined ext d x one b [other] { s with fresh := s.fresh + 1 } t r' (by simp) hd hx hg
  constructor
  · rintro ⟨r', h, rfl⟩
    obtain ⟨q, h1, rfl⟩ := (hdef r').1 h
    refine ⟨q, h1, ?_⟩
    cases q with
    | ok ns => cases ns with
      | nil => rfl
      | cons n ns => cases n <;> rfl
    | _ => rfl
  · rintro ⟨q, h, rfl⟩
    refine ⟨_, (hdef _).2 ⟨q, h, rfl⟩, ?_⟩
    cases q with
    | ok ns => cases ns with
      | nil => rfl
      | cons n ns => cases n <;> rfl
    | _ => rfl

/-- Two files that include each other: `./x` is `(p (%include "y"))`, `./y` is `(%list (%include "x"))`.
`./g` includes itself behind a guard, `./z` is nothing but its own inclusion. -/
def exCircle : Ext := { exExt with
  readFile := fun p =>
    if p = str! "./x" then some (str! "(p (%include y))")
    else if p = str! "./y" then some (str! "(%list (%include x))")
    else if p = str! "./z" then some (str! "(%include z)")
    else if p = str! "./g" then some (str! "(%ifdef seen q (%do (%define seen 1) (p (%include g))))")
    else none }

/-- `(p (%include y))`. -/
def exCircleX : PNode := exList [exSym ['p'], exList [exSym (str! "%include"), exSym ['y'] [' ']] [' ']]
/-- `(%list (%include x))`. -/
def exCircleY : PNode := exList [exSym (str! "%list"), exList [exSym (str! "%include"), exSym ['x'] [' ']] [' ']]

example : Circular exCircle (fun _ => False) (fun p => p = ['x'] ∨ p = ['y']) := by
  have hone : ∀ (p q code : Str) (m : PNode), (∀ file c, FirstRead exCircle (includeFiles exCircle p) file c → file = q ∧ c = code) →
      (parse exCircle.unescape { path := q, id := 1, code := code }).okP (fun tree => PNode.sames (unplaceds tree) (unplaceds [m])) = true →
      Forced (fun _ => False) (fun p => p = ['x'] ∨ p = ['y']) m →
      ∀ file c tree, FirstRead exCircle (includeFiles exCircle p) file c → parse exCircle.unescape { path := file, id := 1, code := c } = .ok tree →
      ∃ n ∈ tree, Forced (fun _ => False) (fun p => p = ['x'] ∨ p = ['y']) n := by
    intro p q code m h1 h2 h3 file c tree hr hp
    obtain ⟨rfl, rfl⟩ := h1 file c hr
    rw [hp] at h2
    have h4 := unplaceds_moved (PNode.sames_sound _ _ h2).symm
    cases h4 with
    | cons _ n _ _ h h' => exact ⟨n, List.mem_cons_self .., forced_moved h h3⟩
  rintro path (rfl | rfl) file code tree
  · refine hone _ (str! "./x") (str! "(p (%include y))") exCircleX (fun file c h => (firstRead_head rfl).1 h) (by decide +kernel) ?_ file code tree
    exact .list _ (exList [exSym (str! "%include"), exSym ['y'] [' ']] [' ']) _ _ _
      (fun a t h => by cases h; exact exWord _ (by decide)) (by simp) (.include_ _ (exSym ['y']) ⟨['y'], default, []⟩
        (.mk _ _ _ _ _ rfl rfl) (.symbol _) (.symbol _ (exWord _ (by decide))) (Or.inr rfl))
  · refine hone _ (str! "./y") (str! "(%list (%include x))") exCircleY (fun file c h => (firstRead_head rfl).1 h) (by decide +kernel) ?_ file code tree
    exact .arg _ (exList [exSym (str! "%include"), exSym ['x'] [' ']]) (str! "list") _ (.mk _ _ _ _ _ rfl rfl)
      (Or.inr (Or.inl (by simp [eager]))) (List.mem_cons_self ..) (.include_ _ (exSym ['x']) ⟨['x'], default, []⟩
        (.mk _ _ _ _ _ rfl rfl) (.symbol _) (.symbol _ (exWord _ (by decide))) (Or.inl rfl))

example : ∃ (c n : PNode) (a : Node), FirstRead exCircle (includeFiles exCircle ['z']) (str! "./z") (str! "(%include z)") ∧
    parse exCircle.unescape { path := str! "./z", id := 1, code := str! "(%include z)" } = .ok [c] ∧
    IsCall (str! "include") [n] c ∧ Literal n a ∧ MacroFree n ∧ a.value = ['z'] := by
  have h : (parse exCircle.unescape { path := str! "./z", id := 1, code := str! "(%include z)" }).okP (fun tree =>
      PNode.sames (unplaceds tree) (unplaceds [exList [exSym (str! "%include"), exSym ['z'] [' ']]])) = true := by decide +kernel
  obtain ⟨tree, h1, h2⟩ := Res.okP_elim h
  have h4 := unplaceds_moved (PNode.sames_sound _ _ h2).symm
  cases h4 with
  | cons _ c _ _ h h' =>
    cases h'
    obtain ⟨args, hc, hargs⟩ := isCall_moved h (name := str! "include") (args := [exSym ['z']]) (.mk _ _ _ _ _ rfl rfl)
    cases hargs with
    | cons _ n _ _ hn hnil =>
      cases hnil
      obtain ⟨b, hb, hv⟩ := literal_moved hn (a := ⟨['z'], default, []⟩) (.symbol _)
      exact ⟨c, n, b, (firstRead_head rfl).2 ⟨rfl, rfl⟩, h1, hc, hb, macroFree_moved hn (.symbol _ (exWord _ (by decide))), hv⟩

/-- With the guard the file can be included. -/
example : ∃ out t, Evals exCircle [exList [exSym (str! "%include"), exSym ['g'] [' ']]] exSt (.ok out) t ∧
    textNodes out = str! "(p q)" := by
  obtain ⟨out, t, h1, h2⟩ := evals_some_of (ext := exCircle) (ns := [exList [exSym (str! "%include"), exSym ['g'] [' ']]]) (s := exSt)
    20 (fun out => decide (textNodes out = str! "(p q)")) (by decide +kernel)
  exact ⟨out, t, h1, of_decide_eq_true h2⟩

/-- `(%define (f x) (p %x (%f %x)))`. -/
def exForever : Macro := { params := [exSym ['x']], body := [exList [exSym ['p'], exSym (str! "%x"), exList [exSym (str! "%f"), exSym (str! "%x")]]] }

example : Forced (fun f => f = ['f']) (fun _ => False) (exList [exSym (str! "%f"), exSym ['a']]) ∧
    Circular exExt (fun f => f = ['f']) (fun _ => False) ∧
    (∀ s : St, (match s.scope ['f'] with | some m => PNode.sames m.body exForever.body | none => false) = true →
      Recursive (fun f => f = ['f']) (fun _ => False) s) := by
  refine ⟨.call _ ['f'] _ (.mk _ _ _ _ _ rfl rfl) rfl rfl, fun _ h => h.elim, ?_⟩
  rintro s h f rfl
  rcases hs : s.scope ['f'] with _ | m
  · rw [hs] at h; cases h
  · rw [hs] at h
    refine ⟨m, rfl, ?_⟩
    rw [PNode.sames_sound _ _ h]
    exact ⟨_, List.mem_cons_self .., .list _ (exList [exSym (str! "%f"), exSym (str! "%x")]) _ _ _
      (fun a t h => by cases h; exact exWord _ (by decide)) (by simp) (.call _ ['f'] _ (.mk _ _ _ _ _ rfl rfl) rfl rfl)⟩

end Seam
