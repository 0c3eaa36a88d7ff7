import Verif.Lemmas.Loaded
import Verif.Props.Bind
import Verif.Props.Include

/-!
# Source text that nodes refer to (C83)

See Spec/Loaded for which files a call of a macro drops.
-/

namespace Seam
open Spec

/-- C83: the definitions, the log and the result of an expansion refer only to files that have
been read so far, and so does an error. -/
theorem C83_loaded (ext : Ext) (ns : List PNode) (s t : St) (r : Res (List PNode)) (h : Evals ext ns s r t) (hs : Loaded s)
    (hf : Fair s.order) (hb : Below s.fresh ns) :
    Loaded t ∧ (∀ ms, r = .ok ms → Below t.fresh ms) ∧ ∀ e, r = .err e → e.site.buf < t.fresh := by
  obtain ⟨h1, h2⟩ := evals_below h hs hf hb
  refine ⟨h1, ?_, ?_⟩
  · rintro ms rfl; exact h2
  · rintro e rfl; exact h2

/-- C83: at the beginning of a run this is so: nothing is defined, and the nodes refer to the
main source. -/
theorem C83_start (order : Order) (u : Unescape) (path code : Str) (ns : List PNode)
    (h : parse u { path := path, id := 1, code := code } = .ok ns) : Loaded (St.init order) ∧ Below (St.init order).fresh ns := by
  refine ⟨⟨fun _ _ h => by simp [St.init, Scope.empty] at h, fun _ h => by simp [St.init] at h⟩, fun x hx => ?_⟩
  rw [parse_buf h x hx]
  exact (by decide : 1 < 2)

/-- C83, for calls that include no files: the result of a call of a user macro refers to none of
the files dropped by the call. Missing: calls that include files, see `C83_call_false`. -/
theorem C83_call_partial (ext : Ext) (c : PNode) (vs ms : List PNode) (s u t : St) (m : Macro) (_ : UserCall ext c s vs u m)
    (hs : Loaded s) (hf : Fair s.order) (hb : Below s.fresh [c]) (h : Evals ext [c] s (.ok ms) t) (hn : t.fresh = u.fresh) :
    ∀ x ∈ sitess ms, ¬ ReadBetween u t x ∧ x.buf < u.fresh := by
  intro x hx
  have h1 := (C83_loaded ext [c] s t _ h hs hf hb).2.1 ms rfl x hx
  exact ⟨fun ⟨h2, h3⟩ => by omega, by omega⟩

/-- C83, the same for any nodes: if no file is included from `s` to `t`, the result and all
definitions refer to files read before. -/
theorem C83_nothing_read_partial (ext : Ext) (ns ms : List PNode) (s t : St) (hs : Loaded s) (hf : Fair s.order)
    (hb : Below s.fresh ns) (h : Evals ext ns s (.ok ms) t) (hn : t.fresh = s.fresh) :
    Below s.fresh ms ∧ ∀ name m, t.scope name = some m → Below s.fresh m.params ∧ Below s.fresh m.body := by
  obtain ⟨h1, h2, _⟩ := C83_loaded ext ns s t _ h hs hf hb
  rw [← hn]
  exact ⟨h2 ms rfl, h1.scope⟩

/-- C83: a call of a user macro leaves no definition behind that refers to a file dropped by the
call, whether or not it includes files. -/
theorem C83_definitions (ext : Ext) (c : PNode) (vs ms : List PNode) (s u t : St) (m : Macro) (hc : UserCall ext c s vs u m)
    (hs : Loaded s) (hf : Fair s.order) (hb : Below s.fresh [c]) (h : Evals ext [c] s (.ok ms) t) (name : Str) (d : Macro)
    (hd : t.scope name = some d) : ∀ x ∈ sitess d.params ++ sitess d.body, ¬ ReadBetween u t x := by
  obtain ⟨v, _, _, h3⟩ := ran_body hc hf h
  obtain ⟨t', _, rfl⟩ := (h3 _ _).1 h
  obtain ⟨fn, args, hcall, _, ha, _⟩ := hc
  have hu := (evals_below ha hs hf (below_args hcall hb)).1.scope name d hd
  intro x hx hr
  rcases List.mem_append.1 hx with hx | hx
  · exact absurd (hu.1 x hx) (by have := hr.1; omega)
  · exact absurd (hu.2 x hx) (by have := hr.1; omega)

/-- C83, what is false: a call of a macro whose body is an `%include` gives the nodes of the
file, and every one of them refers to the file, which is dropped at the end of the call. -/
theorem C83_call_false (ext : Ext) (c i n : PNode) (vs tree : List PNode) (a : Node) (file code : Str) (s u : St) (m : Macro)
    (hc : UserCall ext c s vs u m) (hf : Fair s.order) (sc : Scope) (hm : MatchesList m.params vs u.scope sc)
    (hbody : m.body = [i]) (hi : IsCall (str! "include") [n] i) (hn : n = .string a)
    (hr : FirstRead ext (includeFiles ext a.value) file code)
    (hp : parse ext.unescape { path := file, id := u.fresh, code := code } = .ok tree) (ht : MacrosFree tree) :
    ∃ t, Evals ext [c] s (.ok (firstSpaced i.lw tree)) t ∧ t.scope = u.scope ∧
      ∀ x ∈ sitess (firstSpaced i.lw tree), ReadBetween u t x := by
  obtain ⟨v, _, h2, h3⟩ := C38_call_matching ext c vs s u m hc hf sc hm
  subst hn
  have he : Evals ext [i] v (.ok (firstSpaced i.lw tree)) { v with fresh := v.fresh + 1 } := by
    refine (C52_include ext i _ _ tree a file code v v _ _ hi
      (macrosFree_evals ext _ (.cons _ _ (.string a) .nil) v) (.string a) hr (by rw [h2.2.1]; exact hp)).2 ?_
    exact ⟨.ok tree, macrosFree_evals ext _ ht _, rfl⟩
  refine ⟨_, (h3 _ _).2 ⟨{ v with fresh := v.fresh + 1 }, by rw [hbody]; exact he, rfl⟩, rfl, ?_⟩
  intro x hx
  rw [sitess_firstLw] at hx
  have := parse_buf hp x hx
  exact ⟨Nat.le_of_eq this.symm, by show x.buf < v.fresh + 1; rw [this, h2.2.1]; exact Nat.lt_succ_self _⟩

/-- `(%define (f) (%include x))`, with the file of `exFiles` but without definitions. -/
def exPlainFile : Ext := { exFiles with readFile := fun p => if p = str! "b/x.sex" then some (str! "p") else none }
/-- The macro `f` with the body `(%include "x")`. -/
def exIncluder : Macro := { params := [], body := [exList [exSym (str! "%include"), exStr ['x']]] }
/-- The state in which it is defined. -/
def exIncludeSt : St := { exSt with scope := exSt.scope.insert ['f'] exIncluder }

example : UserCall exPlainFile (exList [exSym (str! "%f")]) exIncludeSt [] exIncludeSt exIncluder :=
  .mk ['f'] [] (.mk _ _ _ _ _ rfl rfl) rfl (macrosFree_evals _ _ .nil _) rfl
example : Loaded exIncludeSt := by
  refine ⟨fun name m h => ?_, fun l h => absurd h (by simp [exIncludeSt, exSt, St.init])⟩
  simp only [exIncludeSt, Scope.insert, exSt, St.init, Scope.empty] at h
  split at h
  · cases h
    exact ⟨by unfold Below; decide, by unfold Below; decide⟩
  · cases h
example : MatchesList exIncluder.params [] exIncludeSt.scope exIncludeSt.scope :=
  .mk [] [] [] [] _ _ _ _ _ rfl (.nil _) (.inl ⟨rfl, rfl, rfl⟩) (fun _ => rfl) (.inl ⟨rfl, fun _ _ => rfl, rfl⟩)
/-- `(%f)` gives the node `p` of the file with the number 2, and 3 is the next number. -/
example : ∃ t, Evals exPlainFile [exList [exSym (str! "%f")]] exIncludeSt
    (.ok [.symbol ⟨['p'], ⟨str! "b/x.sex", 2, ['p'], 1, 0, 0, 1⟩, []⟩]) t ∧ (t.fresh == 3) = true :=
  evals_ok_of 10 (fun t => t.fresh == 3) (by decide +kernel)

/-- `(%include "x")`. -/
def exLoad : PNode := exList [exSym (str! "%include"), exStr ['x']]
/-- The node `p` as read from the file `b/x.sex`, which contains only it. -/
def exLoadedNode (lw : Str) : PNode := .symbol ⟨['p'], ⟨str! "b/x.sex", 2, ['p'], 1, 0, 0, 1⟩, lw⟩

/-- C83, what is false: `%namespace` expands its body in a copy of the context and drops the copy
with the files it has included (expander.rs:1092), but the definitions made by such a file stay, under
the name of the namespace, and refer to it: `(%namespace n (%include "x"))`, where the file
contains `(%define v 1)p`, defines `n/v`, which refers to the file read and dropped between the
two states, and so does the result `p`. -/
theorem C83_namespace_false : ∃ t x p, Evals exFiles [exList [exSym (str! "%namespace"), exSym ['n'], exLoad]] exSt (.ok [p]) t ∧
    (t.scope (str! "n/v")).map (fun m => sitess m.body) = some [x] ∧ ReadBetween exSt t x ∧ ReadBetween exSt t p.site := by
  obtain ⟨t, h1, h2⟩ : ∃ t, Evals exFiles [exList [exSym (str! "%namespace"), exSym ['n'], exLoad]] exSt
      (.ok [.symbol ⟨['p'], ⟨str! "b/x.sex", 2, str! "(%define v 1)p", 1, 13, 13, 1⟩, []⟩]) t ∧
      (decide ((t.scope (str! "n/v")).map (fun m => sitess m.body) = some [⟨str! "b/x.sex", 2, str! "(%define v 1)p", 1, 11, 11, 1⟩]) &&
        t.fresh == 3) = true :=
    evals_ok_of 10 (fun t => decide ((t.scope (str! "n/v")).map (fun m => sitess m.body) =
      some [⟨str! "b/x.sex", 2, str! "(%define v 1)p", 1, 11, 11, 1⟩]) && t.fresh == 3) (by decide +kernel)
  rw [Bool.and_eq_true] at h2
  have h3 : t.fresh = 3 := by simpa using h2.2
  exact ⟨t, _, _, h1, of_decide_eq_true h2.1, ⟨by decide, by rw [h3]; decide⟩, ⟨by decide, by rw [h3]; decide⟩⟩

/-- C83, what is false: `%for` expands its body in a copy of the context (expander.rs:1142) and
`%match` the chosen branch (expander.rs:482), so that the result of
`(%for y in (a) (%include "x"))` and of `(%match a (y (%include "x")))` refers to a file that
has been dropped. -/
theorem C83_branches_false : ∀ c ∈ [exList [exSym (str! "%for"), exSym ['y'], exSym (str! "in"), exList [exSym ['a']], exLoad],
      exList [exSym (str! "%match"), exSym ['a'], exList [exSym ['y'], exLoad]]],
    ∃ t, Evals exPlainFile [c] exSt (.ok [exLoadedNode []]) t ∧ ReadBetween exSt t (exLoadedNode []).site := by
  have hb : ∀ t : St, (t.fresh == 3) = true → ReadBetween exSt t (exLoadedNode []).site := by
    intro t h
    have h3 : t.fresh = 3 := by simpa using h
    exact ⟨by decide, by rw [h3]; decide⟩
  intro c hc
  simp only [List.mem_cons, List.not_mem_nil, or_false] at hc
  rcases hc with rfl | rfl
  · obtain ⟨t, h1, h2⟩ := evals_ok_of (ext := exPlainFile)
      (ns := [exList [exSym (str! "%for"), exSym ['y'], exSym (str! "in"), exList [exSym ['a']], exLoad]])
      (out := [exLoadedNode []]) (s := exSt) 10 (fun t => t.fresh == 3) (by decide +kernel)
    exact ⟨t, h1, hb t h2⟩
  · obtain ⟨t, h1, h2⟩ := evals_ok_of (ext := exPlainFile)
      (ns := [exList [exSym (str! "%match"), exSym ['a'], exList [exSym ['y'], exLoad]]])
      (out := [exLoadedNode []]) (s := exSt) 10 (fun t => t.fresh == 3) (by decide +kernel)
    exact ⟨t, h1, hb t h2⟩

end Seam
