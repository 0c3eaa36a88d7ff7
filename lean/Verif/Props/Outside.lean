import Verif.Lemmas.Cases
import Verif.Lemmas.Outside
import Verif.Lemmas.EvalCheck
import Verif.Props.Data

/-!
# Properties of `%markdown`, `%log` and `%os/env` (C65–C67)

`vs` are the expanded arguments of the call `c`; `u` is the state after their expansion.
The markdown renderer, the finder of front matter and the environment are parameters
(`ext.mdHtml`, `ext.mdFront`, `ext.envVar`).
-/

namespace Seam
open Spec

/-! ## C65 -/

/-- C65: without `:only` the front matter becomes variables and the call becomes the rendered
text, unescaped. -/
theorem C65_markdown (ext : Ext) (c x : PNode) (args vs : List PNode) (a : Node) (o : Option Node) (s u : St)
    (hc : IsCall (str! "markdown") args c) (ha : Evals ext args s (.ok vs) u)
    (hp : positional vs = [x]) (hl : x = .string a ∨ x = .raw a) (hn : NamedArgs MarkdownOption vs)
    (honly : Given (str! "only") vs none) (ho : Given (str! "separator") vs o)
    (d : Data) (hd : FrontData ext a.value d) (html : Str) (hm : ext.mdHtml a.value = some html) :
    ∃ t, Evals ext [c] s (.ok [.raw ⟨html, c.site, c.lw⟩]) t ∧ t = { u with scope := t.scope } ∧
      DefinesPaths c.site ((o.map (·.value)).getD ['/']) d u.scope t.scope := by
  obtain ⟨t, h1, h2, h3⟩ := frontData_run hd ((o.map (·.value)).getD ['/']) c a.site u
  refine ⟨t, (markdown_runs hc ha hp hl hn honly ho).2 ⟨by simp, ?_⟩, h2, h3⟩
  unfold markdownBody
  rw [hm]
  show (ignoreErr _ >>= fun _ => _) u = _
  rw [M.bind_ok (show ignoreErr _ u = (.ok (), t) by unfold ignoreErr; rw [h1])]
  rfl

/-- C65: without `:only`, a text without front matter is just rendered, and defines nothing. -/
theorem C65_no_front (ext : Ext) (c x : PNode) (args vs : List PNode) (a : Node) (o : Option Node) (s u : St)
    (hc : IsCall (str! "markdown") args c) (ha : Evals ext args s (.ok vs) u)
    (hp : positional vs = [x]) (hl : x = .string a ∨ x = .raw a) (hn : NamedArgs MarkdownOption vs)
    (honly : Given (str! "only") vs none) (ho : Given (str! "separator") vs o)
    (hd : ext.mdFront a.value = .none) (html : Str) (hm : ext.mdHtml a.value = some html) :
    Evals ext [c] s (.ok [.raw ⟨html, c.site, c.lw⟩]) u := by
  refine (markdown_runs hc ha hp hl hn honly ho).2 ⟨by simp, ?_⟩
  unfold markdownBody
  rw [hm]
  show (ignoreErr _ >>= fun _ => _) u = _
  rw [M.bind_ok (show ignoreErr _ u = (.ok (), u) by unfold ignoreErr frontmatter; rw [hd]; rfl)]
  rfl

/-- C65: with `:only content` the text is rendered and nothing is defined, whatever the
front matter is. -/
theorem C65_only_content (ext : Ext) (c x : PNode) (args vs : List PNode) (a n : Node) (o : Option Node) (s u : St)
    (hc : IsCall (str! "markdown") args c) (ha : Evals ext args s (.ok vs) u)
    (hp : positional vs = [x]) (hl : x = .string a ∨ x = .raw a) (hn : NamedArgs MarkdownOption vs)
    (honly : Given (str! "only") vs (some n)) (hv : n.value = str! "content") (ho : Given (str! "separator") vs o)
    (html : Str) (hm : ext.mdHtml a.value = some html) :
    Evals ext [c] s (.ok [.raw ⟨html, c.site, c.lw⟩]) u := by
  refine (markdown_runs hc ha hp hl hn honly ho).2 ⟨by simp, ?_⟩
  unfold markdownBody
  rw [hm]
  simp only [hv]
  rfl

/-- C65: with `:only frontmatter` the variables are defined, and the call leaves nothing behind,
whether or not the text can be rendered. -/
theorem C65_only_frontmatter (ext : Ext) (c x : PNode) (args vs : List PNode) (a n : Node) (o : Option Node) (s u : St)
    (hc : IsCall (str! "markdown") args c) (ha : Evals ext args s (.ok vs) u)
    (hp : positional vs = [x]) (hl : x = .string a ∨ x = .raw a) (hn : NamedArgs MarkdownOption vs)
    (honly : Given (str! "only") vs (some n)) (hv : n.value = str! "frontmatter") (ho : Given (str! "separator") vs o)
    (d : Data) (hd : FrontData ext a.value d) :
    ∃ t, Evals ext [c] s (.ok []) t ∧ t = { u with scope := t.scope } ∧
      DefinesPaths c.site ((o.map (·.value)).getD ['/']) d u.scope t.scope := by
  obtain ⟨t, h1, h2, h3⟩ := frontData_run hd ((o.map (·.value)).getD ['/']) c a.site u
  refine ⟨t, (markdown_runs hc ha hp hl hn honly ho).2 ⟨by simp, ?_⟩, h2, h3⟩
  unfold markdownBody
  simp only [hv, if_true]
  rw [M.bind_ok h1]
  rfl

/-- C65: with `:only frontmatter`, a text without front matter is an error at the text. -/
theorem C65_missing_frontmatter (ext : Ext) (c x : PNode) (args vs : List PNode) (a n : Node) (o : Option Node) (s u : St)
    (hc : IsCall (str! "markdown") args c) (ha : Evals ext args s (.ok vs) u)
    (hp : positional vs = [x]) (hl : x = .string a ∨ x = .raw a) (hn : NamedArgs MarkdownOption vs)
    (honly : Given (str! "only") vs (some n)) (hv : n.value = str! "frontmatter") (ho : Given (str! "separator") vs o)
    (hd : ext.mdFront a.value = .none) :
    Evals ext [c] s (.err (expErr "This markdown does not contain any frontmatter." a.site)) u := by
  refine (markdown_runs hc ha hp hl hn honly ho).2 ⟨by simp, ?_⟩
  unfold markdownBody
  simp only [hv, if_true]
  unfold frontmatter
  rw [hd]
  rfl

/-- C65: a text that cannot be rendered is an error at the text. -/
theorem C65_not_rendered (ext : Ext) (c x : PNode) (args vs : List PNode) (a n : Node) (o : Option Node) (s u : St)
    (hc : IsCall (str! "markdown") args c) (ha : Evals ext args s (.ok vs) u)
    (hp : positional vs = [x]) (hl : x = .string a ∨ x = .raw a) (hn : NamedArgs MarkdownOption vs)
    (honly : Given (str! "only") vs (some n)) (hv : n.value = str! "content") (ho : Given (str! "separator") vs o)
    (hm : ext.mdHtml a.value = none) :
    Evals ext [c] s (.err (expErr "Failed to render markdown." a.site)) u := by
  refine (markdown_runs hc ha hp hl hn honly ho).2 ⟨by simp, ?_⟩
  unfold markdownBody
  rw [hm]
  simp only [hv]
  rfl

/-- C65: without `:only` a fault in the front matter is ignored: the call becomes the rendered text,
and what was defined before the fault, as a call with `:only frontmatter` in the same place does, stays
defined. -/
theorem C65_faults (ext : Ext) (c c' x x' : PNode) (args args' vs vs' : List PNode) (a n : Node) (o : Option Node) (s s' u t : St)
    (hc : IsCall (str! "markdown") args c) (ha : Evals ext args s (.ok vs) u)
    (hp : positional vs = [x]) (hl : x = .string a ∨ x = .raw a) (hn : NamedArgs MarkdownOption vs)
    (honly : Given (str! "only") vs none) (ho : Given (str! "separator") vs o)
    (hc' : IsCall (str! "markdown") args' c') (ha' : Evals ext args' s' (.ok vs') u)
    (hp' : positional vs' = [x']) (hl' : x' = .string a ∨ x' = .raw a) (hn' : NamedArgs MarkdownOption vs')
    (honly' : Given (str! "only") vs' (some n)) (hv : n.value = str! "frontmatter") (ho' : Given (str! "separator") vs' o)
    (hs : c.site = c'.site) (html : Str) (hm : ext.mdHtml a.value = some html) (r : Res (List PNode)) (hr : r ≠ .panic)
    (h : Evals ext [c'] s' r t) :
    Evals ext [c] s (.ok [.raw ⟨html, c.site, c.lw⟩]) t := by
  obtain ⟨h1, h⟩ := (markdown_runs hc' ha' hp' hl' hn' honly' ho').1 h
  refine (markdown_runs hc ha hp hl hn honly ho).2 ⟨by simp, ?_⟩
  have hf : frontmatter ext a.value ((o.map (·.value)).getD ['/']) c a.site = frontmatter ext a.value ((o.map (·.value)).getD ['/']) c' a.site := by
    unfold frontmatter
    rw [hs]
  unfold markdownBody at h ⊢
  rw [hm]
  simp only [hv, if_true] at h ⊢
  rw [hf]
  rw [M.bind_def] at h ⊢
  unfold ignoreErr
  rcases hq : frontmatter ext a.value ((o.map (·.value)).getD ['/']) c' a.site u with ⟨r', t'⟩
  rw [hq] at h
  cases r' with
  | ok _ => cases h; simp only [hq]; rfl
  | err e => cases h; simp only [hq]; rfl
  | panic => cases h; exact absurd rfl hr
  | diverge => cases h; exact absurd rfl h1

/-- A renderer, and front matter `n = "x"` in TOML. -/
def exMd : Ext := { exExt with
  mdHtml := fun _ => some (str! "<b>")
  mdFront := fun _ => .toml []
  toml := fun _ => some [(['n'], .str ['x'])] }

example : FrontData exMd [] (.entries [(['n'], .text ['x'])]) := .toml [] [(['n'], .str ['x'])] rfl rfl rfl

/-- `(%markdown "" :only o)`. -/
def exMdCall (o : List PNode) : PNode := exList (exSym (str! "%markdown") :: exStr (str! "") :: o)

example : ∃ t, Evals exMd [exMdCall []] exSt (.ok [.raw ⟨str! "<b>", (exMdCall []).site, (exMdCall []).lw⟩]) t ∧
    (t.scope ['n']).isSome = true := evals_ok_of 9 _ (by decide +kernel)

example : ∃ t, Evals exMd [exMdCall [exAttr (str! "only") (exSym (str! "frontmatter"))]] exSt (.ok []) t ∧
    (t.scope ['n']).isSome = true := evals_ok_of 9 _ (by decide +kernel)

example : ∃ t, Evals exMd [exMdCall [exAttr (str! "only") (exSym (str! "content"))]] exSt
    (.ok [.raw ⟨str! "<b>", (exMdCall []).site, (exMdCall []).lw⟩]) t ∧
    (t.scope ['n']).isNone = true := evals_ok_of 9 _ (by decide +kernel)

/-- Front matter that is broken behind the entry `n: x`. -/
def exMdBad : Ext := { exMd with
  mdFront := fun _ => .yaml []
  yaml := fun _ => ([.mapStart, .scalar ['n'], .scalar ['x']], false) }

example : (∃ t, Evals exMdBad [exMdCall []] exSt (.ok [.raw ⟨str! "<b>", (exMdCall []).site, (exMdCall []).lw⟩]) t ∧
    (t.scope ['n']).isSome = true) ∧
    ∃ e t, Evals exMdBad [exMdCall [exAttr (str! "only") (exSym (str! "frontmatter"))]] exSt (.err e) t ∧ (fun _ => true) e = true :=
  ⟨evals_ok_of 9 _ (by decide +kernel), evals_err_of 9 _ (by decide +kernel)⟩

/-- The theorems on these calls. -/
example (s : St) := C65_markdown exMd (exMdCall []) (exStr []) _ _ _ none s s (.mk _ _ _ _ _ rfl rfl) (plain_evals _ _ _ rfl) rfl
  (.inl rfl) (no_namedArgs _ rfl) (.absent rfl) (.absent rfl) (.entries [(['n'], .text ['x'])])
  (.toml [] [(['n'], .str ['x'])] rfl rfl rfl) _ rfl
example (s : St) := C65_no_front { exExt with mdHtml := fun _ => some (str! "<b>") } (exMdCall []) (exStr []) _ _ _ none s s
  (.mk _ _ _ _ _ rfl rfl) (plain_evals _ _ _ rfl) rfl (.inl rfl) (no_namedArgs _ rfl) (.absent rfl) (.absent rfl) rfl _ rfl
example (s : St) := C65_only_content exMd (exMdCall [exAttr (str! "only") (exSym (str! "content"))]) (exStr []) _ _ _ _ none s s
  (.mk _ _ _ _ _ rfl rfl) (plain_evals _ _ _ rfl) rfl (.inl rfl) (one_namedArg _ _ _ rfl (.inl ⟨rfl, _, .symbol _, by simp⟩))
  (.literal _ _ rfl (.symbol _)) rfl (.absent rfl) _ rfl
example (s : St) := C65_only_frontmatter exMd (exMdCall [exAttr (str! "only") (exSym (str! "frontmatter"))]) (exStr []) _ _ _ _ none s s
  (.mk _ _ _ _ _ rfl rfl) (plain_evals _ _ _ rfl) rfl (.inl rfl) (one_namedArg _ _ _ rfl (.inl ⟨rfl, _, .symbol _, by simp⟩))
  (.literal _ _ rfl (.symbol _)) rfl (.absent rfl) (.entries [(['n'], .text ['x'])]) (.toml [] [(['n'], .str ['x'])] rfl rfl rfl)
example (s : St) := C65_missing_frontmatter exExt (exMdCall [exAttr (str! "only") (exSym (str! "frontmatter"))]) (exStr []) _ _ _ _ none
  s s (.mk _ _ _ _ _ rfl rfl) (plain_evals _ _ _ rfl) rfl (.inl rfl) (one_namedArg _ _ _ rfl (.inl ⟨rfl, _, .symbol _, by simp⟩))
  (.literal _ _ rfl (.symbol _)) rfl (.absent rfl) rfl
example (s : St) := C65_not_rendered exExt (exMdCall [exAttr (str! "only") (exSym (str! "content"))]) (exStr []) _ _ _ _ none
  s s (.mk _ _ _ _ _ rfl rfl) (plain_evals _ _ _ rfl) rfl (.inl rfl) (one_namedArg _ _ _ rfl (.inl ⟨rfl, _, .symbol _, by simp⟩))
  (.literal _ _ rfl (.symbol _)) rfl (.absent rfl) rfl
example (s t : St) (r : Res (List PNode)) (hr : r ≠ .panic)
    (h : Evals exMd [exMdCall [exAttr (str! "only") (exSym (str! "frontmatter"))]] s r t) :=
  C65_faults exMd (exMdCall []) (exMdCall [exAttr (str! "only") (exSym (str! "frontmatter"))]) (exStr []) (exStr []) _ _ _ _ _ _ none
    s s s t (.mk _ _ _ _ _ rfl rfl) (plain_evals _ _ _ rfl) rfl (.inl rfl) (no_namedArgs _ rfl) (.absent rfl) (.absent rfl)
    (.mk _ _ _ _ _ rfl rfl) (plain_evals _ _ _ rfl) rfl (.inl rfl) (one_namedArg _ _ _ rfl (.inl ⟨rfl, _, .symbol _, by simp⟩))
    (.literal _ _ rfl (.symbol _)) rfl (.absent rfl) rfl _ rfl r hr h

/-! ## C66 -/

/-- C66: `%log` prints its arguments, after those of earlier calls, and leaves nothing behind. -/
theorem C66_log (ext : Ext) (c : PNode) (args vs : List PNode) (words : List Str) (s u : St)
    (hc : IsCall (str! "log") args c) (ha : Evals ext args s (.ok vs) u) (hv : Values vs words) :
    Evals ext [c] s (.ok []) { u with log := u.log ++ [{ site := c.site, words := words }] } := by
  refine eager_const hc (b := .log) rfl (fun _ => rfl) ha (by simp) ?_
  rw [atomicValues_iff.2 hv]
  rfl

/-- C66: an argument that is not a literal is an error at the call, and nothing is printed. -/
theorem C66_not_literal (ext : Ext) (c n : PNode) (args vs : List PNode) (s u : St)
    (hc : IsCall (str! "log") args c) (ha : Evals ext args s (.ok vs) u) (hn : n ∈ vs) (hl : ∀ a, ¬ Literal n a) :
    ∃ e, Evals ext [c] s (.err e) u ∧ e.site = c.site := by
  refine ⟨expErr "`log` should only take arguments that are either symbols, strings or numbers." c.site, ?_, rfl⟩
  refine eager_const hc (b := .log) rfl (fun _ => rfl) ha (by simp) ?_
  rcases h : atomicValues vs with _ | ws
  · rfl
  · obtain ⟨a, ha⟩ := values_literal (atomicValues_iff.1 h) n hn
    exact absurd ha (hl a)

/-- C66: what has been printed stays printed, whatever happens afterwards: expanding anything,
also if it fails or panics, only adds lines. -/
theorem C66_only_grows (ext : Ext) (ns : List PNode) (s t : St) (r : Res (List PNode)) (h : Evals ext ns s r t) :
    s.log <+: t.log := (evals_keeps advances_rel h).1

/-- `(%log a "b c")(%log)(%nothing)`: the two lines are printed although the third call fails. -/
def exLogged : List PNode := [exList [exSym (str! "%log"), exSym ['a'], exStr (str! "b c")], exList [exSym (str! "%log")],
  exList [exSym (str! "%nothing")]]

example : (∃ e t, Evals exExt exLogged exSt (.err e) t ∧ (fun _ => true) e = true) ∧
    (expandNodes (run exExt 9) exLogged exSt).2.log.map (·.words) = [[['a'], str! "b c"], []] :=
  ⟨evals_err_of 9 _ (by decide +kernel), by decide +kernel⟩

/-- The theorems on `(%log a "b c")` and `(%log ())`. -/
example (s : St) := C66_log exExt (exList [exSym (str! "%log"), exSym ['a'], exStr (str! "b c")]) _ _ [['a'], str! "b c"] s s
  (.mk _ _ _ _ _ rfl rfl) (plain_evals _ [exSym ['a'], exStr (str! "b c")] _ rfl)
  (.cons ⟨_, .symbol _, rfl⟩ (.cons ⟨_, .string _, rfl⟩ .nil))
example (s : St) := C66_not_literal exExt (exList [exSym (str! "%log"), exList []]) (exList []) _ [exList []] s s
  (.mk _ _ _ _ _ rfl rfl) (plain_evals _ _ _ rfl) (by simp) (by intro a h; cases h)

/-! ## C67 -/

/-- C67: `%os/env` yields the value of the variable as a string.  It has the place and the
leading blanks of the argument, not those of the call (`C67_blanks_false`). -/
theorem C67_env_partial (ext : Ext) (c v : PNode) (args : List PNode) (a : Node) (x : Str) (s u : St)
    (hc : IsCall (str! "os/env") args c) (ha : Evals ext args s (.ok [v]) u) (hl : Literal v a)
    (hx : ext.envVar a.value = some x) : Evals ext [c] s (.ok [.string ⟨x, a.site, a.lw⟩]) u := by
  refine eager_const hc (b := .osEnv) rfl (fun _ => rfl) ha (by simp) ?_
  simp only [literal_atomic hl, hx]
  rfl

/-- C67: a variable that is not set is an error at its name. -/
theorem C67_unset (ext : Ext) (c v : PNode) (args : List PNode) (a : Node) (s u : St)
    (hc : IsCall (str! "os/env") args c) (ha : Evals ext args s (.ok [v]) u) (hl : Literal v a)
    (hx : ext.envVar a.value = none) : Evals ext [c] s (.err (expErr "No such environment variable visible." a.site)) u := by
  refine eager_const hc (b := .osEnv) rfl (fun _ => rfl) ha (by simp) ?_
  simp only [literal_atomic hl, hx]
  rfl

/-- C67: anything but one literal is an error. -/
theorem C67_arguments (ext : Ext) (c : PNode) (args vs : List PNode) (s u : St)
    (hc : IsCall (str! "os/env") args c) (ha : Evals ext args s (.ok vs) u) (hl : ∀ v a, vs = [v] → ¬ Literal v a) :
    ∃ e, Evals ext [c] s (.err e) u := by
  match vs, ha, hl with
  | [], ha, hl =>
    exact ⟨expErr "`%os/env' expects excatly one argument." c.site, eager_const hc (b := .osEnv) rfl (fun _ => rfl) ha (by simp) rfl⟩
  | [v], ha, hl =>
    refine ⟨expErr "`%os/env' argument must be atomic (not a list)." v.site,
      eager_const hc (b := .osEnv) rfl (fun _ => rfl) ha (by simp) ?_⟩
    rcases hv : v.atomic? with _ | a
    · simp only [hv]; rfl
    · exact absurd (atomic_literal hv) (hl v a rfl)
  | _ :: _ :: _, ha, hl =>
    exact ⟨expErr "`%os/env' expects excatly one argument." c.site, eager_const hc (b := .osEnv) rfl (fun _ => rfl) ha (by simp) rfl⟩

/-- An environment with `V=x`. -/
def exEnv : Ext := { exExt with envVar := fun n => if n = ['V'] then some ['x'] else none }

/-- C67 is false of the blanks: in `a (%os/env V)` the blank before the call is lost. -/
theorem C67_blanks_false : ∃ t, Evals exEnv [exSym ['a'], exList [exSym (str! "%os/env"), exSym ['V'] [' ']] [' ']] exSt
    (.ok [exSym ['a'], exStr ['x'] []]) t := by
  obtain ⟨t, h, _⟩ := evals_ok_of (ext := exEnv) (ns := [exSym ['a'], exList [exSym (str! "%os/env"), exSym ['V'] [' ']] [' ']]) (s := exSt)
    (out := [exSym ['a'], exStr ['x'] []]) 9 (fun _ => true) (by decide +kernel)
  exact ⟨t, h⟩

/-- The theorems on `(%os/env V)`, `(%os/env W)` and `(%os/env ())`. -/
example (s : St) : Evals exEnv [exList [exSym (str! "%os/env"), exSym ['V']]] s (.ok [exStr ['x']]) s :=
  C67_env_partial exEnv _ (exSym ['V']) _ _ _ s s (.mk _ _ _ _ _ rfl rfl) (plain_evals _ _ _ rfl) (.symbol _) rfl
example (s : St) := C67_unset exEnv (exList [exSym (str! "%os/env"), exSym ['W']]) (exSym ['W']) _ _ s s (.mk _ _ _ _ _ rfl rfl)
  (plain_evals _ _ _ rfl) (.symbol _) rfl
example (s : St) := C67_arguments exEnv (exList [exSym (str! "%os/env"), exList []]) _ [exList []] s s (.mk _ _ _ _ _ rfl rfl)
  (plain_evals _ _ _ rfl) (by
    intro v a h hl
    simp at h
    rw [← h] at hl
    cases hl)

end Seam
