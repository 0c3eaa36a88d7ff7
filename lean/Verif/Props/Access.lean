import Verif.Lemmas.Cases
import Verif.Lemmas.Access
import Verif.Props.Data
import Verif.Props.Get

/-!
# Two ways to get at data (C99)

`Sub d p d'` (Spec/Data): the path `p` of keys and indices leads from the data `d` to `d'`; `dataNode` is the
node for data; `Tidy` and `PlainData` are in Spec/Access.
-/

namespace Seam
open Spec

/-- C99: where a document that was read defines variables for its paths, the variable with the name of a path
has the value that `%get` finds with the path in the list, up to the whitespace in front. -/
theorem C99_paths (c : Char) (hc : ¬ ('0' ≤ c ∧ c ≤ '9')) (site : Site) (w : Str) (d d' : Data) (before after : Str → Option Macro)
    (ht : Tidy c d) (h : DefinesPaths site [c] d before after) (p : List Str) (hs : Sub d p d') (hp : p ≠ []) :
    (∃ w', after ([c].intercalate p) = some (Macro.var [dataNode site w' d'])) ∧
    ∃ w', Gets [c] ([c].intercalate p) (dataNode site w d) (dataNode site w' d') := by
  refine ⟨defines_at hc ht h hs hp, ?_⟩
  obtain ⟨w', h'⟩ := getPath_sub site hs w ht
  refine ⟨w', (gets_iff (by simp)).2 ?_⟩
  rw [splitStr_path hp (sub_parts hc hs ht)]
  exact h'

/-- C99: what the two ways of getting at the data give, for any call `c` that gives the list for the data
and defines its paths. -/
theorem C99_agree (ext : Ext) (c : PNode) (site : Site) (s t : St) (d d' : Data) (before : Str → Option Macro)
    (hc : Evals ext [c] s (.ok [dataNode site [] d]) t) (hd : DefinesPaths site ['/'] d before t.scope) (ht : Tidy '/' d)
    (hpl : PlainData d) (p : List Str) (hs : Sub d p d') (hp : p ≠ []) :
    (∀ v : Node, v.value = '%' :: ['/'].intercalate p → Evals ext [.symbol v] t (.ok [dataNode site v.lw d']) t) ∧
    ∀ g (b : Node), IsCall (str! "get") [.string b, c] g → b.value = ['/'].intercalate p →
      ∃ w, Evals ext [g] s (.ok [dataNode site w d']) t := by
  have hsep : ¬ ('0' ≤ '/' ∧ '/' ≤ '9') := by decide
  constructor
  · intro v hv
    obtain ⟨w, hw⟩ := defines_at hsep ht hd hs hp
    have := evals_var hv hw (macrosFree_evals ext _ (.cons _ _ (dataNode_free site d' w (hpl.sub hs)) .nil) t)
    rwa [dataNode_lw] at this
  · intro g b hg hb
    obtain ⟨w, hw⟩ := getPath_sub site hs [] ht
    refine ⟨w, (get_two hg hc ?_).2 ⟨?_, rfl⟩⟩
    · intro k n si w' e
      cases d <;> simp only [dataNode] at e <;> cases e
    · rw [hb, splitStr_path hp (sub_parts hsep hs ht), hw]
      rfl

/-- C99: so after `(%yaml text)` the variable `%a/b/0` gives what `(%get "a/b/0" (%yaml text))` gives, up to
the whitespace in front; this is the node for the part of the document where the path leads. -/
theorem C99_yaml (ext : Ext) (name : Str) (c x : PNode) (args : List PNode) (a : Node) (s u : St) (d : Data) (es : List YEvent)
    (hname : name = str! "yaml" ∨ name = str! "json") (hc : IsCall name args c) (ha : Evals ext args s (.ok [x]) u)
    (hl : x = .string a ∨ x = .raw a)
    (hy : ext.yaml a.value = (es, true)) (hd : YamlOf d (es.filter (· ≠ .other))) (ht : Tidy '/' d) :
    ∃ t, Evals ext [c] s (.ok [dataNode c.site [] d]) t ∧ ∀ p d', Sub d p d' → p ≠ [] →
      (∀ v : Node, v.value = '%' :: ['/'].intercalate p → Evals ext [.symbol v] t (.ok [dataNode c.site v.lw d']) t) ∧
      ∀ g (b : Node), IsCall (str! "get") [.string b, c] g → b.value = ['/'].intercalate p →
        ∃ w, Evals ext [g] s (.ok [dataNode c.site w d']) t := by
  have hx : positional [x] = [x] ∧ (∀ k v s w, PNode.attr k v s w ∉ [x]) ∧ lastNamed (str! "separator") [x] = none := by
    rcases hl with rfl | rfl <;> exact ⟨rfl, by simp, rfl⟩
  obtain ⟨t, h1, _, h2⟩ := C54_yaml_partial ext name c x args [x] a none s u d es hname hc ha hx.1 hl
    (fun k v s w hm => absurd hm (hx.2.1 k v s w)) (.absent hx.2.2) hy hd
  exact ⟨t, h1, fun p d' hs hp => C99_agree ext c c.site s t d d' _ h1 h2 ht (yaml_plain hd) p hs hp⟩

/-- C99: the same for `(%toml text)`. -/
theorem C99_toml (ext : Ext) (c x : PNode) (args : List PNode) (a : Node) (s u : St) (table : List (Str × TVal))
    (hc : IsCall (str! "toml") args c) (ha : Evals ext args s (.ok [x]) u) (hl : x = .string a ∨ x = .raw a)
    (hy : ext.toml a.value = some table) (ht : Tidy '/' (tomlData (.tab table))) (hpl : PlainData (tomlData (.tab table))) :
    ∃ t, Evals ext [c] s (.ok [dataNode c.site [] (tomlData (.tab table))]) t ∧ ∀ p d', Sub (tomlData (.tab table)) p d' → p ≠ [] →
      (∀ v : Node, v.value = '%' :: ['/'].intercalate p → Evals ext [.symbol v] t (.ok [dataNode c.site v.lw d']) t) ∧
      ∀ g (b : Node), IsCall (str! "get") [.string b, c] g → b.value = ['/'].intercalate p →
        ∃ w, Evals ext [g] s (.ok [dataNode c.site w d']) t := by
  have hx : positional [x] = [x] ∧ (∀ k v s w, PNode.attr k v s w ∉ [x]) ∧ lastNamed (str! "separator") [x] = none := by
    rcases hl with rfl | rfl <;> exact ⟨rfl, by simp, rfl⟩
  obtain ⟨t, h1, _, h2⟩ := C55_toml ext c x args [x] a none s u table hc ha hx.1 hl
    (fun k v s w hm => absurd hm (hx.2.1 k v s w)) (.absent hx.2.2) hy
  exact ⟨t, h1, fun p d' hs hp => C99_agree ext c c.site s t _ d' _ h1 h2 ht hpl p hs hp⟩

/-- The data `{a: 1, b: [x, {c: y}]}` are tidy. -/
example : Tidy '/' exData := by
  have hnum : ∀ k n i, parseUsize k = none → Numeral k i → n ≤ i := fun k n i h h' => by
    rw [parseUsize_iff.2 h'] at h; cases h
  refine .entries _ (by decide) (by decide) ?_ ?_
  · simp only [List.forall_mem_cons]
    exact ⟨fun i h => hnum _ _ _ (by decide) h, fun i h => hnum _ _ _ (by decide) h, by simp⟩
  · simp only [List.forall_mem_cons]
    refine ⟨.text _, .items _ (by decide) ?_, by simp⟩
    simp only [List.forall_mem_cons]
    refine ⟨.text _, .entries _ (by decide) (by decide) ?_ ?_, by simp⟩
    · simp only [List.forall_mem_cons]
      exact ⟨fun i h => hnum _ _ _ (by decide) h, by simp⟩
    · simp only [List.forall_mem_cons]
      exact ⟨.text _, by simp⟩

/-- Why the keys must be different: after `{a: 1, a: 2}` the variable is `2`, but `%get` gives `1`. -/
theorem C99_repeated_false :
    (∃ t, Evals (exYaml [.mapStart, .scalar ['a'], .scalar ['1'], .scalar ['a'], .scalar ['2'], .mapEnd])
      [exYamlCall, exSym (str! "%a")] exSt (.ok [dataNode default [] (.entries [(['a'], .text ['1']), (['a'], .text ['2'])]), exStr ['2']]) t) ∧
    ∃ t, Evals (exYaml [.mapStart, .scalar ['a'], .scalar ['1'], .scalar ['a'], .scalar ['2'], .mapEnd])
      [exList [exSym (str! "%get"), exStr ['a'], exYamlCall]] exSt (.ok [exStr ['1'] [' ']]) t := by
  constructor
  · obtain ⟨t, h, _⟩ := evals_ok_of (ext := exYaml [.mapStart, .scalar ['a'], .scalar ['1'], .scalar ['a'], .scalar ['2'], .mapEnd])
      (ns := [exYamlCall, exSym (str! "%a")]) (s := exSt)
      (out := [dataNode default [] (.entries [(['a'], .text ['1']), (['a'], .text ['2'])]), exStr ['2']]) 9 (fun _ => true) (by decide +kernel)
    exact ⟨t, h⟩
  · obtain ⟨t, h, _⟩ := evals_ok_of (ext := exYaml [.mapStart, .scalar ['a'], .scalar ['1'], .scalar ['a'], .scalar ['2'], .mapEnd])
      (ns := [exList [exSym (str! "%get"), exStr ['a'], exYamlCall]]) (s := exSt)
      (out := [exStr ['1'] [' ']]) 9 (fun _ => true) (by decide +kernel)
    exact ⟨t, h⟩

/-- Why no key may be a position: in `{a: 1, 0: 2}` the path `0` of `%get` is the whole first entry, but
the variable `%0` is `2`. -/
theorem C99_position_false :
    (∃ t, Evals (exYaml [.mapStart, .scalar ['a'], .scalar ['1'], .scalar ['0'], .scalar ['2'], .mapEnd])
      [exYamlCall, exSym (str! "%0")] exSt (.ok [dataNode default [] (.entries [(['a'], .text ['1']), (['0'], .text ['2'])]), exStr ['2']]) t) ∧
    ∃ t, Evals (exYaml [.mapStart, .scalar ['a'], .scalar ['1'], .scalar ['0'], .scalar ['2'], .mapEnd])
      [exList [exSym (str! "%get"), exStr ['0'], exYamlCall]] exSt (.ok [exYamlAttr ['a'] ['1'] []]) t := by
  constructor
  · obtain ⟨t, h, _⟩ := evals_ok_of (ext := exYaml [.mapStart, .scalar ['a'], .scalar ['1'], .scalar ['0'], .scalar ['2'], .mapEnd])
      (ns := [exYamlCall, exSym (str! "%0")]) (s := exSt)
      (out := [dataNode default [] (.entries [(['a'], .text ['1']), (['0'], .text ['2'])]), exStr ['2']]) 9 (fun _ => true) (by decide +kernel)
    exact ⟨t, h⟩
  · obtain ⟨t, h, _⟩ := evals_ok_of (ext := exYaml [.mapStart, .scalar ['a'], .scalar ['1'], .scalar ['0'], .scalar ['2'], .mapEnd])
      (ns := [exList [exSym (str! "%get"), exStr ['0'], exYamlCall]]) (s := exSt)
      (out := [exYamlAttr ['a'] ['1'] []]) 9 (fun _ => true) (by decide +kernel)
    exact ⟨t, h⟩

/-- The data `{a: 1, b: [x]}`, which are tidy and plain. -/
def exSmall : Data := .entries [(['a'], .text ['1']), (['b'], .items [.text ['x']])]
theorem exSmall_tidy : Tidy '/' exSmall := by
  refine .entries _ (by decide) (by decide) ?_ ?_
  · simp only [List.forall_mem_cons]
    exact ⟨fun i h => (nomatch (parseUsize_iff.2 h)), fun i h => (nomatch (parseUsize_iff.2 h)), by simp⟩
  · simp only [List.forall_mem_cons]
    refine ⟨.text _, .items _ (by decide) ?_, by simp⟩
    simp only [List.forall_mem_cons]
    exact ⟨.text _, by simp⟩
theorem exSmall_plain : PlainData exSmall := by
  refine .entries _ ?_
  simp only [List.forall_mem_cons]
  refine ⟨.text _, .items _ ?_, by simp⟩
  simp only [List.forall_mem_cons]
  exact ⟨.text _, by simp⟩
/-- The path `b/0` leads to `x`. -/
theorem exSmall_path : Sub exSmall [['b'], ['0']] (.text ['x']) :=
  .entry _ _ (.items [.text ['x']]) _ _ (by simp) (.item _ 0 _ _ _ rfl (.here _))
/-- What the parser delivers for it. -/
def exSmallEvents : List YEvent := [.mapStart, .scalar ['a'], .scalar ['1'], .scalar ['b'], .seqStart, .scalar ['x'], .seqEnd, .mapEnd]

/-- The theorems on these data: `%b/0` after `(%yaml "")`, and `(%get "b/0" (%yaml ""))`. -/
example (before after : Str → Option Macro) (h : DefinesPaths default ['/'] exSmall before after) :=
  C99_paths '/' (by decide) default [] exSmall _ before after exSmall_tidy h _ exSmall_path (by simp)
example : ∃ t, Evals (exYaml exSmallEvents) [exYamlCall] exSt (.ok [dataNode default [] exSmall]) t ∧
    (Evals (exYaml exSmallEvents) [exSym (str! "%b/0") [' ']] t (.ok [exStr ['x'] [' ']]) t) ∧
    ∃ w, Evals (exYaml exSmallEvents) [exList [exSym (str! "%get"), exStr (str! "b/0"), exYamlCall]] exSt (.ok [exStr ['x'] w]) t := by
  obtain ⟨t, h1, h2⟩ := C99_yaml (exYaml exSmallEvents) (str! "yaml") exYamlCall (exStr []) _ _ exSt exSt exSmall exSmallEvents (.inl rfl)
    (.mk _ _ _ _ _ rfl rfl) (plain_evals _ _ _ rfl) (.inl rfl) rfl
    (.entries _ [_, _, _, _, _, _] (.cons _ _ _ [_] _ (.text _) (.cons _ _ _ [_, _, _] [] (.items _ [_] (.cons _ _ [_] [] (.text _) .nil)) .nil)))
    exSmall_tidy
  obtain ⟨h3, h4⟩ := h2 _ _ exSmall_path (by simp)
  exact ⟨t, h1, h3 ⟨str! "%b/0", default, [' ']⟩ rfl, h4 _ ⟨str! "b/0", default, []⟩ (.mk _ _ _ _ _ rfl rfl) rfl⟩
example (t : St) (hc : Evals (exYaml exSmallEvents) [exYamlCall] exSt (.ok [dataNode default [] exSmall]) t)
    (hd : DefinesPaths default ['/'] exSmall exSt.scope t.scope) :=
  C99_agree (exYaml exSmallEvents) exYamlCall default exSt t exSmall _ exSt.scope hc hd exSmall_tidy exSmall_plain _ exSmall_path (by simp)
/-- The theorem on the TOML document `n = 1`. -/
example := C99_toml { exExt with toml := fun _ => some [(['n'], .num ['1'])] } (exList [exSym (str! "%toml"), exStr []]) (exStr []) _ _
  exSt exSt [(['n'], .num ['1'])] (.mk _ _ _ _ _ rfl rfl) (plain_evals _ _ _ rfl) (.inl rfl) rfl
  (.entries [(['n'], .number ['1'])] (by decide) (by decide)
    (by
      simp only [List.forall_mem_cons]
      exact ⟨fun i h => (nomatch (parseUsize_iff.2 h)), by simp⟩)
    (by simp only [List.forall_mem_cons]; exact ⟨.number _, by simp⟩))
  (.entries [(['n'], .number ['1'])] (by simp only [List.forall_mem_cons]; exact ⟨.number _, by simp⟩))

end Seam
