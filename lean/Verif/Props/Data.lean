import Verif.Lemmas.Cases
import Verif.Lemmas.Data
import Verif.Lemmas.EvalCheck
import Verif.Props.Lists

/-!
# Properties of `%yaml`, `%json` and `%toml` (C54, C55)

`vs` are the expanded arguments of the call `c`; `u` is the state after their expansion;
`dataNode`, `YamlOf` and `DefinesPaths` are in Spec/Data.  What the YAML and TOML parsers
deliver for a text is a parameter (`ext.yaml`, `ext.toml`).
-/

namespace Seam
open Spec

/-! ## C54 -/

/-- C54: a YAML document with scalar keys and without aliases becomes one node of the
same shape, each of its paths becomes a variable, and nothing else changes.  Missing: aliases, for which
see `C54_aliases_partial`, and keys that are collections, see `C54_complex_key_panics` and
`C54_complex_key_false`. -/
theorem C54_yaml_partial (ext : Ext) (name : Str) (c x : PNode) (args vs : List PNode) (a : Node) (o : Option Node)
    (s u : St) (d : Data) (es : List YEvent) (hname : name = str! "yaml" ∨ name = str! "json")
    (hc : IsCall name args c) (ha : Evals ext args s (.ok vs) u)
    (hp : positional vs = [x]) (hl : x = .string a ∨ x = .raw a)
    (hn : NamedArgs (fun k v => k = str! "separator" ∧ ∃ a, Literal v a) vs) (ho : Given (str! "separator") vs o)
    (hy : ext.yaml a.value = (es, true)) (hd : YamlOf d (es.filter (· ≠ .other))) :
    ∃ t, Evals ext [c] s (.ok [dataNode c.site [] d]) t ∧ t = { u with scope := t.scope } ∧
      DefinesPaths c.site ((o.map (·.value)).getD ['/']) d u.scope t.scope :=
  ⟨u.defs (defsIn yamlVl c.site ((o.map (·.value)).getD ['/']) [] d),
    (yaml_runs hname hc ha hp hl hn ho).2 ⟨by simp, expandYaml_run ext _ _ c.site d es u hy hd⟩,
    St.defs_only _ _, defs_definesPaths _ _ _ _ _⟩

/-- C54: if the parser stops with an error in the middle of such a document, the macro
fails (and does not panic). -/
theorem C54_invalid_partial (ext : Ext) (name : Str) (c x : PNode) (args vs : List PNode) (a : Node) (o : Option Node)
    (s u : St) (d : Data) (es rest : List YEvent) (hname : name = str! "yaml" ∨ name = str! "json")
    (hc : IsCall name args c) (ha : Evals ext args s (.ok vs) u)
    (hp : positional vs = [x]) (hl : x = .string a ∨ x = .raw a)
    (hn : NamedArgs (fun k v => k = str! "separator" ∧ ∃ a, Literal v a) vs) (ho : Given (str! "separator") vs o)
    (hy : ext.yaml a.value = (es, false)) (hd : YamlOf d (es.filter (· ≠ .other) ++ rest)) :
    ∃ t, Evals ext [c] s (.err (expErr "Failed to parse YAML." c.site)) t := by
  obtain ⟨k, t, h⟩ := yEvents_prefix (y_value c.site ((o.map (·.value)).getD ['/']) hd YSink.init u (Or.inl ⟨rfl, rfl, rfl, rfl⟩))
  refine ⟨t, (yaml_runs hname hc ha hp hl hn ho).2 ⟨by simp, ?_⟩⟩
  unfold expandYaml
  rw [hy]
  simp only
  rw [yEvents_filter, M.bind_ok h]
  rfl

/-- C54, for documents with aliases: they are taken for the document in which the aliases are left out and the
keys and values that remain in a mapping are put in pairs again.  Missing: documents in which a collection
becomes the first of a pair in this way, see `C54_alias_panics`. -/
theorem C54_aliases_partial (ext : Ext) (name : Str) (c x : PNode) (args vs : List PNode) (a : Node) (o : Option Node)
    (s u : St) (y : Yaml) (d : Data) (es : List YEvent) (hname : name = str! "yaml" ∨ name = str! "json")
    (hc : IsCall name args c) (ha : Evals ext args s (.ok vs) u)
    (hp : positional vs = [x]) (hl : x = .string a ∨ x = .raw a)
    (hn : NamedArgs (fun k v => k = str! "separator" ∧ ∃ a, Literal v a) vs) (ho : Given (str! "separator") vs o)
    (hy : ext.yaml a.value = (es, true)) (he : es.filter (· ≠ .other) = y.events.filter (· ≠ .other)) (hd : TakenFor y d) :
    ∃ t, Evals ext [c] s (.ok [dataNode c.site [] d]) t ∧ t = { u with scope := t.scope } ∧
      DefinesPaths c.site ((o.map (·.value)).getD ['/']) d u.scope t.scope :=
  C54_yaml_partial ext name c x args vs a o s u d es hname hc ha hp hl hn ho hy (he ▸ takenFor_yaml hd)

/-- A YAML parser that delivers given events. -/
def exYaml (es : List YEvent) : Ext := { exExt with yaml := fun _ => (es, true) }

/-- `(%yaml "")`. -/
def exYamlCall : PNode := exList [exSym (str! "%yaml"), exStr (str! "")]

/-- The attribute `:k "v"`. -/
def exYamlAttr (k v : Str) (w : Str) : PNode :=
  .attr k (.string { value := v, site := exYamlCall.site, lw := [' '] }) exYamlCall.site w

/-- C54 is false for documents with aliases: `{a: *x, b: c}` (the parser delivers the alias as
an event that is ignored) becomes `(:a "b")`, and `c` and the key `b` are lost. -/
theorem C54_alias_false : ∃ t, Evals (exYaml [.mapStart, .scalar ['a'], .other, .scalar ['b'], .scalar ['c'], .mapEnd])
    [exYamlCall] exSt (.ok [.list [exYamlAttr ['a'] ['b'] []] exYamlCall.site
      { kind := .rparen, value := [')'], lw := [], site := exYamlCall.site } []]) t ∧
      (t.scope ['c']).isNone = true :=
  evals_ok_of 9 (fun t => (t.scope ['c']).isNone) (by decide +kernel)

/-- Outside C54: a value that is an alias, followed by an entry whose value is a mapping (`{a: *x, b: {c: d}}`),
panics: `b` is taken for the value of `a`, and the mapping for a key. -/
theorem C54_alias_panics : ∃ t, Evals (exYaml (Yaml.map [(.scalar ['a'], .alias),
    (.scalar ['b'], .map [(.scalar ['c'], .scalar ['d'])])]).events) [exYamlCall] exSt .panic t :=
  evals_panic_of 9 (by decide +kernel)

/-- Outside C54: in a mapping inside a sequence (`[{{}: a}]`) a key that is a collection does not panic; it becomes
the value of a key with the number of the item, and the value of the key is lost. -/
theorem C54_complex_key_false : ∃ t, Evals (exYaml (Yaml.seq [.map [(.map [], .scalar ['a'])]]).events) [exYamlCall] exSt
    (.ok [dataNode exYamlCall.site [] (.items [.entries [(['0'], .entries [])]])]) t ∧
      (t.scope ['a']).isNone = true :=
  evals_ok_of 9 (fun t => (t.scope ['a']).isNone) (by decide +kernel)

/-- Outside C54: a document in which a key is not a scalar (`{{}: a}`) panics. -/
theorem C54_complex_key_panics : ∃ t, Evals (exYaml [.mapStart, .mapStart, .mapEnd, .scalar ['a'], .mapEnd]) [exYamlCall] exSt .panic t :=
  evals_panic_of 9 (by decide +kernel)

/-- `{a: 1, b: [x, {c: y}]}`. -/
def exData : Data := .entries [(['a'], .text ['1']), (['b'], .items [.text ['x'], .entries [(['c'], .text ['y'])]])]

example : YamlOf exData ([.other, .mapStart, .scalar ['a'], .scalar ['1'], .scalar ['b'], .seqStart, .scalar ['x'],
    .mapStart, .scalar ['c'], .scalar ['y'], .mapEnd, .seqEnd, .mapEnd, .other].filter (· ≠ .other)) :=
  .entries _ [_, _, _, _, _, _, _, _, _, _] (.cons _ _ _ [_] _ (.text _) (.cons _ _ _ [_, _, _, _, _, _, _] [] (.items _ [_, _, _, _, _] (.cons _ _ [_] _ (.text _)
    (.cons _ _ [_, _, _, _] [] (.entries _ [_, _] (.cons _ _ _ [_] [] (.text _) .nil)) .nil))) .nil))

/-- `{a: *x, b: c, d: *x}` is taken for `{a: b, c: d}`, and `[u, *x, {k: *x}]` for `[u, {}]`. -/
example : TakenFor (.map [(.scalar ['a'], .alias), (.scalar ['b'], .scalar ['c']), (.scalar ['d'], .alias)])
    (.entries [(['a'], .text ['b']), (['c'], .text ['d'])]) :=
  .map _ _ (.cons ['a'] 1 _ _ _ _ (.scalar ['b']) (.cons ['c'] 0 _ _ _ _ (.scalar ['d']) (.alias _ _ .nil)))
example : TakenFor (.seq [.scalar ['u'], .alias, .map [(.scalar ['k'], .alias)]]) (.items [.text ['u'], .entries []]) :=
  .seq _ _ (.cons _ _ _ _ (.scalar _) (.alias _ _ (.cons _ _ _ _ (.map _ _ (.last ['k'] 1)) .nil)))
example (s : St) := C54_aliases_partial (exYaml [.other, .seqStart, .scalar ['u'], .other, .mapStart, .scalar ['k'], .other, .mapEnd, .seqEnd])
  (str! "yaml") exYamlCall (exStr []) _ _ _ none s s (.seq [.scalar ['u'], .alias, .map [(.scalar ['k'], .alias)]])
  (.items [.text ['u'], .entries []]) _ (.inl rfl) (.mk _ _ _ _ _ rfl rfl) (plain_evals _ _ _ rfl) rfl (.inl rfl) (no_namedArgs _ rfl)
  (.absent rfl) rfl rfl (.seq _ _ (.cons _ _ _ _ (.scalar _) (.alias _ _ (.cons _ _ _ _ (.map _ _ (.last ['k'] 1)) .nil))))

/-- The path `b/1/c` leads to `y`. -/
example : Sub exData [['b'], ['1'], ['c']] (.text ['y']) :=
  .entry _ _ (.items [.text ['x'], .entries [(['c'], .text ['y'])]]) _ _ (by simp)
    (.item _ 1 _ _ _ rfl (.entry _ _ _ _ _ List.mem_cons_self (.here _)))

/-- After reading it the variable `b/1/c` is `"y"`. -/
example : ∃ out t, Evals (exYaml [.mapStart, .scalar ['a'], .scalar ['1'], .scalar ['b'], .seqStart, .scalar ['x'],
    .mapStart, .scalar ['c'], .scalar ['y'], .mapEnd, .seqEnd, .mapEnd]) [exYamlCall] exSt (.ok out) t ∧
    ((t.scope (str! "b/1/c")).map (fun m => m.body.length) == some 1) = true := by
  obtain ⟨t, h⟩ := evals_ok_of (ext := exYaml [.mapStart, .scalar ['a'], .scalar ['1'], .scalar ['b'], .seqStart, .scalar ['x'],
    .mapStart, .scalar ['c'], .scalar ['y'], .mapEnd, .seqEnd, .mapEnd]) (ns := [exYamlCall]) (s := exSt)
    (out := [dataNode exYamlCall.site [] exData]) 9
    (fun t => (t.scope (str! "b/1/c")).map (fun m => m.body.length) == some 1) (by decide +kernel)
  exact ⟨_, t, h⟩

/-- The theorems on `(%yaml "")`, where the parser delivers the events of the list `[x]`, or stops inside it. -/
example (s : St) := C54_yaml_partial (exYaml [.seqStart, .scalar ['x'], .seqEnd]) (str! "yaml") exYamlCall (exStr []) _ _ _ none s s
  (.items [.text ['x']]) _ (.inl rfl) (.mk _ _ _ _ _ rfl rfl) (plain_evals _ _ _ rfl) rfl (.inl rfl) (no_namedArgs _ rfl)
  (.absent rfl) rfl (.items _ [_] (.cons _ _ [_] [] (.text _) .nil))
example (s : St) := C54_invalid_partial { exExt with yaml := fun _ => ([.seqStart, .scalar ['x']], false) } (str! "yaml") exYamlCall
  (exStr []) _ _ _ none s s (.items [.text ['x']]) [.seqStart, .scalar ['x']] [.seqEnd] (.inl rfl) (.mk _ _ _ _ _ rfl rfl)
  (plain_evals _ _ _ rfl) rfl (.inl rfl) (no_namedArgs _ rfl) (.absent rfl) rfl (.items _ [_] (.cons _ _ [_] [] (.text _) .nil))

/-! ## C55 -/

/-- C55: a TOML document becomes one node of the same shape, each of its paths becomes a
variable, and nothing else changes. -/
theorem C55_toml (ext : Ext) (c x : PNode) (args vs : List PNode) (a : Node) (o : Option Node)
    (s u : St) (table : List (Str × TVal)) (hc : IsCall (str! "toml") args c) (ha : Evals ext args s (.ok vs) u)
    (hp : positional vs = [x]) (hl : x = .string a ∨ x = .raw a)
    (hn : NamedArgs (fun k v => k = str! "separator" ∧ ∃ a, Literal v a) vs) (ho : Given (str! "separator") vs o)
    (ht : ext.toml a.value = some table) :
    ∃ t, Evals ext [c] s (.ok [dataNode c.site [] (tomlData (.tab table))]) t ∧ t = { u with scope := t.scope } ∧
      DefinesPaths c.site ((o.map (·.value)).getD ['/']) (tomlData (.tab table)) u.scope t.scope :=
  ⟨u.defs (defsIn tomlVl c.site ((o.map (·.value)).getD ['/']) [] (tomlData (.tab table))),
    (toml_runs hc ha hp hl hn ho).2 ⟨by simp, expandToml_run ext _ _ c.site table u ht⟩,
    St.defs_only _ _, defs_definesPaths _ _ _ _ _⟩

/-- C55: a text that is not TOML is an error, and nothing is defined. -/
theorem C55_invalid (ext : Ext) (c x : PNode) (args vs : List PNode) (a : Node) (o : Option Node)
    (s u : St) (hc : IsCall (str! "toml") args c) (ha : Evals ext args s (.ok vs) u)
    (hp : positional vs = [x]) (hl : x = .string a ∨ x = .raw a)
    (hn : NamedArgs (fun k v => k = str! "separator" ∧ ∃ a, Literal v a) vs) (ho : Given (str! "separator") vs o)
    (ht : ext.toml a.value = none) : Evals ext [c] s (.err (expErr "Failed to parse TOML." c.site)) u := by
  refine (toml_runs hc ha hp hl hn ho).2 ⟨by simp, ?_⟩
  unfold expandToml
  rw [ht]
  rfl

/-- `n = 1`, `b = ["x", [true]]`. -/
def exToml : Ext := { exExt with
  toml := fun _ => some [(['n'], .num ['1']), (['b'], .arr [.str ['x'], .arr [.sym (str! "true")]])] }

example : ∃ t, Evals exToml [exList [exSym (str! "%toml"), exStr (str! "")]] exSt
    (.ok [dataNode exYamlCall.site [] (.entries [(['n'], .number ['1']), (['b'], .items [.text ['x'], .items [.symbol (str! "true")]])])]) t ∧
    ((t.scope (str! "b/1/0")).map (fun m => m.body.length) == some 1) = true :=
  evals_ok_of 9 (fun t => (t.scope (str! "b/1/0")).map (fun m => m.body.length) == some 1) (by decide +kernel)

example : Sub (tomlData (.tab [(['n'], .num ['1']), (['b'], .arr [.str ['x'], .arr [.sym (str! "true")]])]))
    [['b'], ['1'], ['0']] (.symbol (str! "true")) :=
  .entry _ _ (.items [.text ['x'], .items [.symbol (str! "true")]]) _ _ (by simp [tomlEntries, tomlData, tomlItems])
    (.item _ 1 _ _ _ rfl (.item _ 0 _ _ _ rfl (.here _)))

/-- The theorems on `(%toml "")`, where the parser succeeds and where it fails. -/
example (s : St) := C55_toml exToml (exList [exSym (str! "%toml"), exStr []]) (exStr []) _ _ _ none s s _ (.mk _ _ _ _ _ rfl rfl)
  (plain_evals _ _ _ rfl) rfl (.inl rfl) (no_namedArgs _ rfl) (.absent rfl) rfl
example (s : St) := C55_invalid exExt (exList [exSym (str! "%toml"), exStr []]) (exStr []) _ _ _ none s s (.mk _ _ _ _ _ rfl rfl)
  (plain_evals _ _ _ rfl) rfl (.inl rfl) (no_namedArgs _ rfl) (.absent rfl) rfl

end Seam
