import Verif.Lemmas.Marks
import Verif.Lemmas.EvalCheck
import Verif.Props.Dom

/-!
# C104: names and markup come from the program

The marks of a tree are the names, keywords and raw texts in it (Spec/Marks); strings and numbers are
printed as text.  `Origin ext P m`: the mark `m` is in the program, or in a file it can include, or a key of
YAML or TOML data, or it is made by `%raw`, `%markdown`, `%symbol` or `%lambda`, if the program can
call them.
-/

namespace Seam
open Spec

/-- C104: every name, every keyword and all raw text in what a program makes has an origin, and
so have those in the macros it defines.  `P` holds for the marks of the program and of the macros it starts
with. -/
theorem C104_marks (ext : Ext) (P : Mark → Prop) (ns out : List PNode) (s t : St) (hf : Fair s.order)
    (hp : ∀ m ∈ marksOfAll ns, P m)
    (hs : ∀ name d, s.scope name = some d → ∀ m ∈ marksOfAll d.params ++ marksOfAll d.body, P m)
    (h : Evals ext ns s (.ok out) t) :
    (∀ m ∈ marksOfAll out, Origin ext P m) ∧
    ∀ name d, t.scope name = some d → ∀ m ∈ marksOfAll d.params ++ marksOfAll d.body, Origin ext P m := by
  obtain ⟨h1, h2⟩ := evals_origin h hf (fun m hm => .program m (hp m hm)) fun name d hd m hm => .program m (hs name d hd m hm)
  exact ⟨h1 out rfl, h2⟩

/-- C104 for a source: what is made of it only has marks with an origin in its tree. -/
theorem C104_source (ext : Ext) (order : Order) (hf : Fair order) (fuel : Nat) (path code : Str) (out : List PNode)
    (h : (expand ext order fuel path code).1 = .ok out) :
    ∃ tree, parse ext.unescape { path := path, id := 1, code := code } = .ok tree ∧
      ∀ m ∈ marksOfAll out, Origin ext (· ∈ marksOfAll tree) m := by
  obtain ⟨tree, t, hp, he⟩ := expand_evals h
  exact ⟨tree, hp, (C104_marks ext (· ∈ marksOfAll tree) tree out _ t hf (fun _ h => h)
    (fun _ _ h => by simp [St.init, Scope.empty] at h) he).1⟩

/-- C104: if the source only names macros that are in `textOnly` (and its own), nothing that it reads
(environment variables, embedded files, dates, file names) can become a name, a keyword or raw text: every
keyword in what it makes stands in the source, and so does every name except those of `%lambda`; and there is no
raw text at all. -/
theorem C104_text_only (ext : Ext) (order : Order) (hf : Fair order) (fuel : Nat) (path code : Str) (tree out : List PNode)
    (hp : parse ext.unescape { path := path, id := 1, code := code } = .ok tree)
    (hn : NamesTextOnly (· ∈ marksOfAll tree)) (h : (expand ext order fuel path code).1 = .ok out) :
    (∀ k, .key k ∈ marksOfAll out → .key k ∈ marksOfAll tree) ∧
    (∀ t, .name t ∈ marksOfAll out → .name t ∈ marksOfAll tree ∨ ∃ s, t = str! "__lambda" ++ ext.uuid s) ∧
    ∀ t, .raw t ∉ marksOfAll out := by
  obtain ⟨tree', hp', ho⟩ := C104_source ext order hf fuel path code out h
  rw [hp] at hp'
  cases hp'
  refine ⟨fun k hk => ?_, fun t ht => ?_, fun t ht => ?_⟩
  · rcases textOnly_origin hn (ho _ hk) with h | ⟨s, h⟩
    · exact h
    · cases h
  · rcases textOnly_origin hn (ho _ ht) with h | ⟨s, h⟩
    · exact .inl h
    · exact .inr ⟨s, Mark.name.inj h⟩
  · rcases textOnly_origin hn (ho _ ht) with h | ⟨s, h⟩
    · exact parse_noRaw hp t h
    · cases h

/-- C104 for HTML: the names of the elements and attributes that a reader of the output finds have an origin in the
program. -/
theorem C104_html (dbg : Str → Str) (ext : Ext) (P : Mark → Prop) (ns tree : List PNode) (out : Str) (s t : St) (hf : Fair s.order)
    (hp : ∀ m ∈ marksOfAll ns, P m)
    (hs : ∀ name d, s.scope name = some d → ∀ m ∈ marksOfAll d.params ++ marksOfAll d.body, P m)
    (h : Evals ext ns s (.ok tree) t)
    (ho : Ordinaries htmlDialect (fun s => decide (s.map lowerChar ∈ otherContent)) tree)
    (hg : htmlGenerate dbg tree = .ok out) :
    ∃ ds, readMarkup htmlDialect out = some ds ∧ ∀ m ∈ domMarksAll ds, Origin ext P m := by
  obtain ⟨ds, h1, h2⟩ := (C91_values dbg tree out).2 ho hg
  exact ⟨ds, h2, fun m hm => (C104_marks ext P ns tree s t hf hp hs h).1 m (domsOf_marks h1 m hm)⟩

/-- The same for XML. -/
theorem C104_xml (ext : Ext) (P : Mark → Prop) (ns tree : List PNode) (out : Str) (s t : St) (hf : Fair s.order)
    (hp : ∀ m ∈ marksOfAll ns, P m)
    (hs : ∀ name d, s.scope name = some d → ∀ m ∈ marksOfAll d.params ++ marksOfAll d.body, P m)
    (h : Evals ext ns s (.ok tree) t)
    (ho : Ordinaries xmlDialect (fun _ => false) tree) (hg : xmlGenerate tree = .ok out) :
    ∃ ds, readMarkup xmlDialect out = some ds ∧ ∀ m ∈ domMarksAll ds, Origin ext P m := by
  obtain ⟨ds, h1, h2⟩ := (C91_values id tree out).1 ho hg
  exact ⟨ds, h2, fun m hm => (C104_marks ext P ns tree s t hf hp hs h).1 m (domsOf_marks h1 m hm)⟩

/-- A source with a macro, a loop and an environment variable. -/
def exMarks : Str := str! "(%define (row k v) (tr :class %k (td %v)))(table (%for x in (a \"<b>\") (%row \"r\" %x)) (p (%os/env \"V\")))"
/-- The environment variable has markup in it. -/
def exMarksExt : Ext := { exExt with envVar := fun _ => some (str! "<script>") }

example : ∃ tree, parse exMarksExt.unescape { path := str! "a.sex", id := 1, code := exMarks } = .ok tree ∧
    NamesTextOnly (· ∈ marksOfAll tree) := by
  obtain ⟨tree, h1, h2⟩ := Res.okP_elim (r := parse exMarksExt.unescape { path := str! "a.sex", id := 1, code := exMarks })
    (p := fun t => namesTextOnly (marksOfAll t)) (by decide +kernel)
  exact ⟨tree, h1, namesTextOnly_of h2⟩
/-- It makes a tree with the names `table`, `tr`, `td`, `a`, `p` and the keyword `class`. -/
example : ∃ out, (expand exMarksExt (fun _ l => l) 30 (str! "a.sex") exMarks).1 = .ok out ∧
    decide (marksOfAll out = [.name (str! "table"), .name (str! "tr"), .key (str! "class"), .name (str! "td"), .name ['a'],
      .name (str! "tr"), .key (str! "class"), .name (str! "td"), .name ['p']]) = true :=
  Res.okP_elim (by decide +kernel)

/-- The macros left out of `textOnly` have to be: with `%raw` the environment variable becomes raw text, -/
example : ∃ out, (expand exMarksExt (fun _ l => l) 30 (str! "a.sex") (str! "(p (%raw (%os/env \"V\")))")).1 = .ok out ∧
    decide (marksOfAll out = [.name ['p'], .raw (str! "<script>")]) = true := Res.okP_elim (by decide +kernel)
/-- with `%symbol` it becomes a name, -/
example : ∃ out, (expand exMarksExt (fun _ l => l) 30 (str! "a.sex") (str! "((%symbol (%os/env \"V\")) a)")).1 = .ok out ∧
    decide (marksOfAll out = [.name (str! "<script>"), .name ['a']]) = true := Res.okP_elim (by decide +kernel)
/-- and with `%apply` the program can call `%raw` by the name without the `%`. -/
example : ∃ out, (expand exMarksExt (fun _ l => l) 30 (str! "a.sex") (str! "(p (%apply raw (%os/env \"V\")))")).1 = .ok out ∧
    decide (marksOfAll out = [.name ['p'], .raw (str! "<script>")]) = true := Res.okP_elim (by decide +kernel)
/-- So does `%map`. -/
example : ∃ out, (expand exMarksExt (fun _ l => l) 30 (str! "a.sex") (str! "(p (%map raw (%os/env \"V\")))")).1 = .ok out ∧
    decide (marksOfAll out = [.name ['p'], .raw (str! "<script>")]) = true := Res.okP_elim (by decide +kernel)
/-- The hypotheses of `C104_html` for `(p :class "a" "<b>" (br))`. -/
example : ∃ t, Evals exExt pageTree exSt (.ok pageTree) t ∧
    ∀ m ∈ marksOfAll pageTree, m ∈ [Mark.name ['p'], .key (str! "class"), .name (str! "br")] :=
  ⟨_, macrosFree_evals exExt pageTree (.cons _ _ (.list _ _ _ _ (.cons _ _ (.symbol _ (by intro n h; cases h)) (.cons _ _ (.attr _ _ _ _ (.string _))
    (.cons _ _ (.string _) (.cons _ _ (.list _ _ _ _ (.cons _ _ (.symbol _ (by intro n h; cases h)) .nil)) .nil))))) .nil) exSt, by decide⟩

end Seam
