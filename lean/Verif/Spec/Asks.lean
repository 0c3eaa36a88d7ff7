import Verif.Spec.Builtins

/-! What an expansion asks the world around it: files, directories and environment variables. -/

namespace Seam.Spec

/-- The macros that look at the world around the program. -/
def readers : List Str := [str! "include", str! "embed", str! "glob", str! "os/env"]

/-- The value of a symbol, number, string or raw node. -/
def literalValue : PNode → Option Str
  | .symbol a => some a.value
  | .number a => some a.value
  | .string a => some a.value
  | .raw a => some a.value
  | _ => none

/-- May the macro `name` be called with the argument values `vs`?  What matters is the first
positional one: a path, a pattern or the name of an environment variable. -/
def mayAsk (allowed : Str → Str → Bool) (name : Str) (vs : List PNode) : Bool :=
  match (positional vs).head?.bind literalValue with
  | some x => allowed name x
  | none => true

/-- The expander, except that it has no outcome if one of the `readers` is called with argument
values that are not allowed. -/
def askRun (ext : Ext) (allowed : Str → Str → Bool) : (fuel : Nat) → Rec
  | 0, _ => M.lift .diverge
  | fuel + 1, .node n => step ext (askRun ext allowed fuel) (.node n)
  | fuel + 1, .invoke name call params => fun s =>
    if name ∈ readers then
      match expandNodes (askRun ext allowed fuel) params s with
      | (.ok vs, t) =>
        if mayAsk allowed name vs then step ext (askRun ext allowed fuel) (.invoke name call params) s else (.diverge, t)
      | (_, _) => step ext (askRun ext allowed fuel) (.invoke name call params) s
    else step ext (askRun ext allowed fuel) (.invoke name call params) s

/-- Expanding the nodes `ns` in the state `s` finishes with outcome `r` and state `s'`, and the
`readers` are only called with argument values that are allowed. -/
def AskEvals (ext : Ext) (allowed : Str → Str → Bool) (ns : List PNode) (s : St) (r : Res (List PNode)) (s' : St) : Prop :=
  r ≠ .diverge ∧ ∃ fuel, expandNodes (askRun ext allowed fuel) ns s = (r, s')

/-- The world `ext` with other files, environment variables and directories. -/
def around (ext : Ext) (files : Str → Option Str) (env : Str → Option Str)
    (dirs : Str → Option (List (Option (Option GFile)))) : Ext :=
  { ext with readFile := files, envVar := env, glob := dirs }

/-- The two worlds give the same answers to everything that is allowed: `%include` and `%embed` find
the same file with the same text, or none in both; environment variables have the same values and
patterns the same matches. -/
structure SameAnswers (allowed : Str → Str → Bool) (ext ext' : Ext) : Prop where
  included : ∀ path, allowed (str! "include") path = true → ∀ file code,
    FirstRead ext (includeFiles ext path) file code ↔ FirstRead ext' (includeFiles ext' path) file code
  embedded : ∀ path, allowed (str! "embed") path = true → ∀ file code,
    FirstRead ext (embedFiles ext path) file code ↔ FirstRead ext' (embedFiles ext' path) file code
  matched : ∀ pattern, allowed (str! "glob") pattern = true → ext.glob pattern = ext'.glob pattern
  env : ∀ x, allowed (str! "os/env") x = true → ext.envVar x = ext'.envVar x

end Seam.Spec
