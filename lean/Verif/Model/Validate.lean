import Verif.Lemmas.EvalCheck
import Verif.Model.Assemble

/-!
# The model on the examples of the project

The kernel runs the model on sources from `crates/seam/src/tests.rs`, `README.md` and
`USAGE.md` and compares with the output recorded there.  These are tests of the model
(that it says what the program does), not proofs of properties.
-/

namespace Seam.Validate

/-- `{:?}` on text without characters to escape. -/
def quote (s : Str) : Str := '"' :: s ++ ['"']

/-- The outcome of a generator on the expanded source. -/
def output (ext : Ext) (gen : List PNode → Res Str) (code : Str) : Res Str :=
  match (expand ext (fun _ l => l) 40 (str! "<test>") code).1 with
  | .ok ns => gen ns
  | .err e => .err e
  | .panic => .panic
  | .diverge => .diverge

/-- The output is as expected. -/
def gives (r : Res Str) (out : Str) : Bool := r.okP (· == out)

/-- tests.rs:46-53, `test_reverse_macro`. -/
example : gives (output exExt (fun ns => .ok (PNode.displays quote ns)) (str! "(%reverse (a 3  2 1 2 s))"))
    (str! "(s 2  1 2 3 a)") = true := by decide +kernel

/-- README.md:66-75. -/
example : gives (output exExt (htmlDocument quote) (str! "(p Hello World)"))
    (str! "<!DOCTYPE html>\n<html>\n<head></head>\n<body>\n<p>Hello World</p>\n</body>\n</html>") = true := by decide +kernel

/-- README.md:76-80. -/
example : gives (output exExt (htmlGenerate quote) (str! "(p Hello World)")) (str! "<p>Hello World</p>") = true := by
  decide +kernel

/-- README.md:81-86. -/
example : gives (output { exExt with date := fun _ _ _ => some (str! "November, year 2020") } xmlDocument
      (str! "(para Today is a day in (%date \"%B, year %Y\").)"))
    (str! "<?xml version=\"1.0\" encoding=\"UTF-8\" ?>\n<para>Today is a day in November, year 2020.</para>") = true := by
  decide +kernel

/-- README.md:87-91. -/
example : gives (output exExt (fun ns => .ok (sexpNodes quote ns)) (str! "(hello (%define subject world) %subject)"))
    (str! "(hello world)") = true := by decide +kernel

/-- USAGE.md:21-40 (the line breaks after `<ul>` and before `</ul>` and the spelling
differ there). -/
example : gives (output exExt (htmlGenerate quote)
      (str! "(h1 :id heading Pound Cake)\n(ul (li 1 pound of sugar)\n\t(li 1 pound of (i self-raising) flor)\n\t(li 1 teaspoon (a :href \"https://wikipedia.org/wiki/Vanilla_extract\" vanilla)))"))
    (str! "<h1 id=\"heading\">Pound Cake</h1>\n<ul><li>1 pound of sugar</li>\n\t<li>1 pound of <i>self-raising</i> flor</li>\n\t<li>1 teaspoon <a href=\"https://wikipedia.org/wiki/Vanilla_extract\">vanilla</a></li></ul>") = true := by
  decide +kernel

end Seam.Validate
