import Verif.Model.Cli
import Verif.Spec.Pairs
import Verif.Spec.Eval

/-!
# What the command line options mean and what a run prints (specification)
-/

namespace Seam.Spec

/-- What one argument asks for. -/
inductive Wish
  | target (t : Str)
  | noDocument
  | dir (d : Str)
  | stdin
  | file (f : Str)
deriving DecidableEq, Repr

/-- Two dashes in a row somewhere in the text. -/
def HasTwoDashes (s : Str) : Prop := ∃ a b : Str, s = a ++ '-' :: '-' :: b

/-- The documented arguments. -/
inductive Asks (isThere : Str → Bool) : Str → Wish → Prop
  | target (t : Str) : t ∈ [str! "text", str! "sexp", str! "html", str! "xml", str! "css"] →
      Asks isThere ('-' :: '-' :: t) (.target t)
  | noDocument : Asks isThere (str! "--nodocument") .noDocument
  | noDoc : Asks isThere (str! "--nodoc") .noDocument
  | dir (d : Str) : ¬ HasTwoDashes d → Asks isThere ('-' :: 'I' :: d) (.dir d)
  | stdin : Asks isThere ['-'] .stdin
  | file (f : Str) : f.head? ≠ some '-' → isThere f = true → Asks isThere f (.file f)

/-- Arguments that are neither documented nor one of the accepted malformed ones
(text before a second `--`, or `-v-…`). -/
inductive Unknown (isThere : Str → Bool) : Str → Prop
  | long (x : Str) : ¬ HasTwoDashes x →
      x ∉ [str! "text", str! "sexp", str! "html", str! "xml", str! "css", str! "nodocument", str! "nodoc"] →
      Unknown isThere ('-' :: '-' :: x)
  | short (c : Char) (x : Str) : ¬ HasTwoDashes ('-' :: c :: x) → c ≠ 'I' →
      ¬ (c = 'v' ∧ (x = [] ∨ x.head? = some '-')) → Unknown isThere ('-' :: c :: x)
  | missing (f : Str) : f.head? ≠ some '-' → isThere f = false → Unknown isThere f

/-- The malformed arguments the program does not treat as unknown options: a second
`--` after the leading dash, and `-v-…`. -/
def Malformed (arg : Str) : Prop :=
  ∃ s, arg = '-' :: s ∧ (HasTwoDashes s ∨ ∃ x, s = 'v' :: '-' :: x)

/-- `t` is the text between the first two dashes in a row and the next (or the end). -/
def BetweenDashes (arg t : Str) : Prop :=
  ∃ a, ¬ HasTwoDashes (a ++ ['-']) ∧ ((arg = a ++ '-' :: '-' :: t ∧ ¬ HasTwoDashes t) ∨
    ∃ b, arg = a ++ '-' :: '-' :: (t ++ '-' :: '-' :: b) ∧ ¬ HasTwoDashes (t ++ ['-']))

/-- All arguments that ask for something: the documented ones and malformed ones with the
name of a documented option between double dashes. -/
inductive Meant (isThere : Str → Bool) : Str → Wish → Prop
  | asks (a : Str) (w : Wish) : Asks isThere a w → Meant isThere a w
  | target (a t : Str) : a.head? = some '-' → BetweenDashes a t →
      t ∈ [str! "text", str! "sexp", str! "html", str! "xml", str! "css"] → Meant isThere a (.target t)
  | noDocument (a t : Str) : a.head? = some '-' → BetweenDashes a t → t ∈ [str! "nodocument", str! "nodoc"] →
      Meant isThere a .noDocument

/-- All arguments that end the run, and the status with which it ends. -/
inductive Stops (isThere : Str → Bool) : Str → Nat → Prop
  | unknown (a : Str) : Unknown isThere a → Stops isThere a 1
  | between (a t : Str) : a.head? = some '-' → BetweenDashes a t →
      t ∉ [str! "text", str! "sexp", str! "html", str! "xml", str! "css", str! "nodocument", str! "nodoc"] → Stops isThere a 1
  | version : Stops isThere (str! "-v") 0
  | versionDash (x : Str) : ¬ HasTwoDashes ('-' :: x) → Stops isThere ('-' :: 'v' :: '-' :: x) 0

/-- The files asked for, in order. -/
def filesOf : List Wish → List Str
  | [] => []
  | .file f :: ws => f :: filesOf ws
  | _ :: ws => filesOf ws

/-- The directories asked for, in order. -/
def dirsOf : List Wish → List Str
  | [] => []
  | .dir d :: ws => d :: dirsOf ws
  | _ :: ws => dirsOf ws

/-- `t` is the last target asked for. -/
def LastTarget (ws : List Wish) (t : Str) : Prop :=
  ∃ a b, ws = a ++ .target t :: b ∧ ∀ t', .target t' ∉ b

/-- A name of a directory without slashes, and not `.` or `..`. -/
def PlainName (s : Str) : Prop := s ≠ [] ∧ '/' ∉ s ∧ s ≠ str! "." ∧ s ≠ str! ".."

/-- The inputs asked for: standard input first if it is asked for or there are no
files, then the files in order. -/
def inputsFor (stdin : Option Str) (readFile : Str → Option Str) (ws : List Wish) : List (Str × Option Str) :=
  (if .stdin ∈ ws ∨ filesOf ws = [] then [(str! "<stdin>", stdin)] else []) ++
    (filesOf ws).map fun f => (f, readFile f)

/-- `r` is the outcome for the document `code`: it is read as buffer 1, then its nodes are expanded by a
new expander.  A document that cannot be read fails with the error of the reader. -/
def ExpandsTo (ext : Ext) (order : Order) (path code : Str) (r : Res (List PNode)) : Prop :=
  (∃ tree t, parse ext.unescape { path := path, id := 1, code := code } = .ok tree ∧
    Evals ext tree { scope := Scope.empty, fresh := 2, log := [], hashes := 0, order := order } r t) ∨
  (∃ e, parse ext.unescape { path := path, id := 1, code := code } = .err e ∧ r = .err e) ∨
  (parse ext.unescape { path := path, id := 1, code := code } = .panic ∧ r = .panic)

/-- What is printed for an expanded document and a target. -/
def render (dbg : Str → Str) : Str → Bool → List PNode → Option (Res Str)
  | ['t', 'e', 'x', 't'], _, tree => some (.ok (textNodes tree))
  | ['s', 'e', 'x', 'p'], _, tree => some (.ok (sexpNodes dbg tree))
  | ['h', 't', 'm', 'l'], true, tree => some (htmlDocument dbg tree)
  | ['h', 't', 'm', 'l'], false, tree => some (htmlGenerate dbg tree)
  | ['x', 'm', 'l'], true, tree => some (xmlDocument tree)
  | ['x', 'm', 'l'], false, tree => some (xmlGenerate tree)
  | ['c', 's', 's'], true, tree => some (cssDocument dbg tree)
  | ['c', 's', 's'], false, tree => some (cssGenerate dbg tree)
  | _, _, _ => none

/-- An input is printed as `text`. -/
def Prints (ext : Ext) (order : Order) (dbg : Str → Str) (target : Str) (doc : Bool)
    (input : Str × Option Str) (text : Str) : Prop :=
  ∃ code tree, input.2 = some code ∧ ExpandsTo ext order input.1 code (.ok tree) ∧
    render dbg target doc tree = some (.ok text)

/-- An input cannot be read, expanded or printed because of an error. -/
def Fails (ext : Ext) (order : Order) (dbg : Str → Str) (target : Str) (doc : Bool)
    (input : Str × Option Str) : Prop :=
  input.2 = none ∨ ∃ code, input.2 = some code ∧
    ((∃ e, ExpandsTo ext order input.1 code (.err e)) ∨
      ∃ tree e, ExpandsTo ext order input.1 code (.ok tree) ∧ render dbg target doc tree = some (.err e))

/-- Processing an input panics. -/
def Panics (ext : Ext) (order : Order) (dbg : Str → Str) (target : Str) (doc : Bool)
    (input : Str × Option Str) : Prop :=
  ∃ code, input.2 = some code ∧ (ExpandsTo ext order input.1 code .panic ∨
    ∃ tree, ExpandsTo ext order input.1 code (.ok tree) ∧ render dbg target doc tree = some .panic)

/-- The texts, each followed by a line break. -/
def lines : List Str → Str
  | [] => []
  | t :: ts => t ++ '\n' :: lines ts

end Seam.Spec
