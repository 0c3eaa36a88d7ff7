import Verif.Model.Expander
import Verif.Model.Assemble

/-!
# Command line (crates/seam/src/bin.rs, crates/seam/src/lib.rs)
-/

namespace Seam

/-- The pieces of a path between slashes. -/
def slashPieces (acc : Str) : Str → List Str
  | [] => [acc]
  | c :: cs => if c == '/' then acc :: slashPieces [] cs else slashPieces (acc ++ [c]) cs

/-- `Path::components` after the first piece: empty pieces and `.` are skipped. -/
def restComps : List Str → List PComp
  | [] => []
  | p :: ps =>
    if p = [] ∨ p = ['.'] then restComps ps
    else if p = ['.', '.'] then .parent :: restComps ps
    else .normal p :: restComps ps

/-- `Path::components` (Unix): a leading slash is the root, a leading `.` is kept. -/
def pathComps (path : Str) : List PComp :=
  match slashPieces [] path with
  | [] => []
  | p :: ps =>
    if path.isEmpty then []
    else if p = [] then .root :: restComps ps
    else if p = ['.'] then .cur :: restComps ps
    else restComps (p :: ps)

/-- `Ord for PathBuf`. -/
def pathCmp (a b : Str) : Ordering := compsCmp (pathComps a) (pathComps b)

/-- `BTreeSet<PathBuf>::extend` / repeated `insert`. -/
def addDirs (set : List Str) (dirs : List Str) : List Str :=
  dirs.foldl (fun acc d => btInsert pathCmp d acc) set

/-- `Expander::new` (`includes` starts as `{"."}`, expander.rs:103) followed by
`add_includes`, expander.rs:119-125. -/
def includesOf (dirs : List Str) : List Str := addDirs [['.']] dirs

/-- `SUPPORTED_TARGETS`, bin.rs:18. -/
def supportedTargets : List Str := [str! "text", str! "sexp", str! "html", str! "xml", str! "css"]

/-- The mutable variables of `main`, bin.rs:25-29. -/
structure Opts where
  files : List Str
  target : Str
  dirs : List Str
  stdin : Bool
  doc : Bool
deriving DecidableEq, Repr

/-- The start values, bin.rs:25-29. -/
def Opts.init : Opts := { files := [], target := [], dirs := [], stdin := false, doc := true }

/-- What the processing of one argument leads to: go on, or end the process
(`argument_fatal`, exit status 1; `-v`, exit status 0). -/
inductive ArgOut
  | go (o : Opts)
  | fatal
  | version
deriving DecidableEq, Repr

/-- One argument, bin.rs:31-72.  `isThere` is `Path::exists`. -/
def cliStep (isThere : Str → Bool) (o : Opts) (arg : Str) : ArgOut :=
  if arg.head? = some '-' then
    match (splitStr arg ['-', '-'])[1]? with
    | some opt =>
      if opt ∈ supportedTargets then .go { o with target := opt }
      else if opt = str! "nodocument" ∨ opt = str! "nodoc" then .go { o with doc := false }
      else .fatal
    | none =>
      match (splitStr arg ['-'])[1]? with
      | some ['v'] => .version
      | some ('I' :: _) => .go { o with dirs := btInsert pathCmp (arg.drop 2) o.dirs }
      | some [] => .go { o with stdin := true }
      | some _ => .fatal
      | none => .go o
  else if isThere arg then .go { o with files := o.files ++ [arg] }
  else .fatal

/-- The argument loop, bin.rs:31-72. -/
def cliLoop (isThere : Str → Bool) (o : Opts) : List Str → ArgOut
  | [] => .go o
  | a :: as =>
    match cliStep isThere o a with
    | .go o' => cliLoop isThere o' as
    | r => r

/-- The formatter for a target, bin.rs:106-124; `none` is the `_` arm. -/
def generate (dbg : Str → Str) (target : Str) (doc : Bool) (tree : List PNode) : Option (Res Str) :=
  if target = str! "text" then some (.ok (textNodes tree))
  else if target = str! "sexp" then some (.ok (sexpNodes dbg tree))
  else if target = str! "html" then some (if doc then htmlDocument dbg tree else htmlGenerate dbg tree)
  else if target = str! "xml" then some (if doc then xmlDocument tree else xmlGenerate tree)
  else if target = str! "css" then some (if doc then cssDocument dbg tree else cssGenerate dbg tree)
  else none

/-- How the process ends. -/
inductive Exit
  | status (n : Nat)
  | panic
  | diverge
deriving DecidableEq, Repr

/-- One run of `generate_and_print`, bin.rs:98-133: the text printed to standard
output, and whether the process goes on (`none`) or ends. -/
def processOne (ext : Ext) (order : Order) (dbg : Str → Str) (fuel : Nat) (target : Str) (doc : Bool)
    (path code : Str) : Str × Option Exit :=
  match (expand ext order fuel path code).1 with
  | .err _ => ([], some (.status 1))
  | .panic => ([], some .panic)
  | .diverge => ([], some .diverge)
  | .ok tree =>
    match generate dbg target doc tree with
    | none => ([], some (.status 1))
    | some (.ok text) => (text ++ ['\n'], none)
    | some (.err _) => ([], some (.status 1))
    | some .panic => ([], some .panic)
    | some .diverge => ([], some .diverge)

/-- The world outside: which paths exist, what standard input contains (`none`
if it cannot be read as UTF-8), and the text a read of a file gives. -/
structure World where
  isThere : Str → Bool
  stdin : Option Str
  readFile : Str → Option Str

/-- A list of inputs (path, contents or read error), processed in order,
bin.rs:82-93. -/
def processAll (ext : Ext) (order : Order) (dbg : Str → Str) (fuel : Nat) (target : Str) (doc : Bool) :
    List (Str × Option Str) → Str × Exit
  | [] => ([], .status 0)
  | (_, none) :: _ => ([], .status 1)
  | (path, some code) :: rest =>
    match processOne ext order dbg fuel target doc path code with
    | (out, some e) => (out, e)
    | (out, none) =>
      let (more, e) := processAll ext order dbg fuel target doc rest
      (out ++ more, e)

/-- The inputs of a run: standard input first if it was asked for or no file is
given, bin.rs:74-93.  The path of standard input is `<stdin>`, lib.rs:65. -/
def inputsOf (w : World) (o : Opts) : List (Str × Option Str) :=
  (if o.stdin || o.files.isEmpty then [(str! "<stdin>", w.stdin)] else []) ++
    o.files.map (fun f => (f, w.readFile f))

/-- `main`, bin.rs:20-96, for the arguments after the program name.  The parts of
`Ext` other than the include directories are given. -/
def main_ (ext : Ext) (order : Order) (dbg : Str → Str) (w : World) (fuel : Nat) (args : List Str) : Str × Exit :=
  match cliLoop w.isThere Opts.init args with
  | .fatal => ([], .status 1)
  | .version => ([], .status 0)
  | .go o =>
    if o.target.isEmpty then ([], .status 1)
    else processAll { ext with includes := includesOf o.dirs } order dbg fuel o.target o.doc (inputsOf w o)

end Seam
