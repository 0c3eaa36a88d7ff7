import Verif.Lemmas.Cli
import Verif.Lemmas.Paths
import Verif.Lemmas.EvalCheck

/-!
# Command line options, include directories, and what a run prints (C58–C60)
-/

namespace Seam
open Spec

/-! ## C58 -/

/-- C58: if every argument is documented and a target is given, the run processes
the inputs asked for (standard input first if asked for or if there are no files;
then the files in order) with the last target given; document generation is off
iff one of the arguments turns it off. -/
theorem C58_options_partial (ext : Ext) (order : Order) (dbg : Str → Str) (w : World) (fuel : Nat) (args : List Str)
    (wishes : List Wish) (target : Str) (h : Pairs (Asks w.isThere) args wishes) (ht : LastTarget wishes target) :
    ∃ includes, main_ ext order dbg w fuel args =
      processAll { ext with includes := includes } order dbg fuel target (decide (.noDocument ∉ wishes))
        (inputsFor w.stdin w.readFile wishes) :=
  ⟨_, main_asks h ht⟩

/-- C58: without a target nothing is printed and the status is 1. -/
theorem C58_no_target_partial (ext : Ext) (order : Order) (dbg : Str → Str) (w : World) (fuel : Nat) (args : List Str)
    (wishes : List Wish) (h : Pairs (Asks w.isThere) args wishes) (ht : ∀ t, .target t ∉ wishes) :
    main_ ext order dbg w fuel args = ([], .status 1) := by
  unfold main_
  have := cliLoop_asks h [] Opts.init
  rw [List.append_nil] at this
  rw [this, cliLoop]
  simp only
  rw [if_pos (by rw [fold_no_target _ ht]; rfl)]

/-- C58: after documented arguments, an unknown option or a file that does not exist
ends the run with status 1 and nothing is printed, whatever follows. -/
theorem C58_unknown_partial (ext : Ext) (order : Order) (dbg : Str → Str) (w : World) (fuel : Nat)
    (args : List Str) (wishes : List Wish) (a : Str) (rest : List Str) (h : Pairs (Asks w.isThere) args wishes)
    (ha : Unknown w.isThere a) : main_ ext order dbg w fuel (args ++ a :: rest) = ([], .status 1) := by
  unfold main_
  rw [cliLoop_asks h, cliLoop, unknown_step ha]

/-- C58: after documented arguments, `-v` ends the run with status 0 and nothing is
printed to standard output, whatever follows. -/
theorem C58_version (ext : Ext) (order : Order) (dbg : Str → Str) (w : World) (fuel : Nat)
    (args : List Str) (wishes : List Wish) (rest : List Str) (h : Pairs (Asks w.isThere) args wishes) :
    main_ ext order dbg w fuel (args ++ str! "-v" :: rest) = ([], .status 0) := by
  unfold main_
  rw [cliLoop_asks h, cliLoop, version_step]

/-- C58: every argument is documented, unknown, `-v`, or one of the malformed ones
that are left out above. -/
theorem C58_every_argument (isThere : Str → Bool) (a : Str) :
    (∃ w, Asks isThere a w) ∨ Unknown isThere a ∨ a = str! "-v" ∨ Malformed a := arg_cases isThere a

/-- C58: an argument asks for at most one thing and then it is not unknown, not `-v` and
not malformed. -/
theorem C58_one_meaning (isThere : Str → Bool) (a : Str) (w : Wish) (h : Asks isThere a w) :
    (∀ w', Asks isThere a w' → w' = w) ∧ ¬ Unknown isThere a ∧ a ≠ str! "-v" ∧ ¬ Malformed a := by
  have inj : ∀ w w', Opts.init.after w = Opts.init.after w' → w = w' := by
    intro w w' e
    cases w <;> cases w' <;> simp [Opts.after, Opts.init, btInsert] at e ⊢ <;> exact e
  refine ⟨fun w' h' => ?_, fun hu => ?_, ?_, ?_⟩
  · have h1 := asks_step h Opts.init
    rw [asks_step h' Opts.init] at h1
    exact inj _ _ (ArgOut.go.inj h1)
  · have h1 := asks_step h Opts.init
    rw [unknown_step hu Opts.init] at h1
    cases h1
  · rintro rfl
    have h1 := asks_step h Opts.init
    rw [version_step] at h1
    cases h1
  · rintro ⟨s, rfl, h2⟩
    have key : ∀ t ∈ [str! "text", str! "sexp", str! "html", str! "xml", str! "css", str! "nodocument", str! "nodoc"],
      '-' ∉ t ∧ t.head? ≠ some 'v' := by decide
    cases h with
    | target t ht =>
      have ht' : t ∈ [str! "text", str! "sexp", str! "html", str! "xml", str! "css", str! "nodocument", str! "nodoc"] := by
        simp only [List.mem_cons, List.not_mem_nil, or_false] at ht ⊢
        rcases ht with h | h | h | h | h <;> simp [h]
      rcases h2 with ⟨a, b, e⟩ | ⟨x, e⟩
      · cases a with
        | nil =>
          have := (List.cons.inj e).2
          exact (key t ht').1 (by rw [this]; simp)
        | cons c a =>
          have := (List.cons.inj e).2
          exact (key t ht').1 (by rw [this]; simp)
      · have := (List.cons.inj e).1
        revert this; decide
    | noDocument =>
      rcases h2 with ⟨a, b, e⟩ | ⟨x, e⟩
      · cases a with
        | nil => have := (List.cons.inj (List.cons.inj e).2).1; revert this; decide
        | cons c a =>
          have := (List.cons.inj e).2
          exact (key (str! "nodocument") (by decide)).1 (by rw [this]; simp)
      · have := (List.cons.inj e).1
        revert this; decide
    | noDoc =>
      rcases h2 with ⟨a, b, e⟩ | ⟨x, e⟩
      · cases a with
        | nil => have := (List.cons.inj (List.cons.inj e).2).1; revert this; decide
        | cons c a =>
          have := (List.cons.inj e).2
          exact (key (str! "nodoc") (by decide)).1 (by rw [this]; simp)
      · have := (List.cons.inj e).1
        revert this; decide
    | dir d hd =>
      rcases h2 with h2 | ⟨x, e⟩
      · exact not_two_cons (by decide) hd h2
      · have := (List.cons.inj e).1
        revert this; decide
    | stdin =>
      rcases h2 with ⟨a, b, e⟩ | ⟨x, e⟩
      · cases a <;> cases e
      · cases e
    | file f hf => exact hf rfl

/-- C58 for all argument lists: either all arguments ask for something (a malformed one with
the name of a documented option between double dashes asks for that option), and then the run
is the one asked for, or without a target it ends with status 1; or the run ends at the first
argument that does not, with status 0 for `-v` (or `-v-…`) and 1 otherwise. -/
theorem C58_exactly (ext : Ext) (order : Order) (dbg : Str → Str) (w : World) (fuel : Nat) (args : List Str) :
    (∃ wishes, Pairs (Meant w.isThere) args wishes ∧
      ((∃ target includes, LastTarget wishes target ∧ main_ ext order dbg w fuel args =
          processAll { ext with includes := includes } order dbg fuel target (decide (.noDocument ∉ wishes))
            (inputsFor w.stdin w.readFile wishes)) ∨
        ((∀ t, .target t ∉ wishes) ∧ main_ ext order dbg w fuel args = ([], .status 1)))) ∨
    ∃ pre a post wishes n, args = pre ++ a :: post ∧ Pairs (Meant w.isThere) pre wishes ∧ Stops w.isThere a n ∧
      main_ ext order dbg w fuel args = ([], .status n) := by
  rcases args_split w.isThere args with ⟨ws, h⟩ | ⟨pre, a, post, ws, n, rfl, h, ha⟩
  · refine .inl ⟨ws, h, ?_⟩
    rcases lastTarget_cases ws with ht | ⟨t, ht⟩
    · refine .inr ⟨ht, ?_⟩
      unfold main_
      have := cliLoop_meant h [] Opts.init
      rw [List.append_nil] at this
      rw [this, cliLoop]
      simp only
      rw [if_pos (by rw [fold_no_target _ ht]; rfl)]
    · exact .inl ⟨t, _, ht, main_meant h ht⟩
  · refine .inr ⟨pre, a, post, ws, n, rfl, h, ha, ?_⟩
    unfold main_
    rw [cliLoop_meant h, cliLoop]
    rcases stops_step ha (List.foldl Opts.after Opts.init ws) with ⟨rfl, e⟩ | ⟨rfl, e⟩ <;> rw [e]

/-- C58: what an argument means is unambiguous. -/
theorem C58_meaning (isThere : Str → Bool) (a : Str) :
    ((∃ w, Meant isThere a w) ∨ ∃ n, Stops isThere a n) ∧ (∀ w w', Meant isThere a w → Meant isThere a w' → w = w') ∧
      (∀ n n', Stops isThere a n → Stops isThere a n' → n = n') ∧ ∀ w n, Meant isThere a w → ¬ Stops isThere a n := by
  have inj : ∀ w w', Opts.init.after w = Opts.init.after w' → w = w' := by
    intro w w' e
    cases w <;> cases w' <;> simp [Opts.after, Opts.init, btInsert] at e ⊢ <;> exact e
  refine ⟨meant_total isThere a, fun w w' h h' => ?_, fun n n' h h' => ?_, fun w n h h' => ?_⟩
  · exact inj _ _ (ArgOut.go.inj ((meant_step h Opts.init).symm.trans (meant_step h' Opts.init)))
  · rcases stops_step h Opts.init with ⟨rfl, e⟩ | ⟨rfl, e⟩ <;> rcases stops_step h' Opts.init with ⟨rfl, e'⟩ | ⟨rfl, e'⟩ <;>
      first | rfl | (rw [e] at e'; cases e')
  · rcases stops_step h' Opts.init with ⟨_, e⟩ | ⟨_, e⟩ <;> rw [meant_step h] at e <;> cases e

/-- `-x--html--y` asks for HTML. -/
example : Meant (fun _ => false) (str! "-x--html--y") (.target (str! "html")) := by
  have two : ∀ s : Str, ((List.zip s (s.drop 1)).all fun p => !(p.1 == '-' && p.2 == '-')) = true → ¬ HasTwoDashes s := by
    rintro s h ⟨a, b, rfl⟩
    have h1 := List.all_eq_true.1 h ('-', '-') (by
      refine List.mem_of_getElem? (i := a.length) ?_
      rw [List.getElem?_zip_eq_some]
      simp)
    simp at h1
  exact .target _ (str! "html") rfl ⟨str! "-x", two _ (by decide), .inr ⟨str! "y", by decide, two _ (by decide)⟩⟩ (by decide)

/-- C58 is false for all argument lists: the unknown option `-x--html` is taken for
`--html`. -/
theorem C58_unknown_false : ∃ (arg : Str) (o : Opts), arg = str! "-x--html" ∧
    cliLoop (fun _ => false) Opts.init [arg] = .go o ∧ o.target = str! "html" :=
  ⟨str! "-x--html", { Opts.init with target := str! "html" }, rfl, by decide, rfl⟩

/-- C58 is false for all argument lists: the include directory `a--b` is taken for an
unknown option. -/
theorem C58_dir_false : ∃ d : Str, d = str! "a--b" ∧ cliLoop (fun _ => false) Opts.init ['-' :: 'I' :: d] = .fatal :=
  ⟨str! "a--b", rfl, by decide⟩

example : Pairs (Asks (fun f => f == str! "page.sex"))
    [str! "--css", str! "-Ilib", str! "page.sex", str! "--nodoc", str! "--html", str! "-"]
    [.target (str! "css"), .dir (str! "lib"), .file (str! "page.sex"), .noDocument, .target (str! "html"), .stdin] :=
  .cons (.target _ (by decide)) (.cons (.dir _ (by
    rintro ⟨a, b, e⟩
    have : '-' ∈ str! "lib" := by rw [e]; simp
    revert this; decide)) (.cons (.file _ (by decide) (by decide)) (.cons .noDoc
    (.cons (.target _ (by decide)) (.cons .stdin .nil)))))

example : LastTarget [.target (str! "css"), .noDocument, .target (str! "html"), .stdin] (str! "html") :=
  ⟨[.target (str! "css"), .noDocument], [.stdin], rfl, by simp⟩

example : Unknown (fun _ => true) (str! "--pdf") :=
  .long (str! "pdf") (by
    rintro ⟨a, b, e⟩
    have : '-' ∈ str! "pdf" := by rw [e]; simp
    revert this; decide) (by decide)

example : Unknown (fun _ => false) (str! "nowhere.sex") := .missing _ (by decide) rfl

/-! ## C59 -/

/-- C59: for include directories that are plain names, the directories searched are
the current directory, then the names given, without repetitions and in alphabetical
order (not in the order given). -/
theorem C59_names_partial (ext : Ext) (order : Order) (dbg : Str → Str) (w : World) (fuel : Nat) (args : List Str)
    (wishes : List Wish) (target : Str) (h : Pairs (Asks w.isThere) args wishes) (ht : LastTarget wishes target)
    (hn : ∀ d, .dir d ∈ wishes → PlainName d) :
    ∃ dirs, main_ ext order dbg w fuel args =
        processAll { ext with includes := str! "." :: dirs } order dbg fuel target (decide (.noDocument ∉ wishes))
          (inputsFor w.stdin w.readFile wishes) ∧
      dirs.Pairwise (fun a b => LexLe a b ∧ a ≠ b) ∧ ∀ d, d ∈ dirs ↔ .dir d ∈ wishes := by
  obtain ⟨dirs, h1, h2, h3⟩ := includesOf_names (dirsOf wishes) (fun d hd => hn d ((mem_dirsOf d wishes).1 hd))
  refine ⟨dirs, ?_, h2, fun d => by rw [h3, mem_dirsOf]⟩
  rw [main_asks h ht, h1]

/-- C59: in general the directories searched are the current directory and the ones
given, ascending in the order of paths and without repetitions, where different ways to write
a path count as one. -/
theorem C59_sorted_partial (ext : Ext) (order : Order) (dbg : Str → Str) (w : World) (fuel : Nat) (args : List Str)
    (wishes : List Wish) (target : Str) (h : Pairs (Asks w.isThere) args wishes) (ht : LastTarget wishes target) :
    ∃ dirs, main_ ext order dbg w fuel args =
        processAll { ext with includes := dirs } order dbg fuel target (decide (.noDocument ∉ wishes))
          (inputsFor w.stdin w.readFile wishes) ∧
      dirs.Pairwise PathBefore ∧
      (∀ d ∈ dirs, d = str! "." ∨ .dir d ∈ wishes) ∧
      ∀ d, d = str! "." ∨ .dir d ∈ wishes → ∃ d' ∈ dirs, SamePath d d' := by
  simp only [show PathBefore = fun a b => pathCmp a b = .lt from funext fun a => funext fun b => propext (pathBefore_iff a b),
    samePath_iff]
  obtain ⟨h1, h2, h3⟩ := includesOf_sorted (dirsOf wishes)
  refine ⟨_, main_asks h ht, h1, fun d hd => ?_, fun d hd => h3 d ?_⟩
  · rw [← mem_dirsOf]
    exact h2 d hd
  · rw [mem_dirsOf]
    exact hd

/-- C59: directories given in ascending order (after the current directory) are
searched in the order given. -/
theorem C59_ascending_partial (ext : Ext) (order : Order) (dbg : Str → Str) (w : World) (fuel : Nat) (args : List Str)
    (wishes : List Wish) (target : Str) (h : Pairs (Asks w.isThere) args wishes) (ht : LastTarget wishes target)
    (hp : (str! "." :: dirsOf wishes).Pairwise PathBefore) :
    main_ ext order dbg w fuel args =
      processAll { ext with includes := str! "." :: dirsOf wishes } order dbg fuel target
        (decide (.noDocument ∉ wishes)) (inputsFor w.stdin w.readFile wishes) := by
  have ha : (str! "." :: dirsOf wishes).Pairwise fun a b => pathCmp a b = .lt :=
    hp.imp fun h => (pathBefore_iff _ _).1 h
  rw [main_asks h ht]
  have h1 : addDirs [] (dirsOf wishes) = dirsOf wishes :=
    addDirs_ascending _ [] (by simpa using (List.pairwise_cons.1 ha).2)
  have h2 : includesOf (dirsOf wishes) = str! "." :: dirsOf wishes := addDirs_ascending _ [['.']] ha
  rw [h1, h2]

/-- A directory `a` and a directory `b`, each with a file `x`. -/
def exTwoDirs : Ext := { exExt with
  readFile := fun p => if p = str! "a/x" then some (str! "from-a") else if p = str! "b/x" then some (str! "from-b") else none }

/-- No files; standard input includes `x`. -/
def exWorld : World := { isThere := fun _ => false, stdin := some (str! "(%include x)"), readFile := fun _ => none }

/-- C59 is false: with `-Ib -Ia` the file in `a` is included although `b` is given
first. -/
theorem C59_order_false : main_ exTwoDirs (fun _ l => l) (fun s => s) exWorld 9 [str! "-Ib", str! "-Ia", str! "--text"] =
    (str! "from-a\n", .status 0) := by decide +kernel

example : ∀ d, .dir d ∈ [Wish.dir (str! "b"), .dir (str! "a"), .target (str! "text")] → PlainName d := by
  intro d h
  simp only [List.mem_cons, Wish.dir.injEq, reduceCtorEq, List.not_mem_nil, or_false] at h
  rcases h with rfl | rfl <;> exact ⟨by decide, by decide, by decide, by decide⟩

example : (str! "." :: dirsOf [.dir (str! "../lib"), .dir (str! "a/b"), .dir (str! "c")]).Pairwise PathBefore := by
  refine List.Pairwise.imp (R := fun a b => pathCmp a b = .lt) (fun h => (pathBefore_iff _ _).2 h) ?_
  decide

/-- C59: every text is the spelling of just one path. -/
theorem C59_path (a : Str) : ∃ p, PathOf a p ∧ ∀ q, PathOf a q → q = p :=
  ⟨_, (pathOf_iff a _).2 rfl, fun q h => ((pathOf_iff a q).1 h).symm⟩

/-- `a/./b//` is another way to write `a/b`, and `./a` is not another way to write `a`. -/
example : SamePath (str! "a/./b//") (str! "a/b") ∧ ¬ SamePath (str! "./a") (str! "a") := by
  rw [samePath_iff, samePath_iff]; decide

/-! ## C60 -/

/-- C60: whatever happens, what is printed is the complete text of the first inputs;
if all of them are printed the status is 0, otherwise the next input failed (status 1),
panicked, or is still being processed (the model ran out of fuel). -/
theorem C60_prefix (ext : Ext) (order : Order) (dbg : Str → Str) (fuel : Nat) (target : Str) (doc : Bool)
    (inputs : List (Str × Option Str)) (out : Str) (e : Exit)
    (ht : target ∈ [str! "text", str! "sexp", str! "html", str! "xml", str! "css"])
    (h : processAll ext order dbg fuel target doc inputs = (out, e)) :
    ∃ done texts rest, inputs = done ++ rest ∧ Pairs (Prints ext order dbg target doc) done texts ∧ out = lines texts ∧
      ((rest = [] ∧ e = .status 0) ∨ ∃ i more, rest = i :: more ∧
        ((Fails ext order dbg target doc i ∧ e = .status 1) ∨ (Panics ext order dbg target doc i ∧ e = .panic) ∨
          e = .diverge)) := by
  induction inputs generalizing out e with
  | nil =>
    obtain ⟨rfl, rfl⟩ := Prod.mk.inj h
    exact ⟨[], [], [], rfl, .nil, rfl, Or.inl ⟨rfl, rfl⟩⟩
  | cons i rest ih =>
    rcases processAll_cons (ext := ext) (order := order) (dbg := dbg) (fuel := fuel) (doc := doc) ht i rest with
      ⟨h1, h2⟩ | ⟨h1, h2⟩ | h2 | ⟨text, h1, h2⟩ <;> rw [h2] at h <;> obtain ⟨rfl, rfl⟩ := Prod.mk.inj h
    · exact ⟨[], [], _, rfl, .nil, rfl, Or.inr ⟨i, rest, rfl, Or.inl ⟨h1, rfl⟩⟩⟩
    · exact ⟨[], [], _, rfl, .nil, rfl, Or.inr ⟨i, rest, rfl, Or.inr (Or.inl ⟨h1, rfl⟩)⟩⟩
    · exact ⟨[], [], _, rfl, .nil, rfl, Or.inr ⟨i, rest, rfl, Or.inr (Or.inr rfl)⟩⟩
    · obtain ⟨done, texts, rest', e1, e2, e3, e4⟩ := ih _ _ rfl
      exact ⟨i :: done, text :: texts, rest', by rw [e1]; rfl, .cons h1 e2, by rw [e3]; rfl, e4⟩

/-- C60: if some inputs can be printed and the next one fails, exactly the texts of the
former are printed and the status is 1, whatever inputs follow. -/
theorem C60_failure (ext : Ext) (order : Order) (dbg : Str → Str) (target : Str) (doc : Bool)
    (done : List (Str × Option Str)) (texts : List Str) (i : Str × Option Str) (rest : List (Str × Option Str))
    (h : Pairs (Prints ext order dbg target doc) done texts) (hi : Fails ext order dbg target doc i) :
    ∃ f, ∀ g, f ≤ g → processAll ext order dbg g target doc (done ++ i :: rest) = (lines texts, .status 1) := by
  refine ((processAll_prints h (i :: rest)).and (processAll_fails hi rest)).mono fun f hf => ?_
  rw [hf.1, hf.2, List.append_nil]

/-- C60: the same for an input that panics. -/
theorem C60_panic (ext : Ext) (order : Order) (dbg : Str → Str) (target : Str) (doc : Bool)
    (done : List (Str × Option Str)) (texts : List Str) (i : Str × Option Str) (rest : List (Str × Option Str))
    (h : Pairs (Prints ext order dbg target doc) done texts) (hi : Panics ext order dbg target doc i) :
    ∃ f, ∀ g, f ≤ g → processAll ext order dbg g target doc (done ++ i :: rest) = (lines texts, .panic) := by
  refine ((processAll_prints h (i :: rest)).and (processAll_panics hi rest)).mono fun f hf => ?_
  rw [hf.1, hf.2, List.append_nil]

/-- C60: if all inputs can be printed, their texts are printed in order and the status
is 0. -/
theorem C60_success (ext : Ext) (order : Order) (dbg : Str → Str) (target : Str) (doc : Bool)
    (inputs : List (Str × Option Str)) (texts : List Str) (h : Pairs (Prints ext order dbg target doc) inputs texts) :
    ∃ f, ∀ g, f ≤ g → processAll ext order dbg g target doc inputs = (lines texts, .status 0) := by
  refine (processAll_prints h []).mono fun f hf => ?_
  rw [List.append_nil] at hf
  rw [hf]
  simp [processAll]

/-- C60: an input has one fate: it does not both print and fail, and not two texts. -/
theorem C60_one_outcome (ext : Ext) (order : Order) (dbg : Str → Str) (target : Str) (doc : Bool)
    (i : Str × Option Str) (text : Str) (h : Prints ext order dbg target doc i text) :
    ¬ Fails ext order dbg target doc i ∧ ¬ Panics ext order dbg target doc i ∧
      ∀ text', Prints ext order dbg target doc i text' → text' = text := by
  obtain ⟨code, tree, hc, hE, hr⟩ := h
  refine ⟨?_, ?_, ?_⟩
  · rintro (h | ⟨code', hc', ⟨e, hE'⟩ | ⟨tree', e, hE', hr'⟩⟩)
    · rw [hc] at h; cases h
    · rw [hc] at hc'; cases hc'
      cases hE.unique hE'
    · rw [hc] at hc'; cases hc'
      cases hE.unique hE'
      rw [hr] at hr'; cases hr'
  · rintro ⟨code', hc', hE' | ⟨tree', hE', hr'⟩⟩
    · rw [hc] at hc'; cases hc'
      cases hE.unique hE'
    · rw [hc] at hc'; cases hc'
      cases hE.unique hE'
      rw [hr] at hr'; cases hr'
  · rintro text' ⟨code', tree', hc', hE', hr'⟩
    rw [hc] at hc'; cases hc'
    cases hE.unique hE'
    rw [hr] at hr'; cases hr'; rfl

/-- The first input is printed, the second one calls an undefined macro. -/
def exInputs : List (Str × Option Str) := [(str! "one", some (str! "(p a)")), (str! "two", some (str! "(%oops)")), (str! "three", none)]

example : processAll exExt (fun _ l => l) (fun s => s) 9 (str! "html") false exInputs = (str! "<p>a</p>\n", .status 1) := by
  decide +kernel

/-- The first input is printed, the others fail; `(\\)` panics in HTML. -/
theorem exInputs_one : Prints exExt (fun _ l => l) (fun s => s) (str! "html") false (str! "one", some (str! "(p a)")) (str! "<p>a</p>") := by
  have h : ((expand exExt (fun _ l => l) 9 (str! "one") (str! "(p a)")).1.okP fun tree =>
      decide (render (fun s => s) (str! "html") false tree = some (.ok (str! "<p>a</p>")))) = true := by decide +kernel
  obtain ⟨tree, h1, h2⟩ := Res.okP_elim h
  exact ⟨_, tree, rfl, expandsTo_iff.2 ⟨by simp, 9, h1⟩, of_decide_eq_true h2⟩
theorem exInputs_two : Fails exExt (fun _ l => l) (fun s => s) (str! "html") false (str! "two", some (str! "(%oops)")) := by
  obtain ⟨e, h, _⟩ := Res.errP_elim (r := (expand exExt (fun _ l => l) 9 (str! "two") (str! "(%oops)")).1) (p := fun _ => true)
    (by decide +kernel)
  exact .inr ⟨_, rfl, .inl ⟨e, expandsTo_iff.2 ⟨by simp, 9, h⟩⟩⟩
theorem exInputs_bad : Panics exExt (fun _ l => l) (fun s => s) (str! "html") false (str! "bad", some (str! "(\\\\)")) := by
  have h : ((expand exExt (fun _ l => l) 9 (str! "bad") (str! "(\\\\)")).1.okP fun tree =>
      decide (render (fun s => s) (str! "html") false tree = some .panic)) = true := by decide +kernel
  obtain ⟨tree, h1, h2⟩ := Res.okP_elim h
  exact ⟨_, rfl, .inr ⟨tree, expandsTo_iff.2 ⟨by simp, 9, h1⟩, of_decide_eq_true h2⟩⟩

example : ∃ f, ∀ g, f ≤ g → processAll exExt (fun _ l => l) (fun s => s) g (str! "html") false exInputs =
    (lines [str! "<p>a</p>"], .status 1) :=
  C60_failure _ _ _ _ _ [_] _ _ [_] (.cons exInputs_one .nil) exInputs_two
example : ∃ f, ∀ g, f ≤ g → processAll exExt (fun _ l => l) (fun s => s) g (str! "html") false
    [(str! "one", some (str! "(p a)")), (str! "bad", some (str! "(\\\\)")), (str! "three", none)] = (lines [str! "<p>a</p>"], .panic) :=
  C60_panic _ _ _ _ _ [_] _ _ [_] (.cons exInputs_one .nil) exInputs_bad
example : ∃ f, ∀ g, f ≤ g → processAll exExt (fun _ l => l) (fun s => s) g (str! "html") false
    [(str! "one", some (str! "(p a)")), (str! "one", some (str! "(p a)"))] = (str! "<p>a</p>\n<p>a</p>\n", .status 0) :=
  C60_success _ _ _ _ _ _ _ (.cons exInputs_one (.cons exInputs_one .nil))

end Seam
