import Verif.Lemmas.Cases
import Verif.Lemmas.Glob
import Verif.Lemmas.EvalCheck
import Verif.Props.Lists

/-!
# Properties of `%glob` (C56)

`vs` are the expanded arguments of the call `c`; `u` is the state after their expansion.
What the file system delivers for a pattern is a parameter (`ext.glob`); here it is the
list `files`.  The orders are defined in Spec/Glob.
-/

namespace Seam
open Spec

/-- C56: with a `sort` option, every matching file of the wanted type is listed exactly once,
in the order asked for.
Missing: files that lack the time stamp, or that are neither regular files nor directories
(`C56_time_false`, `C56_type_false`), and files whose data cannot be read
(`C56_dangling_panics`). -/
theorem C56_sorted_partial (ext : Ext) (c n : PNode) (args vs : List PNode) (a : Node) (type sort order : Option Node)
    (by_ : SortBy) (files : List GFile) (s u : St)
    (hc : IsCall (str! "glob") args c) (ha : Evals ext args s (.ok vs) u)
    (hp : positional vs = [n]) (hl : Literal n a) (hn : NamedArgs GlobOption vs) (ht : Given (str! "type") vs type)
    (hs : Given (str! "sort") vs sort) (hk : SortKey (sort.map (·.value)) by_) (ho : Given (str! "order") vs order)
    (hg : ext.glob a.value = some (files.map fun f => some (some f)))
    (hf : ∀ f ∈ globKept (type.map (·.value)) files, Orderable by_ f) (hd : (files.map (·.comps)).Nodup) :
    ∃ out, Evals ext [c] s (.ok (fileNodes a.site out)) u ∧ out.Perm (globKept (type.map (·.value)) files) ∧
      out.Pairwise fun f g => if order.map (·.value) = some (str! "descending") then GlobBefore by_ g f else GlobBefore by_ f g := by
  rw [globWanted_iff] at *
  obtain ⟨h1, h2⟩ := globFold_sorted (by_ := by_) (files.filter (globWanted (type.map (·.value)))) [] (by simpa using hf)
    (by
      rw [List.nil_append]
      exact List.Sublist.nodup (List.filter_sublist.map _) hd) .nil
  refine ⟨if isAscending order then globFold by_ [] (files.filter (globWanted (type.map (·.value))))
    else (globFold by_ [] (files.filter (globWanted (type.map (·.value))))).reverse, (glob_runs hc ha hp hl hn ht hs hk ho).2 ⟨by simp, ?_⟩, ?_, ?_⟩
  · rw [hg]
    simp only [globCollect_ok]
    rw [← fileNodes_eq]
    rfl
  · split
    · exact h2
    · exact (List.reverse_perm _).trans h2
  · rw [isAscending_iff hn ho]
    by_cases hd : order.map (·.value) = some (str! "descending")
    · rw [if_neg (by simp [hd]), List.pairwise_reverse]
      exact h1.imp fun h => by rw [if_pos hd]; exact h
    · rw [if_pos (by simpa using hd)]
      exact h1.imp fun h => by rw [if_neg hd]; exact h

/-- C56: there is only one such arrangement. -/
theorem C56_unique (by_ : SortBy) (files xs ys : List GFile) (hx : xs.Perm files) (hy : ys.Perm files)
    (h : xs.Pairwise (GlobBefore by_)) (h' : ys.Pairwise (GlobBefore by_)) : xs = ys := by
  refine List.Perm.eq_of_pairwise (le := GlobBefore by_) (fun f g _ _ h1 h2 => ?_) h h' (hx.trans hy.symm)
  exact absurd (globBefore_trans h1 h2) (globBefore_irrefl f)

/-- C56: without a `sort` option (or with `none`) every matching file of the wanted type is
listed exactly once; the order is the opposite of that in which the file system search delivers
them, or, with `:order descending`, the same. -/
theorem C56_unsorted (ext : Ext) (c n : PNode) (args vs : List PNode) (a : Node) (type sort order : Option Node)
    (files : List GFile) (s u : St)
    (hc : IsCall (str! "glob") args c) (ha : Evals ext args s (.ok vs) u)
    (hp : positional vs = [n]) (hl : Literal n a) (hn : NamedArgs GlobOption vs) (ht : Given (str! "type") vs type)
    (hs : Given (str! "sort") vs sort) (hk : SortKey (sort.map (·.value)) .none) (ho : Given (str! "order") vs order)
    (hg : ext.glob a.value = some (files.map fun f => some (some f))) :
    Evals ext [c] s (.ok (fileNodes a.site (if order.map (·.value) = some (str! "descending")
      then globKept (type.map (·.value)) files else (globKept (type.map (·.value)) files).reverse))) u := by
  refine (glob_runs hc ha hp hl hn ht hs hk ho).2 ⟨by simp, ?_⟩
  rw [hg, globWanted_iff]
  simp only [globCollect_ok]
  rw [← fileNodes_eq, globFold_none, List.append_nil, isAscending_iff hn ho]
  by_cases hd : order.map (·.value) = some (str! "descending")
  · rw [if_pos hd]
    simp only [hd, BEq.rfl, Bool.not_true, Bool.false_eq_true, if_false, M.bind_def, M.lift, List.reverse_reverse]
    rfl
  · rw [if_neg hd]
    have hb : (order.map (·.value) == some (str! "descending")) = false := by simpa using hd
    simp only [hb, Bool.not_false, if_true, M.bind_def, M.lift]
    rfl

/-- C56: a malformed pattern is an error, and nothing else changes. -/
theorem C56_pattern (ext : Ext) (c n : PNode) (args vs : List PNode) (a : Node) (type sort order : Option Node)
    (by_ : SortBy) (s u : St)
    (hc : IsCall (str! "glob") args c) (ha : Evals ext args s (.ok vs) u)
    (hp : positional vs = [n]) (hl : Literal n a) (hn : NamedArgs GlobOption vs) (ht : Given (str! "type") vs type)
    (hs : Given (str! "sort") vs sort) (hk : SortKey (sort.map (·.value)) by_) (ho : Given (str! "order") vs order)
    (hg : ext.glob a.value = none) :
    ∃ e, Evals ext [c] s (.err e) u :=
  ⟨expErr "Failed to read glob pattern." a.site, (glob_runs hc ha hp hl hn ht hs hk ho).2 ⟨by simp, by rw [hg]; rfl⟩⟩

/-- C56: a directory that cannot be read (before any unreadable file) is an error. -/
theorem C56_unreadable (ext : Ext) (c n : PNode) (args vs : List PNode) (a : Node) (type sort order : Option Node)
    (by_ : SortBy) (files : List GFile) (rest : List (Option (Option GFile))) (s u : St)
    (hc : IsCall (str! "glob") args c) (ha : Evals ext args s (.ok vs) u)
    (hp : positional vs = [n]) (hl : Literal n a) (hn : NamedArgs GlobOption vs) (ht : Given (str! "type") vs type)
    (hs : Given (str! "sort") vs sort) (hk : SortKey (sort.map (·.value)) by_) (ho : Given (str! "order") vs order)
    (hg : ext.glob a.value = some (files.map (fun f => some (some f)) ++ none :: rest)) :
    ∃ e, Evals ext [c] s (.err e) u := by
  refine ⟨expErr "glob failed" a.site, (glob_runs hc ha hp hl hn ht hs hk ho).2 ⟨by simp, ?_⟩⟩
  rw [hg]
  simp only [globCollect_app]
  rfl

/-- Outside C56: a matching path whose data cannot be read, such as a dangling symbolic link,
makes `%glob` panic. -/
theorem C56_dangling_panics (ext : Ext) (c n : PNode) (args vs : List PNode) (a : Node) (type sort order : Option Node)
    (by_ : SortBy) (files : List GFile) (rest : List (Option (Option GFile))) (s u : St)
    (hc : IsCall (str! "glob") args c) (ha : Evals ext args s (.ok vs) u)
    (hp : positional vs = [n]) (hl : Literal n a) (hn : NamedArgs GlobOption vs) (ht : Given (str! "type") vs type)
    (hs : Given (str! "sort") vs sort) (hk : SortKey (sort.map (·.value)) by_) (ho : Given (str! "order") vs order)
    (hg : ext.glob a.value = some (files.map (fun f => some (some f)) ++ some none :: rest)) :
    Evals ext [c] s .panic u := by
  refine (glob_runs hc ha hp hl hn ht hs hk ho).2 ⟨by simp, ?_⟩
  rw [hg]
  simp only [globCollect_app]
  rfl

/-- A regular file in the current directory. -/
def exGlobFile (name : Str) (ext : Option Str) (time : Option Nat) : GFile where
  comps := [.normal name]
  text := name
  isFile := true
  isDir := false
  created := time
  modified := time
  ext := ext

/-- A file system that delivers these files for every pattern. -/
def exGlobFiles (fs : List GFile) : Ext := { exExt with glob := fun _ => some (fs.map fun f => some (some f)) }

/-- `(%glob "*" :sort s)`. -/
def exGlob (s : Str) : PNode := exList [exSym (str! "%glob"), exStr ['*'], exAttr (str! "sort") (exStr s)]

/-- C56 is false for files without the time stamp: if `b` has no creation time, the same two files
are listed as `b a` or as `a b`, according to the order in which they are found. -/
theorem C56_time_false :
    (∃ t, Evals (exGlobFiles [exGlobFile ['a'] none (some 1), exGlobFile ['b'] none none]) [exGlob (str! "created")] exSt
      (.ok (fileNodes (exStr ['*']).site [exGlobFile ['b'] none none, exGlobFile ['a'] none (some 1)])) t) ∧
    (∃ t, Evals (exGlobFiles [exGlobFile ['b'] none none, exGlobFile ['a'] none (some 1)]) [exGlob (str! "created")] exSt
      (.ok (fileNodes (exStr ['*']).site [exGlobFile ['a'] none (some 1), exGlobFile ['b'] none none])) t) :=
  ⟨evals_ok_at 9 (by decide +kernel), evals_ok_at 9 (by decide +kernel)⟩

/-- A directory, a file, and something that is neither (a device, a socket). -/
def exGlobDir : GFile := { exGlobFile (str! "d.z") (some ['z']) none with isFile := false, isDir := true }
def exGlobPipe : GFile := { exGlobFile (str! "p.m") (some ['m']) none with isFile := false }

/-- C56 is false for `:sort type` if there are special files: the comparison says that the
directory `d.z` is before the file `f.a`, that this is before the pipe `p.m`, and that this is
before `d.z`, so the list depends on how the files are found. -/
theorem C56_type_false :
    (∃ t, Evals (exGlobFiles [exGlobDir, exGlobFile (str! "f.a") (some ['a']) none, exGlobPipe]) [exGlob (str! "type")] exSt
      (.ok (fileNodes (exStr ['*']).site [exGlobPipe, exGlobDir, exGlobFile (str! "f.a") (some ['a']) none])) t) ∧
    (∃ t, Evals (exGlobFiles [exGlobPipe, exGlobDir, exGlobFile (str! "f.a") (some ['a']) none]) [exGlob (str! "type")] exSt
      (.ok (fileNodes (exStr ['*']).site [exGlobFile (str! "f.a") (some ['a']) none, exGlobPipe, exGlobDir])) t) :=
  ⟨evals_ok_at 9 (by decide +kernel), evals_ok_at 9 (by decide +kernel)⟩

/-- Files by name, by time (newest first) and by type. -/
example : (∃ t, Evals (exGlobFiles [exGlobFile ['b'] none (some 2), exGlobFile ['a'] none (some 1), exGlobFile ['c'] none (some 2)]) [exGlob (str! "name")] exSt
      (.ok (fileNodes (exStr ['*']).site [exGlobFile ['a'] none (some 1), exGlobFile ['b'] none (some 2), exGlobFile ['c'] none (some 2)])) t) ∧
    (∃ t, Evals (exGlobFiles [exGlobFile ['b'] none (some 2), exGlobFile ['a'] none (some 1), exGlobFile ['c'] none (some 2)]) [exGlob (str! "modified")] exSt
      (.ok (fileNodes (exStr ['*']).site [exGlobFile ['b'] none (some 2), exGlobFile ['c'] none (some 2), exGlobFile ['a'] none (some 1)])) t) ∧
    (∃ t, Evals (exGlobFiles [exGlobFile (str! "f.a") (some ['a']) none, exGlobDir, exGlobFile ['e'] none none]) [exGlob (str! "type")] exSt
      (.ok (fileNodes (exStr ['*']).site [exGlobDir, exGlobFile ['e'] none none, exGlobFile (str! "f.a") (some ['a']) none])) t) :=
  ⟨evals_ok_at 9 (by decide +kernel), evals_ok_at 9 (by decide +kernel),
    evals_ok_at 9 (by decide +kernel)⟩

example : IsCall (str! "glob") [exStr ['*'], exAttr (str! "sort") (exStr (str! "name"))] (exGlob (str! "name")) := .mk _ _ _ _ _ rfl rfl
example : SortKey (some (str! "modified")) .modified ∧ Orderable .modified (exGlobFile ['b'] none (some 2)) ∧ Orderable .type exGlobDir ∧
    ([exGlobFile ['b'] none (some 2), exGlobDir].map (·.comps)).Nodup :=
  ⟨.modified, by simp [Orderable, exGlobFile], rfl, by decide +kernel⟩
example : NamedArgs GlobOption [exStr ['*'], exAttr (str! "sort") (exStr (str! "name"))] := by
  intro k v s w h
  simp only [exStr, exAttr, List.mem_cons, List.not_mem_nil, or_false, reduceCtorEq, false_or, PNode.attr.injEq] at h
  obtain ⟨rfl, rfl, _⟩ := h
  exact Or.inr (Or.inl ⟨rfl, _, .string _, by simp⟩)

/-- The theorems on `(%glob "*" :sort name)`, and on `(%glob "*")` in file systems where the pattern is malformed, where a
directory cannot be read, and where there is a dangling link. -/
def exTwoFiles : List GFile := [exGlobFile ['b'] none (some 2), exGlobFile ['a'] none (some 1)]
example (s : St) := C56_sorted_partial (exGlobFiles exTwoFiles) (exGlob (str! "name")) (exStr ['*']) _ _ _ none _ none .name exTwoFiles s s
  (.mk _ _ _ _ _ rfl rfl) (plain_evals _ _ _ rfl) rfl (.string _)
  (one_namedArg _ _ _ rfl (.inr (.inl ⟨rfl, _, .string _, by simp⟩))) (.absent rfl) (.literal _ _ rfl (.string _)) .name (.absent rfl)
  rfl (fun _ _ => trivial) (by decide +kernel)
example (s : St) := C56_unsorted (exGlobFiles exTwoFiles) (exList [exSym (str! "%glob"), exStr ['*']]) (exStr ['*']) _ _ _ none none none
  exTwoFiles s s (.mk _ _ _ _ _ rfl rfl) (plain_evals _ _ _ rfl) rfl (.string _) (no_namedArgs _ rfl) (.absent rfl) (.absent rfl)
  .absent (.absent rfl) rfl
example (s : St) := C56_pattern exExt (exList [exSym (str! "%glob"), exStr ['*']]) (exStr ['*']) _ _ _ none none none .none
  s s (.mk _ _ _ _ _ rfl rfl) (plain_evals _ _ _ rfl) rfl (.string _) (no_namedArgs _ rfl) (.absent rfl) (.absent rfl)
  .absent (.absent rfl) rfl
example (s : St) := C56_unreadable { exExt with glob := fun _ => some [none] } (exList [exSym (str! "%glob"), exStr ['*']]) (exStr ['*'])
  _ _ _ none none none .none [] [] s s (.mk _ _ _ _ _ rfl rfl) (plain_evals _ _ _ rfl) rfl (.string _) (no_namedArgs _ rfl) (.absent rfl)
  (.absent rfl) .absent (.absent rfl) rfl
example (s : St) := C56_dangling_panics { exExt with glob := fun _ => some [some none] } (exList [exSym (str! "%glob"), exStr ['*']])
  (exStr ['*']) _ _ _ none none none .none [] [] s s (.mk _ _ _ _ _ rfl rfl) (plain_evals _ _ _ rfl) rfl (.string _) (no_namedArgs _ rfl)
  (.absent rfl) (.absent rfl) .absent (.absent rfl) rfl

end Seam
