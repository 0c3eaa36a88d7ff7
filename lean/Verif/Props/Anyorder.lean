import Verif.Props.Cli
import Verif.Lemmas.Laws
import Verif.Lemmas.Sort

/-! C58, C59: where the options stand on the command line. -/

namespace Seam
open Spec

theorem lexLe_antisymm : ∀ {a b : Str}, LexLe a b → LexLe b a → a = b
  | _, _, .nil _, .nil _ => rfl
  | _, _, .less _ _ _ _ h, .less _ _ _ _ h' => by omega
  | _, _, .less _ _ _ _ h, .same _ _ _ _ => by omega
  | _, _, .same _ _ _ _, .less _ _ _ _ h => by omega
  | _, _, .same _ _ _ h, .same _ _ _ h' => by rw [lexLe_antisymm h h']

theorem strict_nodup {as : List Str} (h : as.Pairwise fun a b => LexLe a b ∧ a ≠ b) : as.Nodup := h.imp fun h => h.2

theorem main_none {ext : Ext} {order : Order} {dbg : Str → Str} {w : World} {fuel : Nat} {args : List Str} {ws : List Wish}
    (h : Pairs (Meant w.isThere) args ws) (ht : ∀ t, .target t ∉ ws) : main_ ext order dbg w fuel args = ([], .status 1) := by
  unfold main_
  have := cliLoop_meant h [] Opts.init
  rw [List.append_nil] at this
  rw [this, cliLoop]
  simp only
  rw [if_pos (by rw [fold_no_target _ ht]; rfl)]

theorem main_same {ext : Ext} {order : Order} {dbg : Str → Str} {w : World} {fuel : Nat} {args args' : List Str} {ws ws' : List Wish}
    (h : Pairs (Meant w.isThere) args ws) (h' : Pairs (Meant w.isThere) args' ws') (hf : filesOf ws = filesOf ws')
    (ht : ∀ t, LastTarget ws t ↔ LastTarget ws' t) (hn : .noDocument ∈ ws ↔ .noDocument ∈ ws') (hs : .stdin ∈ ws ↔ .stdin ∈ ws')
    (hd : includesOf (addDirs [] (dirsOf ws)) = includesOf (addDirs [] (dirsOf ws'))) :
    main_ ext order dbg w fuel args = main_ ext order dbg w fuel args' := by
  rcases lastTarget_cases ws with hnt | ⟨t, hl⟩
  · have hnt' : ∀ t, .target t ∉ ws' := by
      rcases lastTarget_cases ws' with h | ⟨t, hl⟩
      · exact h
      · obtain ⟨a, b, e, _⟩ := (ht t).2 hl
        exact absurd (by rw [e]; simp) (hnt t)
    rw [main_none h hnt, main_none h' hnt']
  · have hi : inputsFor w.stdin w.readFile ws = inputsFor w.stdin w.readFile ws' := by
      unfold inputsFor
      rw [hf]
      simp only [hs]
    rw [main_meant h hl, main_meant h' ((ht t).1 hl), hd, hi]
    simp only [hn]

/-- C58: what counts of the command line is the files in their order, the last target, whether there is `--nodoc`, whether there
is `-`, and the include directories.  Where options stand between the files and each other makes no difference. -/
theorem C58_any_place (ext : Ext) (order : Order) (dbg : Str → Str) (w : World) (fuel : Nat) (args args' : List Str) (ws ws' : List Wish)
    (h : Pairs (Meant w.isThere) args ws) (h' : Pairs (Meant w.isThere) args' ws') (hf : filesOf ws = filesOf ws')
    (ht : ∀ t, LastTarget ws t ↔ LastTarget ws' t) (hn : .noDocument ∈ ws ↔ .noDocument ∈ ws') (hs : .stdin ∈ ws ↔ .stdin ∈ ws')
    (hd : dirsOf ws = dirsOf ws') : main_ ext order dbg w fuel args = main_ ext order dbg w fuel args' :=
  main_same h h' hf ht hn hs (by rw [hd])

/-- C59: for include directories that are plain names, the order in which they are given, and repetitions, make no difference
at all. -/
theorem C59_any_order (ext : Ext) (order : Order) (dbg : Str → Str) (w : World) (fuel : Nat) (args args' : List Str) (ws ws' : List Wish)
    (h : Pairs (Meant w.isThere) args ws) (h' : Pairs (Meant w.isThere) args' ws') (hf : filesOf ws = filesOf ws')
    (ht : ∀ t, LastTarget ws t ↔ LastTarget ws' t) (hn : .noDocument ∈ ws ↔ .noDocument ∈ ws') (hs : .stdin ∈ ws ↔ .stdin ∈ ws')
    (hp : ∀ d, .dir d ∈ ws → PlainName d) (hd : ∀ d, .dir d ∈ ws ↔ .dir d ∈ ws') :
    main_ ext order dbg w fuel args = main_ ext order dbg w fuel args' := by
  refine main_same h h' hf ht hn hs ?_
  obtain ⟨ds, e1, p1, m1⟩ := includesOf_names (dirsOf ws) fun d hd => hp d ((mem_dirsOf d ws).1 hd)
  obtain ⟨ds', e2, p2, m2⟩ := includesOf_names (dirsOf ws') fun d hd' => hp d ((hd d).2 ((mem_dirsOf d ws').1 hd'))
  rw [e1, e2]
  congr 1
  refine arranged_unique ((List.perm_ext_iff_of_nodup (strict_nodup p1) (strict_nodup p2)).2 fun d => ?_)
    (fun a _ b _ h1 h2 => lexLe_antisymm h1.1 h2.1) p1 p2
  rw [m1, m2, mem_dirsOf, mem_dirsOf, hd d]

/-- The hypotheses, for `--html -Ib a.sex -Ia --nodoc` and `a.sex --nodoc -Ia --css -Ib -Ia --html`. -/
example : ∃ ws ws', Pairs (Meant (fun f => f == str! "a.sex")) [str! "--html", str! "-Ib", str! "a.sex", str! "-Ia", str! "--nodoc"] ws ∧
    Pairs (Meant (fun f => f == str! "a.sex")) [str! "a.sex", str! "--nodoc", str! "-Ia", str! "--css", str! "-Ib", str! "-Ia", str! "--html"] ws' ∧
    filesOf ws = filesOf ws' ∧ (∀ t, LastTarget ws t ↔ LastTarget ws' t) ∧ (.noDocument ∈ ws ↔ .noDocument ∈ ws') ∧
    (.stdin ∈ ws ↔ .stdin ∈ ws') ∧ (∀ d, .dir d ∈ ws → PlainName d) ∧ ∀ d, .dir d ∈ ws ↔ .dir d ∈ ws' := by
  have one : ∀ c : Char, ¬ HasTwoDashes [c] := by
    rintro c ⟨a, b, e⟩
    have := congrArg List.length e
    simp at this
    omega
  have last : ∀ (a : List Wish) (t : Str) (b : List Wish), (∀ t', .target t' ∉ b) → ∀ t', LastTarget (a ++ .target t :: b) t' ↔ t' = t := by
    intro a t b hb t'
    constructor
    · rintro ⟨a', b', e, hb'⟩
      have e1 := fold_target (ws := a ++ .target t :: b) ⟨a, b, rfl, hb⟩ Opts.init
      have e2 := fold_target (ws := a ++ .target t :: b) ⟨a', b', e, hb'⟩ Opts.init
      rw [e1] at e2
      exact e2.symm
    · rintro rfl
      exact ⟨a, b, rfl, hb⟩
  refine ⟨[.target (str! "html"), .dir ['b'], .file (str! "a.sex"), .dir ['a'], .noDocument],
    [.file (str! "a.sex"), .noDocument, .dir ['a'], .target (str! "css"), .dir ['b'], .dir ['a'], .target (str! "html")], ?_, ?_, rfl, ?_,
    by simp, by simp, ?_, ?_⟩
  · exact .cons (.asks _ _ (.target _ (by decide))) (.cons (.asks _ _ (.dir _ (one _))) (.cons (.asks _ _ (.file _ (by decide) (by decide)))
      (.cons (.asks _ _ (.dir _ (one _))) (.cons (.asks _ _ .noDoc) .nil))))
  · exact .cons (.asks _ _ (.file _ (by decide) (by decide))) (.cons (.asks _ _ .noDoc) (.cons (.asks _ _ (.dir _ (one _)))
      (.cons (.asks _ _ (.target _ (by decide))) (.cons (.asks _ _ (.dir _ (one _))) (.cons (.asks _ _ (.dir _ (one _)))
      (.cons (.asks _ _ (.target _ (by decide))) .nil))))))
  · intro t
    exact (last [] (str! "html") [.dir ['b'], .file (str! "a.sex"), .dir ['a'], .noDocument] (by simp) t).trans
      (last [.file (str! "a.sex"), .noDocument, .dir ['a'], .target (str! "css"), .dir ['b'], .dir ['a']] (str! "html") [] (by simp) t).symm
  · intro d hd
    simp at hd
    rcases hd with rfl | rfl <;> exact ⟨by decide, by decide, by decide, by decide⟩
  · intro d
    simp
    exact .inr

end Seam
