import Verif.Lemmas.Path
import Verif.Lemmas.Sort
import Verif.Lemmas.Get
import Verif.Spec.Glob

/-! # `%glob` -/

namespace Seam
open Spec

theorem lexLt_iff (a b : Str) : LexLt a b ↔ strCmp a b = .lt := by
  unfold LexLt
  rw [lexLe_iff, Ne, Ne, ← strCmp_eq]
  rcases strCmp a b <;> simp

theorem compLt_iff (a b : PComp) : CompLt a b ↔ PComp.cmp a b = .lt := by
  unfold CompLt
  cases a <;> cases b <;> simp [compRank, PComp.cmp, lexLt_iff]

theorem pathLt_iff : ∀ (a b : List PComp), PathLt a b ↔ compsCmp a b = .lt
  | [], [] => ⟨fun h => (nomatch h), fun h => by simp [compsCmp] at h⟩
  | [], b :: bs => ⟨fun _ => rfl, fun _ => .inside b bs⟩
  | a :: as, [] => ⟨fun h => (nomatch h), fun h => by simp [compsCmp] at h⟩
  | a :: as, b :: bs => by
    rw [compsCmp]
    constructor
    · intro h
      cases h with
      | first _ _ _ _ h => rw [(compLt_iff a b).1 h]
      | same _ _ _ h =>
        rw [(PComp.cmp_eq a a).2 rfl]
        exact (pathLt_iff as bs).1 h
    · intro h
      rcases hc : PComp.cmp a b
      · exact .first _ _ _ _ ((compLt_iff a b).2 hc)
      · rw [hc] at h
        have := (PComp.cmp_eq a b).1 hc
        subst this
        exact .same _ _ _ ((pathLt_iff as bs).2 h)
      · rw [hc] at h; cases h

theorem pathLt_trans {a b c : List PComp} (h : PathLt a b) (h' : PathLt b c) : PathLt a c := by
  rw [pathLt_iff] at *
  exact compsCmp_trans h h'

theorem comps_lt_or (a b : List PComp) : compsCmp a b = .gt ↔ PathLt b a := by
  rw [pathLt_iff, compsCmp_swap a b]
  rcases compsCmp a b <;> simp [Ordering.swap]

theorem str_gt (a b : Str) : strCmp a b = .gt ↔ LexLt b a := by
  rw [lexLt_iff, strCmp_swap a b]
  rcases strCmp a b <;> simp [Ordering.swap]

theorem extLt_trans {a b c : Option Str} (h : ExtLt a b) (h' : ExtLt b c) : ExtLt a c := by
  cases a with
  | none =>
    cases c with
    | some c => trivial
    | none => cases b <;> exact absurd h' (by simp [ExtLt])
  | some a =>
    cases b with
    | none => exact absurd h (by simp [ExtLt])
    | some b =>
      cases c with
      | none => exact absurd h' (by simp [ExtLt])
      | some c =>
        simp only [ExtLt, lexLt_iff] at *
        exact strCmp_trans h h'

theorem globBefore_trans {by_ : SortBy} {f g h : GFile} (h1 : GlobBefore by_ f g) (h2 : GlobBefore by_ g h) :
    GlobBefore by_ f h := by
  cases by_ with
  | name => exact pathLt_trans h1 h2
  | modified =>
    obtain ⟨t, t', e1, e2, h1⟩ := h1
    obtain ⟨t2, t3, e3, e4, h2⟩ := h2
    rw [e2] at e3; cases e3
    refine ⟨t, t3, e1, e4, ?_⟩
    rcases h1 with h1 | ⟨rfl, h1⟩ <;> rcases h2 with h2 | ⟨rfl, h2⟩
    · exact Or.inl (by omega)
    · exact Or.inl h1
    · exact Or.inl h2
    · exact Or.inr ⟨rfl, pathLt_trans h1 h2⟩
  | created =>
    obtain ⟨t, t', e1, e2, h1⟩ := h1
    obtain ⟨t2, t3, e3, e4, h2⟩ := h2
    rw [e2] at e3; cases e3
    refine ⟨t, t3, e1, e4, ?_⟩
    rcases h1 with h1 | ⟨rfl, h1⟩ <;> rcases h2 with h2 | ⟨rfl, h2⟩
    · exact Or.inl (by omega)
    · exact Or.inl h1
    · exact Or.inl h2
    · exact Or.inr ⟨rfl, pathLt_trans h1 h2⟩
  | type =>
    rcases h1 with ⟨a, b⟩ | ⟨a, h1⟩ <;> rcases h2 with ⟨c, d⟩ | ⟨c, h2⟩
    · exact Or.inl ⟨a, d⟩
    · exact Or.inl ⟨a, by rw [← c, b]⟩
    · exact Or.inl ⟨by rw [a, c], d⟩
    · refine Or.inr ⟨a.trans c, ?_⟩
      rcases h1 with h1 | ⟨e1, h1⟩ <;> rcases h2 with h2 | ⟨e2, h2⟩
      · exact Or.inl (extLt_trans h1 h2)
      · exact Or.inl (e2 ▸ h1)
      · exact Or.inl (e1 ▸ h2)
      · exact Or.inr ⟨e1.trans e2, pathLt_trans h1 h2⟩
  | none => exact h1

theorem pathLt_irrefl (p : List PComp) : ¬ PathLt p p := by
  rw [pathLt_iff, (compsCmp_eq p p).2 rfl]
  nofun

theorem extLt_irrefl (e : Option Str) : ¬ ExtLt e e := by
  cases e with
  | none => exact id
  | some e => exact fun h => h.2 rfl

theorem globBefore_irrefl {by_ : SortBy} (f : GFile) : ¬ GlobBefore by_ f f := by
  intro h
  cases by_ with
  | name => exact pathLt_irrefl _ h
  | modified =>
    obtain ⟨t, t', e1, e2, h⟩ := h
    rw [e1] at e2; cases e2
    rcases h with h | ⟨_, h⟩
    · omega
    · exact pathLt_irrefl _ h
  | created =>
    obtain ⟨t, t', e1, e2, h⟩ := h
    rw [e1] at e2; cases e2
    rcases h with h | ⟨_, h⟩
    · omega
    · exact pathLt_irrefl _ h
  | type =>
    rcases h with ⟨h1, h2⟩ | ⟨_, h | ⟨_, h⟩⟩
    · rw [h1] at h2; cases h2
    · exact extLt_irrefl _ h
    · exact pathLt_irrefl _ h
  | none => exact h

theorem timeCmp_some (t t' : Nat) (p q : List PComp) (hp : p ≠ q) :
    (timeCmp (some t) (some t') p q = .lt ∧ (t' < t ∨ t = t' ∧ PathLt p q)) ∨
    (timeCmp (some t) (some t') p q = .gt ∧ (t < t' ∨ t' = t ∧ PathLt q p)) := by
  unfold timeCmp
  simp only
  by_cases h : t = t'
  · rw [if_pos h]
    rcases hc : compsCmp p q
    · exact Or.inl ⟨rfl, Or.inr ⟨h, (pathLt_iff _ _).2 hc⟩⟩
    · exact absurd ((compsCmp_eq p q).1 hc) hp
    · exact Or.inr ⟨rfl, Or.inr ⟨h.symm, (comps_lt_or _ _).1 hc⟩⟩
  · rw [if_neg h]
    unfold natCmp
    by_cases h1 : t < t'
    · rw [if_pos h1]
      exact Or.inr ⟨rfl, Or.inl h1⟩
    · rw [if_neg h1, if_pos (by omega)]
      exact Or.inl ⟨rfl, Or.inl (by omega)⟩

/-- The comparison agrees with the order. -/
theorem globCmp_before {by_ : SortBy} {f g : GFile} (hf : Orderable by_ f) (hg : Orderable by_ g)
    (hp : f.comps ≠ g.comps) :
    (globCmp by_ f g = .lt ∧ GlobBefore by_ f g) ∨ (globCmp by_ f g = .gt ∧ GlobBefore by_ g f) := by
  have path : (compsCmp f.comps g.comps = .lt ∧ PathLt f.comps g.comps) ∨
      (compsCmp f.comps g.comps = .gt ∧ PathLt g.comps f.comps) := by
    rcases hc : compsCmp f.comps g.comps
    · exact Or.inl ⟨rfl, (pathLt_iff _ _).2 hc⟩
    · exact absurd ((compsCmp_eq _ _).1 hc) hp
    · exact Or.inr ⟨rfl, (comps_lt_or _ _).1 hc⟩
  cases by_ with
  | name => exact path
  | modified =>
    obtain ⟨t, e1⟩ := Option.ne_none_iff_exists'.1 hf
    obtain ⟨t', e2⟩ := Option.ne_none_iff_exists'.1 hg
    simp only [globCmp, GlobBefore, e1, e2]
    rcases timeCmp_some t t' _ _ hp with ⟨h1, h2⟩ | ⟨h1, h2⟩
    · exact Or.inl ⟨h1, t, t', rfl, rfl, h2⟩
    · exact Or.inr ⟨h1, t', t, rfl, rfl, h2⟩
  | created =>
    obtain ⟨t, e1⟩ := Option.ne_none_iff_exists'.1 hf
    obtain ⟨t', e2⟩ := Option.ne_none_iff_exists'.1 hg
    simp only [globCmp, GlobBefore, e1, e2]
    rcases timeCmp_some t t' _ _ hp with ⟨h1, h2⟩ | ⟨h1, h2⟩
    · exact Or.inl ⟨h1, t, t', rfl, rfl, h2⟩
    · exact Or.inr ⟨h1, t', t, rfl, rfl, h2⟩
  | type =>
    have hf : f.isFile = !f.isDir := hf
    have hg : g.isFile = !g.isDir := hg
    simp only [globCmp, GlobBefore, hf, hg]
    have rest : f.isDir = g.isDir → ∀ r, r = (match f.ext, g.ext with
        | some e, some e' => if e = e' then compsCmp f.comps g.comps else strCmp e e'
        | some _, none => .gt
        | none, some _ => .lt
        | none, none => compsCmp f.comps g.comps) →
        (r = .lt ∧ (ExtLt f.ext g.ext ∨ (f.ext = g.ext ∧ PathLt f.comps g.comps))) ∨
        (r = .gt ∧ (ExtLt g.ext f.ext ∨ (g.ext = f.ext ∧ PathLt g.comps f.comps))) := by
      rintro _ r rfl
      rcases f.ext with _ | e <;> rcases g.ext with _ | e'
      · simpa [ExtLt] using path
      · exact Or.inl ⟨rfl, Or.inl trivial⟩
      · exact Or.inr ⟨rfl, Or.inl trivial⟩
      · simp only
        by_cases he : e = e'
        · subst he
          rw [if_pos rfl]
          rcases path with ⟨h1, h2⟩ | ⟨h1, h2⟩
          · exact Or.inl ⟨h1, Or.inr ⟨rfl, h2⟩⟩
          · exact Or.inr ⟨h1, Or.inr ⟨rfl, h2⟩⟩
        · rw [if_neg he]
          rcases hc : strCmp e e'
          · exact Or.inl ⟨rfl, Or.inl ((lexLt_iff _ _).2 hc)⟩
          · exact absurd ((strCmp_eq _ _).1 hc) he
          · exact Or.inr ⟨rfl, Or.inl ((str_gt _ _).1 hc)⟩
    rcases hd : f.isDir <;> rcases hd' : g.isDir
    · simp only [Bool.false_and, Bool.not_false, Bool.and_false, Bool.false_eq_true, if_false, false_or, true_and, false_and]
      exact rest (by rw [hd, hd']) _ rfl
    · simp
    · simp
    · simp only [Bool.not_true, Bool.and_false, Bool.false_and, Bool.false_eq_true, if_false, Bool.true_eq_false, and_false, false_or, true_and]
      exact rest (by rw [hd, hd']) _ rfl
  | none => exact absurd hf id

/-! ## Insertion -/

theorem btInsert_pairwise {α : Type} {cmp : α → α → Ordering} {R : α → α → Prop} (htr : ∀ a b c, R a b → R b c → R a c)
    (x : α) : ∀ (l : List α), (∀ y ∈ l, (cmp x y = .lt ∧ R x y) ∨ (cmp x y = .gt ∧ R y x)) → l.Pairwise R →
      (btInsert cmp x l).Pairwise R
  | [], _, _ => by simp [btInsert]
  | z :: l, h, hl => by
    obtain ⟨h1, h2⟩ := List.pairwise_cons.1 hl
    rw [btInsert]
    rcases h z List.mem_cons_self with ⟨hc, hr⟩ | ⟨hc, hr⟩ <;> rw [hc]
    · refine List.pairwise_cons.2 ⟨fun y hy => ?_, hl⟩
      rcases List.mem_cons.1 hy with rfl | hy
      · exact hr
      · exact htr _ _ _ hr (h1 y hy)
    · refine List.pairwise_cons.2 ⟨fun y hy => ?_, btInsert_pairwise htr x l (fun y hy => h y (List.mem_cons_of_mem _ hy)) h2⟩
      rcases btInsert_mem cmp x l y hy with rfl | hy
      · exact hr
      · exact h1 y hy

theorem btInsert_perm {α : Type} {cmp : α → α → Ordering} (x : α) : ∀ (l : List α), (∀ y ∈ l, cmp x y ≠ .eq) →
      (btInsert cmp x l).Perm (x :: l)
  | [], _ => by simp [btInsert]
  | z :: l, h => by
    rw [btInsert]
    rcases hc : cmp x z
    · exact List.Perm.refl _
    · exact absurd hc (h z List.mem_cons_self)
    · exact ((btInsert_perm x l fun y hy => h y (List.mem_cons_of_mem _ hy)).cons z).trans (.swap x z l)

theorem globWanted_iff (type : Option Str) (files : List GFile) : globKept type files = files.filter (globWanted type) := by
  unfold globKept globWanted
  congr 1
  funext f
  by_cases h1 : type = some (str! "file")
  · subst h1; simp
  · by_cases h2 : type = some (str! "directory")
    · subst h2; simp
    · simp [h1, h2]

/-- The files collected. -/
def globFold (by_ : SortBy) (acc : List GFile) (files : List GFile) : List GFile :=
  files.foldl (fun acc f => btInsert (globCmp by_) f acc) acc

theorem globCollect_ok (site : Site) (type : Option Str) (by_ : SortBy) : ∀ (files acc : List GFile),
    globCollect site type by_ acc (files.map fun f => some (some f)) = .ok (globFold by_ acc (files.filter (globWanted type)))
  | [], acc => rfl
  | f :: files, acc => by
    rw [List.map_cons, globCollect, globCollect_ok]
    by_cases h : globWanted type f = true
    · rw [if_pos h, List.filter_cons_of_pos h]; rfl
    · rw [if_neg h, List.filter_cons_of_neg h]

theorem globCollect_app (site : Site) (type : Option Str) (by_ : SortBy) (rest : List (Option (Option GFile))) : ∀ (files acc : List GFile),
    globCollect site type by_ acc (files.map (fun f => some (some f)) ++ rest) =
      globCollect site type by_ (globFold by_ acc (files.filter (globWanted type))) rest
  | [], acc => rfl
  | f :: files, acc => by
    rw [List.map_cons, List.cons_append, globCollect, globCollect_app]
    by_cases h : globWanted type f = true
    · rw [if_pos h, List.filter_cons_of_pos h]; rfl
    · rw [if_neg h, List.filter_cons_of_neg h]

theorem globFold_sorted {by_ : SortBy} : ∀ (files acc : List GFile), (∀ f ∈ acc ++ files, Orderable by_ f) →
    ((acc ++ files).map (·.comps)).Nodup → acc.Pairwise (GlobBefore by_) →
    (globFold by_ acc files).Pairwise (GlobBefore by_) ∧ (globFold by_ acc files).Perm (acc ++ files)
  | [], acc, _, _, h => ⟨h, by simp [globFold]⟩
  | f :: files, acc, ho, hd, h => by
    have hne : ∀ y ∈ acc, f.comps ≠ y.comps := by
      intro y hy e
      rw [List.map_append, List.nodup_append] at hd
      exact hd.2.2 y.comps (List.mem_map_of_mem hy) f.comps (by simp) e.symm
    have hcmp : ∀ y ∈ acc, (globCmp by_ f y = .lt ∧ GlobBefore by_ f y) ∨ (globCmp by_ f y = .gt ∧ GlobBefore by_ y f) :=
      fun y hy => globCmp_before (ho f (by simp)) (ho y (by simp [hy])) (hne y hy)
    have hp : (btInsert (globCmp by_) f acc).Perm (f :: acc) := btInsert_perm f acc fun y hy e => by
      rcases hcmp y hy with ⟨h, _⟩ | ⟨h, _⟩ <;> rw [h] at e <;> cases e
    have hp2 : (btInsert (globCmp by_) f acc ++ files).Perm (acc ++ f :: files) :=
      (hp.append_right files).trans List.perm_middle.symm
    obtain ⟨h1, h2⟩ := globFold_sorted files (btInsert (globCmp by_) f acc)
      (fun g hg => ho g (hp2.mem_iff.1 hg)) ((hp2.map _).nodup_iff.2 hd)
      (btInsert_pairwise (R := GlobBefore by_) (fun _ _ _ => globBefore_trans) f acc hcmp h)
    exact ⟨h1, h2.trans hp2⟩

theorem globFold_none : ∀ (files acc : List GFile), globFold .none acc files = files.reverse ++ acc
  | [], acc => rfl
  | f :: files, acc => by
    show globFold .none (btInsert (globCmp .none) f acc) files = _
    rw [globFold_none files]
    have : btInsert (globCmp .none) f acc = f :: acc := by cases acc <;> rfl
    rw [this]
    simp

def globKey : List (Str × ArgType) :=
  [(str! "type", oneOf [str! "file", str! "directory", str! "any"]),
   (str! "sort", oneOf [str! "modified", str! "created", str! "name", str! "type", str! "none"]),
   (str! "order", oneOf [str! "ascending", str! "descending"])]
theorem glob_mem : (str! "glob", schemaEntries [.literal []] globKey, none) ∈ eagerMacros := by
  simp [eagerMacros, schemaEntries, globKey]

theorem glob_option {k : Str} {v : PNode} (h : GlobOption k v) :
    (∀ t, (k, t) ∈ globKey → HasType t v) ∧ ∃ t, (k, t) ∈ globKey := by
  rcases h with ⟨rfl, h⟩ | ⟨rfl, h⟩ | ⟨rfl, h⟩
  all_goals
    refine ⟨fun t ht => ?_, _, by simp [globKey]; rfl⟩
    simp [globKey] at ht
    subst ht
    exact (hasType_oneOf (by simp)).2 h

theorem sortByOf_key {v : Option Str} {by_ : SortBy} (h : SortKey v by_) : sortByOf v = some by_ := by
  cases h <;> rfl

theorem literal_unique {n : PNode} {a b : Node} (h : Literal n a) (h' : Literal n b) : a = b :=
  Option.some.inj ((literal_atomic h).symm.trans (literal_atomic h'))

/-- The option is one of the allowed values. -/
theorem glob_type {vs : List PNode} (hn : NamedArgs GlobOption vs) {o : Option Node} (h : Given (str! "type") vs o) :
    o.map (·.value) = none ∨ o.map (·.value) = some (str! "file") ∨ o.map (·.value) = some (str! "directory") ∨
      o.map (·.value) = some (str! "any") := by
  cases h with
  | absent => exact Or.inl rfl
  | literal v a h1 h2 =>
    obtain ⟨s, w, hm⟩ := lastNamed_mem h1
    rcases hn _ _ _ _ hm with ⟨_, b, hb, hm⟩ | ⟨hk, _⟩ | ⟨hk, _⟩
    · cases literal_unique h2 hb
      simpa using hm
    · exact absurd hk (by decide)
    · exact absurd hk (by decide)

/-- What `%glob` does with accepted arguments. -/
theorem glob_runs {ext : Ext} {args vs : List PNode} {c n : PNode} {a : Node} {type sort order : Option Node} {by_ : SortBy}
    (hc : IsCall (str! "glob") args c) {s u : St} (ha : Evals ext args s (.ok vs) u)
    (hp : positional vs = [n]) (hl : Literal n a) (hn : NamedArgs GlobOption vs) (ht : Given (str! "type") vs type)
    (hs : Given (str! "sort") vs sort) (hk : SortKey (sort.map (·.value)) by_) (ho : Given (str! "order") vs order)
    {r : Res (List PNode)} {t : St} :
    Evals ext [c] s r t ↔ r ≠ .diverge ∧ (match ext.glob a.value with
      | none => M.fail "Failed to read glob pattern." a.site
      | some paths => (do
        let files ← M.lift (globCollect a.site (type.map (·.value)) by_ [] paths)
        let files := if isAscending order then files else files.reverse
        pure (withFirstLw [] (files.map fun f => .string { value := f.text, site := a.site, lw := [' '] }))) : M (List PNode)) u = (r, t) := by
  obtain ⟨p, hp', h⟩ := eager_extract hc (b := .glob) rfl glob_mem (H := fun vs args _ => do
      let pat ← M.lift (args.posNode c 1)
      let type ← M.lift (args.opt (str! "type"))
      let sort ← M.lift (args.opt (str! "sort"))
      let order ← M.lift (args.opt (str! "order"))
      let type := type.map (·.value)
      if type = none ∨ type = some (str! "file") ∨ type = some (str! "directory") ∨ type = some (str! "any") then
        match sortByOf (sort.map (·.value)) with
        | none => M.panic
        | some by_ =>
          match ext.glob pat.value with
          | none => M.fail "Failed to read glob pattern." pat.site
          | some paths => do
            let files ← M.lift (globCollect pat.site type by_ [] paths)
            let files := if isAscending order then files else files.reverse
            pure (withFirstLw [] (files.map fun f => .string { value := f.text, site := pat.site, lw := [' '] }))
      else M.panic) (fun _ => rfl) (fun _ _ => Mon.const _)
    ha (front := [n]) (back := []) hp (.cons _ _ _ _ (hasType_literal_iff.2 ⟨a, hl⟩) .nil) (by simp)
    (fun k v s w hm => ⟨(glob_option (hn k v s w hm)).1, fun h => by
      obtain ⟨t, ht⟩ := (glob_option (hn k v s w hm)).2
      exact absurd ht (h t)⟩)
  rw [h]
  have h1 : p.posNode c 1 = .ok a := extracted_node hp' (i := 0) (by simp) (by rw [hp]; rfl) hl c
  have h2 : p.opt (str! "type") = .ok type := given_opt hp' ⟨_, by simp [globKey]; rfl⟩ ht
  have h3 : p.opt (str! "sort") = .ok sort := given_opt hp' ⟨_, by simp [globKey]; rfl⟩ hs
  have h4 : p.opt (str! "order") = .ok order := given_opt hp' ⟨_, by simp [globKey]; rfl⟩ ho
  rw [h1, h2, h3, h4, runs_const]
  refine and_congr Iff.rfl (iff_of_eq (congrArg (· = (r, t)) ?_))
  show (if _ then _ else _ : M (List PNode)) u = _
  rw [if_pos (glob_type hn ht), sortByOf_key hk]

theorem isAscending_iff {vs : List PNode} (hn : NamedArgs GlobOption vs) {o : Option Node} (h : Given (str! "order") vs o) :
    isAscending o = !(o.map (·.value) == some (str! "descending")) := by
  cases h with
  | absent => rfl
  | literal v a h1 h2 =>
    obtain ⟨s, w, hm⟩ := lastNamed_mem h1
    rcases hn _ _ _ _ hm with ⟨hk, _⟩ | ⟨hk, _⟩ | ⟨_, b, hb, hm⟩
    · exact absurd hk (by decide)
    · exact absurd hk (by decide)
    · cases literal_unique h2 hb
      simp only [List.mem_cons, List.not_mem_nil, or_false] at hm
      rcases hm with hm | hm <;> simp only [isAscending, Option.map_some, hm] <;> decide

theorem fileNodes_eq (site : Site) (files : List GFile) :
    withFirstLw [] (files.map fun f => .string { value := f.text, site := site, lw := [' '] }) = fileNodes site files := by
  cases files <;> rfl

end Seam
