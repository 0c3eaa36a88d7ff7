import Verif.Lemmas.Semi
import Verif.Lemmas.Runs
import Verif.Lemmas.Closed
import Verif.Spec.Exchange

/-! Computations in states that are alike. -/

namespace Seam
open Spec

/-- A relation of printed lines that is kept when the same line is printed; if `lax`, only runs with a result are of interest. -/
structure LogRel where
  lax : Bool := false
  rel : List LogLine → List LogLine → Prop
  refl : ∀ a, rel a a
  snoc : ∀ a b l, rel a b → rel (a ++ [l]) (b ++ [l])

def LogRel.eq : LogRel := { rel := fun a b => b = a, refl := fun _ => rfl, snoc := fun _ _ _ h => by rw [h] }

/-- This outcome is not of interest. -/
def LogRel.Idle (R : LogRel) {α : Type} : Res α → Prop
  | .diverge => True
  | .ok _ => False
  | .err _ => R.lax = true
  | .panic => R.lax = true

theorem LogRel.idle {R : LogRel} {α : Type} {r : Res α} (h : r = .diverge) : R.Idle r := by subst h; trivial

theorem LogRel.of_idle {R : LogRel} (hR : R.lax = false) {α : Type} {r : Res α} (h : R.Idle r) : r = .diverge := by
  cases r with
  | diverge => rfl
  | ok a => exact False.elim h
  | err e => rw [show R.lax = true from h] at hR; cases hR
  | panic => rw [show R.lax = true from h] at hR; cases hR

/-- States that are alike, but for the printed lines. -/
structure AlikeLog (R : LogRel) (E : List PNode → List PNode → Prop) (s t : St) : Prop where
  scope : ∀ x, AlikeMacro E (s.scope x) (t.scope x)
  log : R.rel s.log t.log
  fresh : t.fresh = s.fresh
  hashes : t.hashes = s.hashes
  order : t.order = s.order

theorem alikeLog_eq {E : List PNode → List PNode → Prop} {s t : St} : AlikeLog .eq E s t ↔ AlikeSt E s t :=
  ⟨fun h => ⟨h.scope, h.log, h.fresh, h.hashes, h.order⟩, fun h => ⟨h.scope, h.log, h.fresh, h.hashes, h.order⟩⟩

/-- The computation does the same in both states. -/
def SameAlike (R : LogRel) (E : List PNode → List PNode → Prop) (α : Type) (m : M α) : Prop := ∀ s t, AlikeLog R E s t →
  (m t).1 = (m s).1 ∧ AlikeLog R E (m s).2 (m t).2

/-- If the computation has an outcome, the other ones do the same in the other state, if they are deep enough. -/
def KeptM (R : LogRel) (E : List PNode → List PNode → Prop) {α : Type} (F : Nat → M α) (m : M α) : Prop := ∀ s t, AlikeLog R E s t →
  R.Idle (m s).1 ∨ ∃ t', AlikeLog R E (m s).2 t' ∧ Ev fun f => F f t = ((m s).1, t')

def KeptRec (R : LogRel) (E : List PNode → List PNode → Prop) (recs : Nat → Rec) (rec : Rec) : Prop := ∀ c, KeptM R E (fun l => recs l c) (rec c)

section
variable {R : LogRel} {E : List PNode → List PNode → Prop}

theorem Spec.AlikeMacro.refl : ∀ m, AlikeMacro E m m
  | Option.none => .none
  | Option.some ⟨ps, as⟩ => .some ps as as (.same as)

theorem AlikeLog.refl (s : St) : AlikeLog R E s s := ⟨fun _ => .refl _, R.refl _, rfl, rfl, rfl⟩

theorem AlikeLog.insert {s t : St} (h : AlikeLog R E s t) (name : Str) {m m' : Macro} (hm : AlikeMacro E (some m) (some m')) :
    AlikeLog R E { s with scope := s.scope.insert name m } { t with scope := t.scope.insert name m' } where
  scope x := by
    simp only [Scope.insert]
    split
    · exact hm
    · exact h.scope x
  log := h.log
  fresh := h.fresh
  hashes := h.hashes
  order := h.order

theorem AlikeLog.back {s t s' t' : St} (h : AlikeLog R E s t) (h' : AlikeLog R E s' t') :
    AlikeLog R E { s' with scope := s.scope } { t' with scope := t.scope } :=
  ⟨h.scope, h'.log, h'.fresh, h'.hashes, h'.order⟩

theorem AlikeLog.export {s t s' t' : St} (h : AlikeLog R E s t) (h' : AlikeLog R E s' t') (pre : Str) :
    AlikeLog R E { s' with scope := exportScope pre s'.scope s.scope } { t' with scope := exportScope pre t'.scope t.scope } where
  scope x := by
    simp only [exportScope]
    split
    · have := h'.scope (x.drop pre.length)
      revert this
      generalize s'.scope (x.drop pre.length) = a
      generalize t'.scope (x.drop pre.length) = b
      intro this
      cases this with
      | none => exact h.scope x
      | some ps as bs hb => exact .some ps as bs hb
    · exact h.scope x
  log := h'.log
  fresh := h'.fresh
  hashes := h'.hashes
  order := h'.order

theorem SameAlike.bind {α β : Type} {m : M α} {f : α → M β} (hm : SameAlike R E α m) (hf : ∀ a, SameAlike R E β (f a)) :
    SameAlike R E β (m >>= f) := by
  intro s t h
  obtain ⟨h1, h2⟩ := hm s t h
  rw [M.bind_def, M.bind_def]
  rcases hs : m s with ⟨r, s'⟩
  rcases ht : m t with ⟨r', t'⟩
  rw [hs, ht] at h1 h2
  dsimp only at h1 h2
  subst h1
  cases r' with
  | ok a => exact hf a s' t' h2
  | _ => exact ⟨rfl, h2⟩

theorem sameAlike_lift {α : Type} (r : Res α) : SameAlike R E α (M.lift r) := fun _ _ h => ⟨rfl, h⟩

theorem sameAlike_define (name : Str) (m : Macro) : SameAlike R E Unit (M.define name m) :=
  fun _ _ h => ⟨rfl, h.insert name (.refl _)⟩

theorem sameAlike_iterate (es : List (Str × PNode)) : SameAlike R E _ (M.iterate es) := by
  intro s t h
  refine ⟨?_, h.scope, h.log, h.fresh, ?_, h.order⟩
  · simp only [M.iterate, h.order, h.hashes]
  · simp only [M.iterate, h.hashes]

theorem sameAlike_firstEntry (es : List (Str × PNode)) : SameAlike R E _ (M.firstEntry es) := by
  intro s t h
  refine ⟨?_, h⟩
  simp only [M.firstEntry, h.order, h.hashes]

theorem sameAlike_bindNamed : ∀ (lhs rhs : List (Str × PNode)), SameAlike R E _ (bindNamed rhs lhs)
  | [], _ => sameAlike_lift _
  | (_, _) :: lhs, rhs => by
    unfold bindNamed
    exact (sameAlike_define _ _).bind fun _ => sameAlike_bindNamed lhs _

theorem sameAlike_bindEnd (acc : BindAcc) (vs : List PNode) : SameAlike R E _ (bindEnd acc vs) := by
  have hend : ∀ rhs : List (Str × PNode), SameAlike R E _ (match acc.kwRest with
      | some name => do
        let entries ← M.iterate rhs
        M.define (name.drop 2) (Macro.var (entries.map (·.2)))
      | none =>
        if rhs.isEmpty then pure ()
        else do
          let entry ← M.firstEntry rhs
          match entry with
          | some (_, n) => M.fail "Unknown excess keywords provided." n.site
          | none => M.panic) := by
    intro rhs
    split
    · exact (sameAlike_iterate _).bind fun _ => sameAlike_define _ _
    · split
      · exact sameAlike_lift _
      · refine (sameAlike_firstEntry _).bind fun e => ?_
        split <;> exact sameAlike_lift _
  unfold bindEnd
  rcases takeRest acc.rhs vs with ⟨rhs, rest⟩
  dsimp only
  split
  · exact (sameAlike_define _ _).bind fun _ => (sameAlike_bindNamed _ _).bind hend
  · exact (sameAlike_lift _).bind fun _ => (sameAlike_bindNamed _ _).bind hend
  · exact (sameAlike_bindNamed _ _).bind hend

theorem sameAlike_flat : Flat (SameAlike R E) where
  pure _ := sameAlike_lift _
  lift := sameAlike_lift
  define := sameAlike_define
  tick s t h := ⟨by simp only [M.tick, h.fresh], h.scope, h.log, by simp only [M.tick, h.fresh], h.hashes, h.order⟩
  emit l s t h := ⟨rfl, h.scope, R.snoc _ _ l h.log, h.fresh, h.hashes, h.order⟩
  bindEnd := sameAlike_bindEnd
  bind := SameAlike.bind

theorem sameAlike_front (ext : Ext) (text sep : Str) (call : PNode) (site : Site) :
    SameAlike R E _ (ignoreErr (frontmatter ext text sep call site)) := by
  intro s t h
  obtain ⟨h1, h2⟩ := frontmatter_semi sameAlike_flat ext text sep call site s t h
  unfold ignoreErr
  rcases hs : frontmatter ext text sep call site s with ⟨r, s'⟩
  rcases ht : frontmatter ext text sep call site t with ⟨r', t'⟩
  rw [hs, ht] at h1 h2
  dsimp only at h1 h2
  subst h1
  cases r' <;> exact ⟨rfl, h2⟩

/-! ## Computations that call the expander -/

theorem SameAlike.kept {α : Type} {m : M α} (h : SameAlike R E α m) : KeptM R E (fun _ => m) m := by
  intro s t hst
  obtain ⟨h1, h2⟩ := h s t hst
  exact .inr ⟨(m t).2, h2, .of fun _ => Prod.ext h1 rfl⟩

theorem KeptM.bind {α β : Type} {F : Nat → M α} {m : M α} {G : Nat → α → M β} {f : α → M β}
    (h : KeptM R E F m) (hf : ∀ a, KeptM R E (fun l => G l a) (f a)) : KeptM R E (fun l => F l >>= G l) (m >>= f) := by
  intro s t hst
  rw [M.bind_def]
  rcases hm : m s with ⟨r, s'⟩
  have h := h s t hst
  rw [hm] at h
  dsimp only at h
  cases r with
  | diverge => exact .inl trivial
  | ok a =>
    dsimp only
    rcases h with h | ⟨u, h1, h2⟩
    · exact False.elim h
    · rcases hf a s' u h1 with h3 | ⟨t', h3, h4⟩
      · exact .inl h3
      · exact .inr ⟨t', h3, (h2.and h4).mono fun l hl => by
          dsimp only at hl ⊢
          rw [M.bind_ok hl.1, hl.2]⟩
  | err e =>
    rcases h with h | ⟨u, h1, h2⟩
    · exact .inl h
    · exact .inr ⟨u, h1, h2.mono fun l hl => M.bind_err hl⟩
  | panic =>
    rcases h with h | ⟨u, h1, h2⟩
    · exact .inl h
    · exact .inr ⟨u, h1, h2.mono fun l hl => M.bind_panic hl⟩

theorem KeptM.inner {α : Type} {F : Nat → M α} {m : M α} (h : KeptM R E F m) : KeptM R E (fun l => M.inner (F l)) (M.inner m) := by
  intro s t hst
  rcases h s t hst with h | ⟨t', h1, h2⟩
  · exact .inl h
  · exact .inr ⟨{ t' with scope := t.scope }, hst.back h1, h2.mono fun l hl => by
      show M.inner (F l) t = _
      rw [M.inner_def, M.inner_def, hl]⟩

theorem KeptM.rethrow {α : Type} {F : Nat → M α} {m : M α} {msg : String} {site : Site} (h : KeptM R E F m) :
    KeptM R E (fun l => Seam.rethrow msg site (F l)) (Seam.rethrow msg site m) := by
  intro s t hst
  unfold Seam.rethrow
  rcases h s t hst with h | ⟨t', h1, h2⟩
  · left
    rcases hm : m s with ⟨r, s'⟩
    rw [hm] at h
    cases r with
    | ok a => exact False.elim h
    | diverge => trivial
    | err e => exact h
    | panic => exact h
  · right
    rcases hm : m s with ⟨r, s'⟩
    rw [hm] at h1 h2
    dsimp only at h1 h2
    cases r <;> exact ⟨t', h1, h2.mono fun l hl => by dsimp only; rw [hl] <;> rfl⟩

/-- Looking up a name. -/
theorem KeptM.lookup {α : Type} {name : Str} {G : Nat → Option Macro → M α} {f : Option Macro → M α}
    (h : ∀ d d', AlikeMacro E d d' → KeptM R E (fun l => G l d') (f d)) :
    KeptM R E (fun l => M.lookup name >>= G l) (M.lookup name >>= f) := by
  intro s t hst
  exact h _ _ (hst.scope name) s t hst

theorem matchStep_ok {α : Type} {b : M Unit} {m m' : M α} {s s' : St} {u : Unit} (h : b s = (.ok u, s')) :
    matchStep b m m' s = ((m s').1, { (m s').2 with scope := s.scope }) := by
  unfold matchStep; rw [h]; rfl

theorem matchStep_err {α : Type} {b : M Unit} {m m' : M α} {s s' : St} {e : Err} (h : b s = (.err e, s')) :
    matchStep b m m' s = m' { s' with scope := s.scope } := by
  unfold matchStep; rw [h]

theorem matchStep_panic {α : Type} {b : M Unit} {m m' : M α} {s s' : St} (h : b s = (.panic, s')) :
    matchStep b m m' s = (.panic, { s' with scope := s.scope }) := by
  unfold matchStep; rw [h]

theorem matchStep_diverge {α : Type} {b : M Unit} {m m' : M α} {s s' : St} (h : b s = (.diverge, s')) :
    matchStep b m m' s = (.diverge, { s' with scope := s.scope }) := by
  unfold matchStep; rw [h]

/-- Trying a pattern. -/
theorem KeptM.matchStep {α : Type} {b : M Unit} (hb : SameAlike R E _ b) {F G : Nat → M α} {m m' : M α} (h : KeptM R E F m)
    (h' : KeptM R E G m') : KeptM R E (fun l => Seam.matchStep b (F l) (G l)) (Seam.matchStep b m m') := by
  intro s t hst
  obtain ⟨h1, h2⟩ := hb s t hst
  rcases hs : b s with ⟨r, s'⟩
  rcases ht : b t with ⟨r', t'⟩
  rw [hs, ht] at h1 h2
  dsimp only at h1 h2
  subst h1
  cases r' with
  | ok u =>
    rw [matchStep_ok hs]
    rcases h s' t' h2 with he | ⟨u', h3, h4⟩
    · exact .inl he
    · exact .inr ⟨{ u' with scope := t.scope }, hst.back h3, h4.mono fun l hl => by
        dsimp only; rw [matchStep_ok ht, hl]⟩
  | err e =>
    rw [matchStep_err hs]
    rcases h' _ _ (hst.back h2) with he | ⟨u', h3, h4⟩
    · exact .inl he
    · exact .inr ⟨u', h3, h4.mono fun l hl => by dsimp only; rw [matchStep_err ht, hl]⟩
  | panic => rw [matchStep_panic hs]; exact .inr ⟨_, hst.back h2, .of fun _ => matchStep_panic ht⟩
  | diverge => rw [matchStep_diverge hs]; exact .inl trivial

theorem sameAlike_create (name : Str) (ps body : List PNode) : SameAlike R E _ (createMacro name ps body) :=
  createMacro_semi sameAlike_flat name ps body
theorem sameAlike_bind (p v : PNode) : SameAlike R E _ (bind p v) := bind_semi sameAlike_flat p v
theorem sameAlike_yaml (ext : Ext) (text sep : Str) (site : Site) : SameAlike R E _ (expandYaml ext text sep site) :=
  expandYaml_semi sameAlike_flat ext text sep site
theorem sameAlike_toml (ext : Ext) (text sep : Str) (site : Site) : SameAlike R E _ (expandToml ext text sep site) :=
  expandToml_semi sameAlike_flat ext text sep site

theorem sameAlike_text (ext : Ext) (text sep : Str) (call : PNode) (site : Site) :
    SameAlike R E _ (frontmatter ext text sep call site) := frontmatter_semi sameAlike_flat ext text sep call site
theorem sameAlike_zone (ext : Ext) (n : Option Node) : SameAlike R E _ (timezone ext n) := by
  unfold timezone
  semi_walk sameAlike_flat []

/-- Walk through a do block. -/
macro "kept_walk" : tactic =>
  `(tactic| repeat' (first
    | (refine SameAlike.kept ?_; (semi_walk sameAlike_flat [sameAlike_create, sameAlike_bind, sameAlike_yaml, sameAlike_toml, sameAlike_front,
        sameAlike_text, sameAlike_zone]); done)
    | apply_assumption
    | (apply KeptM.inner)
    | (refine KeptM.bind ?_ (fun _ => ?_))
    | (split <;> try dsimp only)))

variable {recs : Nat → Rec} {rec : Rec}

theorem expandNodes_kept (h : KeptRec R E recs rec) : ∀ ns, KeptM R E (fun l => expandNodes (recs l) ns) (expandNodes rec ns)
  | [] => SameAlike.kept (sameAlike_lift _)
  | _ :: ns => KeptM.bind (h _) fun _ => KeptM.bind (expandNodes_kept h ns) fun _ => SameAlike.kept (sameAlike_lift _)

theorem mapLoop_kept (h : KeptRec R E recs rec) (call : PNode) (f : Str) :
    ∀ ns, KeptM R E (fun l => mapLoop (recs l) call f ns) (mapLoop rec call f ns)
  | [] => SameAlike.kept (sameAlike_lift _)
  | _ :: ns => KeptM.bind (h _) fun _ => KeptM.bind (mapLoop_kept h call f ns) fun _ => SameAlike.kept (sameAlike_lift _)

theorem filterLoop_kept (h : KeptRec R E recs rec) (call : PNode) (f : Str) :
    ∀ ns, KeptM R E (fun l => filterLoop (recs l) call f ns) (filterLoop rec call f ns)
  | [] => SameAlike.kept (sameAlike_lift _)
  | _ :: ns => KeptM.bind (h _) fun _ => KeptM.bind (filterLoop_kept h call f ns) fun _ => SameAlike.kept (sameAlike_lift _)

theorem sortKeys_kept (h : KeptRec R E recs rec) (call : PNode) (f : Str) (site : Site) :
    ∀ ns, KeptM R E (fun l => sortKeys (recs l) call f site ns) (sortKeys rec call f site ns)
  | [] => SameAlike.kept (sameAlike_lift _)
  | n :: ns => by
    have ih := sortKeys_kept h call f site ns
    unfold sortKeys
    refine KeptM.bind (KeptM.rethrow (h _)) fun _ => ?_
    kept_walk

section args
variable (ext : Ext) (h : KeptRec R E recs rec) {ps qs : List PNode}
  (ha : KeptM R E (fun l => expandNodes (recs l) qs) (expandNodes rec ps)) (call : PNode)
include h ha

theorem includeMacro_kept : KeptM R E (fun l => includeMacro ext (recs l) call qs) (includeMacro ext rec call ps) := by
  unfold includeMacro
  have h1 := expandNodes_kept h
  have h := fun c => h c
  kept_walk

theorem embedMacro_kept : KeptM R E (fun l => embedMacro ext (recs l) call qs) (embedMacro ext rec call ps) := by
  unfold embedMacro
  have h1 := expandNodes_kept h
  have h := fun c => h c
  kept_walk

theorem getMacro_kept : KeptM R E (fun l => getMacro (recs l) call qs) (getMacro rec call ps) := by
  unfold getMacro
  have h1 := expandNodes_kept h
  have h := fun c => h c
  kept_walk

theorem rawMacro_kept : KeptM R E (fun l => rawMacro (recs l) call qs) (rawMacro rec call ps) := by
  unfold rawMacro
  have h1 := expandNodes_kept h
  have h := fun c => h c
  kept_walk

theorem stringMacro_kept : KeptM R E (fun l => stringMacro (recs l) call qs) (stringMacro rec call ps) := by
  unfold stringMacro
  have h1 := expandNodes_kept h
  have h := fun c => h c
  kept_walk

theorem numberMacro_kept : KeptM R E (fun l => numberMacro (recs l) call qs) (numberMacro rec call ps) := by
  unfold numberMacro
  have h1 := expandNodes_kept h
  have h := fun c => h c
  kept_walk

theorem symbolMacro_kept : KeptM R E (fun l => symbolMacro (recs l) call qs) (symbolMacro rec call ps) := by
  unfold symbolMacro
  have h1 := expandNodes_kept h
  have h := fun c => h c
  kept_walk

theorem markdownMacro_kept : KeptM R E (fun l => markdownMacro ext (recs l) call qs) (markdownMacro ext rec call ps) := by
  unfold markdownMacro
  have h1 := expandNodes_kept h
  have h := fun c => h c
  kept_walk

theorem yamlMacro_kept : KeptM R E (fun l => yamlMacro ext (recs l) call qs) (yamlMacro ext rec call ps) := by
  unfold yamlMacro
  have h1 := expandNodes_kept h
  have h := fun c => h c
  kept_walk

theorem tomlMacro_kept : KeptM R E (fun l => tomlMacro ext (recs l) call qs) (tomlMacro ext rec call ps) := by
  unfold tomlMacro
  have h1 := expandNodes_kept h
  have h := fun c => h c
  kept_walk

theorem globMacro_kept : KeptM R E (fun l => globMacro ext (recs l) call qs) (globMacro ext rec call ps) := by
  unfold globMacro
  have h1 := expandNodes_kept h
  have h := fun c => h c
  kept_walk

theorem sortMacro_kept : KeptM R E (fun l => sortMacro ext (recs l) call qs) (sortMacro ext rec call ps) := by
  unfold sortMacro
  have h1 := expandNodes_kept h
  have h2 := sortKeys_kept h call
  have h := fun c => h c
  kept_walk

theorem reverseMacro_kept : KeptM R E (fun l => reverseMacro (recs l) call qs) (reverseMacro rec call ps) := by
  unfold reverseMacro
  have h1 := expandNodes_kept h
  have h := fun c => h c
  kept_walk

theorem dateMacro_kept : KeptM R E (fun l => dateMacro ext (recs l) call qs) (dateMacro ext rec call ps) := by
  unfold dateMacro
  have h1 := expandNodes_kept h
  have h := fun c => h c
  kept_walk

theorem timestampMacro_kept : KeptM R E (fun l => timestampMacro ext (recs l) call qs) (timestampMacro ext rec call ps) := by
  unfold timestampMacro
  have h1 := expandNodes_kept h
  have h := fun c => h c
  kept_walk

theorem joinMacro_kept : KeptM R E (fun l => joinMacro (recs l) call qs) (joinMacro rec call ps) := by
  unfold joinMacro
  have h1 := expandNodes_kept h
  have h := fun c => h c
  kept_walk

theorem concatMacro_kept : KeptM R E (fun l => concatMacro (recs l) call qs) (concatMacro rec call ps) := by
  unfold concatMacro
  have h1 := expandNodes_kept h
  have h := fun c => h c
  kept_walk

theorem mapMacro_kept : KeptM R E (fun l => mapMacro (recs l) call qs) (mapMacro rec call ps) := by
  unfold mapMacro
  have h1 := expandNodes_kept h
  have h2 := mapLoop_kept h call
  have h := fun c => h c
  kept_walk

theorem filterMacro_kept : KeptM R E (fun l => filterMacro (recs l) call qs) (filterMacro rec call ps) := by
  unfold filterMacro
  have h1 := expandNodes_kept h
  have h2 := filterLoop_kept h call
  have h := fun c => h c
  kept_walk

theorem listMacro_kept : KeptM R E (fun l => listMacro (recs l) call qs) (listMacro rec call ps) := by
  unfold listMacro
  have h1 := expandNodes_kept h
  have h := fun c => h c
  kept_walk

theorem applyMacro_kept : KeptM R E (fun l => applyMacro (recs l) call qs) (applyMacro rec call ps) := by
  unfold applyMacro
  have h1 := expandNodes_kept h
  have h := fun c => h c
  kept_walk

theorem logMacro_kept : KeptM R E (fun l => logMacro (recs l) call qs) (logMacro rec call ps) := by
  unfold logMacro
  have h1 := expandNodes_kept h
  have h := fun c => h c
  kept_walk

theorem formatMacro_kept : KeptM R E (fun l => formatMacro ext (recs l) call qs) (formatMacro ext rec call ps) := by
  unfold formatMacro
  have h1 := expandNodes_kept h
  have h := fun c => h c
  kept_walk

theorem osEnvMacro_kept : KeptM R E (fun l => osEnvMacro ext (recs l) call qs) (osEnvMacro ext rec call ps) := by
  unfold osEnvMacro
  have h1 := expandNodes_kept h
  have h := fun c => h c
  kept_walk

omit h in
theorem splatMacro_kept : KeptM R E (fun l => splatMacro (recs l) qs) (splatMacro rec ps) := by
  unfold splatMacro
  kept_walk

omit h in
theorem stripMacro_kept : KeptM R E (fun l => stripMacro (recs l) qs) (stripMacro rec ps) := by
  unfold stripMacro
  kept_walk

omit h in
theorem namespaceMacro_kept : KeptM R E (fun l => namespaceMacro (recs l) call qs) (namespaceMacro rec call ps) := by
  intro s t hst
  unfold namespaceMacro
  have ha := ha s t hst
  rcases hs : expandNodes rec ps s with ⟨r, s'⟩
  rw [hs] at ha
  dsimp only at ha
  rcases ha with ha | ⟨t', h1, h2⟩
  · left
    cases r with
    | ok a => exact False.elim ha
    | diverge => trivial
    | err e => exact ha
    | panic => exact ha
  · cases r with
    | diverge => exact .inl trivial
    | err e => exact .inr ⟨_, hst.back h1, h2.mono fun l hl => by dsimp only; rw [hl]⟩
    | panic => exact .inr ⟨_, hst.back h1, h2.mono fun l hl => by dsimp only; rw [hl]⟩
    | ok args =>
      dsimp only
      cases args with
      | nil => exact .inr ⟨_, hst.back h1, h2.mono fun l hl => by dsimp only; rw [hl]; rfl⟩
      | cons name opts =>
        dsimp only
        rcases hn : name.atomic? with _ | ns
        · exact .inr ⟨_, hst.back h1, h2.mono fun l hl => by dsimp only; rw [hl]; dsimp only; rw [hn]; rfl⟩
        · dsimp only
          rcases ho : namespaceOpts ['/'] opts with ⟨sep, rest⟩ | e | _ | _
          · exact .inr ⟨_, hst.export h1 _, h2.mono fun l hl => by
              dsimp only; rw [hl]; dsimp only; rw [hn]; dsimp only; rw [ho]⟩
          · exact .inr ⟨_, hst.back h1, h2.mono fun l hl => by
              dsimp only; rw [hl]; dsimp only; rw [hn]; dsimp only; rw [ho]⟩
          · exact .inr ⟨_, hst.back h1, h2.mono fun l hl => by
              dsimp only; rw [hl]; dsimp only; rw [hn]; dsimp only; rw [ho]⟩
          · exact .inl trivial

end args

/-- Bodies that were exchanged are expanded alike. -/
def KeptBodies (R : LogRel) (E : List PNode → List PNode → Prop) (recs : Nat → Rec) (rec : Rec) : Prop :=
  ∀ as bs, Exchanged E as bs → KeptM R E (fun l => expandNodes (recs l) bs) (expandNodes rec as)

theorem userMacro_kept (hB : KeptBodies R E recs rec) {ps qs : List PNode}
    (ha : KeptM R E (fun l => expandNodes (recs l) qs) (expandNodes rec ps)) (name : Str) (call : PNode) :
    KeptM R E (fun l => userMacro (recs l) name call qs) (userMacro rec name call ps) := by
  unfold userMacro bindList
  refine KeptM.bind ha fun vs => KeptM.lookup fun d d' hd => ?_
  cases hd with
  | none => exact SameAlike.kept (sameAlike_lift _)
  | some ps as bs hb =>
    refine KeptM.inner (KeptM.bind (SameAlike.kept (bindLoop_semi sameAlike_flat _ _ _ _)) fun _ => hB _ _ hb)

theorem expandVariable_kept (hB : KeptBodies R E recs rec) (a : Node) (name : Str) :
    KeptM R E (fun l => expandVariable (recs l) a name) (expandVariable rec a name) := by
  unfold expandVariable
  refine KeptM.lookup fun d d' hd => ?_
  cases hd with
  | none => exact SameAlike.kept (sameAlike_lift _)
  | some ps as bs hb =>
    have h1 := hB _ _ hb
    dsimp only
    kept_walk

theorem ifdefMacro_kept (call x : PNode) {a b : PNode} (ha : KeptM R E (fun l => recs l (.node b)) (rec (.node a))) :
    KeptM R E (fun l => ifdefMacro (recs l) call [x, b]) (ifdefMacro rec call [x, a]) := by
  unfold ifdefMacro
  dsimp only
  rcases x.atomic? with _ | n
  · exact SameAlike.kept (sameAlike_lift _)
  · refine KeptM.lookup fun d d' hd => ?_
    cases hd with
    | none => exact KeptM.bind (SameAlike.kept (sameAlike_lift (.ok []))) fun _ => SameAlike.kept (sameAlike_lift _)
    | some ps as bs hb => exact KeptM.bind ha fun _ => SameAlike.kept (sameAlike_lift _)

theorem ifdefElse_kept (call x : PNode) {a b a' b' : PNode} (ha : KeptM R E (fun l => recs l (.node b)) (rec (.node a)))
    (ha' : KeptM R E (fun l => recs l (.node b')) (rec (.node a'))) :
    KeptM R E (fun l => ifdefMacro (recs l) call [x, b, b']) (ifdefMacro rec call [x, a, a']) := by
  unfold ifdefMacro
  dsimp only
  rcases x.atomic? with _ | n
  · exact SameAlike.kept (sameAlike_lift _)
  · refine KeptM.lookup fun d d' hd => ?_
    cases hd with
    | none => exact KeptM.bind ha' fun _ => SameAlike.kept (sameAlike_lift _)
    | some ps as bs hb => exact KeptM.bind ha fun _ => SameAlike.kept (sameAlike_lift _)

theorem ifdef_kept (h : KeptRec R E recs rec) (call : PNode) (ps : List PNode) :
    KeptM R E (fun l => ifdefMacro (recs l) call ps) (ifdefMacro rec call ps) := by
  rcases ps with _ | ⟨x, _ | ⟨a, _ | ⟨b, _ | ⟨c, ps⟩⟩⟩⟩
  · exact SameAlike.kept (sameAlike_lift _)
  · exact SameAlike.kept (sameAlike_lift _)
  · exact ifdefMacro_kept call x (h _)
  · exact ifdefElse_kept call x (h _) (h _)
  · exact SameAlike.kept (sameAlike_lift _)

theorem defineMacro_kept (h : KeptRec R E recs rec) (call : PNode) (ps : List PNode) :
    KeptM R E (fun l => defineMacro (recs l) call ps) (defineMacro rec call ps) := by
  unfold defineMacro
  have h1 := expandNodes_kept h
  kept_walk

theorem defineValue_kept (call : PNode) (x : Node) {as bs : List PNode}
    (ha : KeptM R E (fun l => expandNodes (recs l) bs) (expandNodes rec as)) :
    KeptM R E (fun l => defineMacro (recs l) call (.symbol x :: bs)) (defineMacro rec call (.symbol x :: as)) := by
  unfold defineMacro
  dsimp only
  kept_walk

theorem create_kept (name : Str) (ps : List PNode) {as bs : List PNode} (h : Exchanged E as bs) :
    KeptM R E (fun _ => createMacro name ps bs) (createMacro name ps as) := by
  have hd : KeptM R E (fun _ => M.define name ⟨ps, bs⟩) (M.define name ⟨ps, as⟩) :=
    fun s t hst => .inr ⟨_, hst.insert name (.some ps as bs h), .of fun _ => rfl⟩
  unfold createMacro
  split
  · exact SameAlike.kept (sameAlike_lift _)
  · split
    · exact SameAlike.kept (sameAlike_lift _)
    · exact hd

theorem defineFunction_kept (call : PNode) (f : Node) (ps : List PNode) (si : Site) (e : Token) (w : Str) {as bs : List PNode}
    (h : Exchanged E as bs) : KeptM R E (fun l => defineMacro (recs l) call (.list (.symbol f :: ps) si e w :: bs))
      (defineMacro rec call (.list (.symbol f :: ps) si e w :: as)) := by
  unfold defineMacro
  exact KeptM.bind (create_kept f.value ps h) fun _ => SameAlike.kept (sameAlike_lift _)

theorem forLoop_kept (it : PNode) {as bs : List PNode} (ha : KeptM R E (fun l => expandNodes (recs l) bs) (expandNodes rec as)) :
    ∀ ns, KeptM R E (fun l => forLoop (recs l) it bs ns) (forLoop rec it as ns)
  | [] => SameAlike.kept (sameAlike_lift _)
  | _ :: ns => KeptM.bind (SameAlike.kept (sameAlike_bind _ _)) fun _ => KeptM.bind ha fun _ =>
      KeptM.bind (forLoop_kept it ha ns) fun _ => SameAlike.kept (sameAlike_lift _)

theorem forMacro_kept (h : KeptRec R E recs rec) (call : PNode) (ps : List PNode) :
    KeptM R E (fun l => forMacro (recs l) call ps) (forMacro rec call ps) := by
  unfold forMacro
  have h1 := expandNodes_kept h
  have h2 := fun it body => forLoop_kept it (h1 body)
  kept_walk

theorem matchLoop_kept (h : KeptRec R E recs rec) (hB : KeptBodies R E recs rec) (v : PNode) : ∀ {ps qs : List PNode},
    ClausePairs E ps qs → KeptM R E (fun l => matchLoop (recs l) v qs) (matchLoop rec v ps)
  | _, _, .nil => SameAlike.kept (sameAlike_lift _)
  | _, _, .same p ps qs hc => by
    have ih := matchLoop_kept h hB v hc
    unfold matchLoop
    split
    · exact SameAlike.kept (sameAlike_lift _)
    · refine KeptM.bind (h _) fun pats => ?_
      rcases pats with _ | ⟨pat', _ | ⟨_, _⟩⟩ <;> dsimp only
      · exact SameAlike.kept (sameAlike_lift _)
      · exact KeptM.matchStep (sameAlike_bind pat' v) (expandNodes_kept h _) ih
      · exact SameAlike.kept (sameAlike_lift _)
    · exact SameAlike.kept (sameAlike_lift _)
  | _, _, .clause p q as bs si e w ps qs hs hp hb hc => by
    have ih := matchLoop_kept h hB v hc
    have h1 := hB _ _ hp
    simp only [expandNodes_one] at h1
    unfold matchLoop
    dsimp only
    refine KeptM.bind h1 fun pats => ?_
    rcases pats with _ | ⟨pat', _ | ⟨_, _⟩⟩ <;> dsimp only
    · rw [hs]; exact SameAlike.kept (sameAlike_lift _)
    · exact KeptM.matchStep (sameAlike_bind pat' v) (hB _ _ hb) ih
    · rw [hs]; exact SameAlike.kept (sameAlike_lift _)

theorem clauses_refl : ∀ ps : List PNode, ClausePairs E ps ps
  | [] => .nil
  | p :: ps => .same p _ _ (clauses_refl ps)

theorem matchMacro_kept (h : KeptRec R E recs rec) (hB : KeptBodies R E recs rec) (call : PNode) {a b : PNode} {ps qs : List PNode}
    (hs : a.site = b.site) (ha : KeptM R E (fun l => recs l (.node b)) (rec (.node a))) (hc : ClausePairs E ps qs) :
    KeptM R E (fun l => matchMacro (recs l) call (b :: qs)) (matchMacro rec call (a :: ps)) := by
  unfold matchMacro
  dsimp only
  refine KeptM.bind ha fun es => ?_
  rcases es with _ | ⟨v, _ | ⟨_, _⟩⟩ <;> dsimp only
  · rw [hs]; exact SameAlike.kept (sameAlike_lift _)
  · exact matchLoop_kept h hB v hc
  · rw [hs]; exact SameAlike.kept (sameAlike_lift _)

theorem match_kept (h : KeptRec R E recs rec) (hB : KeptBodies R E recs rec) (call : PNode) (ps : List PNode) :
    KeptM R E (fun l => matchMacro (recs l) call ps) (matchMacro rec call ps) := by
  cases ps with
  | nil => exact SameAlike.kept (sameAlike_lift _)
  | cons a ps => exact matchMacro_kept h hB call rfl (h _) (clauses_refl ps)

theorem lambdaMacro_kept (ext : Ext) (call : PNode) (ps : List PNode) :
    KeptM R E (fun _ => lambdaMacro ext call ps) (lambdaMacro ext call ps) := by
  unfold lambdaMacro
  kept_walk

end

theorem Spec.AlikeSt.refl {E : List PNode → List PNode → Prop} (s : St) : AlikeSt E s s := alikeLog_eq.1 (.refl s)

end Seam
