import Verif.Lemmas.Get
import Verif.Lemmas.Eval
import Verif.Lemmas.Path
import Verif.Lemmas.Sort
import Verif.Spec.Cli

/-! # Lemmas about the command line -/

namespace Seam
open Spec

theorem split2_none {s : Str} (h : ¬ HasTwoDashes s) : splitStr s ['-', '-'] = [s] :=
  splitStr_none (by simp) fun a b e => h ⟨a, b, by simpa using e⟩

theorem split2_head (x : Str) : splitStr ('-' :: '-' :: x) ['-', '-'] = [] :: splitStr x ['-', '-'] :=
  splitStr_first (sep := ['-', '-']) (p := []) (q := x) (by simp) (fun _ _ _ => Nat.zero_le _)

theorem split1_head (x : Str) : splitStr ('-' :: x) ['-'] = [] :: splitStr x ['-'] :=
  splitStr_first (sep := ['-']) (p := []) (q := x) (by simp) (fun _ _ _ => Nat.zero_le _)

/-- The first piece is the text before the first dash. -/
theorem split1_first (x : Str) : ∃ ps, splitStr x ['-'] = x.takeWhile (· != '-') :: ps := by
  by_cases h : '-' ∈ x
  · obtain ⟨a, b, rfl, ha⟩ : ∃ a b, x = a ++ '-' :: b ∧ '-' ∉ a := by
      induction x with
      | nil => cases h
      | cons c cs ih =>
        by_cases hc : c = '-'
        · exact ⟨[], cs, by rw [hc]; rfl, by simp⟩
        · obtain ⟨a, b, e, ha⟩ := ih (by simpa [Ne.symm hc] using h)
          exact ⟨c :: a, b, by rw [e]; rfl, by simp [Ne.symm hc, ha]⟩
    have e1 : splitStr (a ++ ['-'] ++ b) ['-'] = a :: splitStr b ['-'] := by
      apply splitStr_first (by simp)
      intro a' b' e
      rcases Nat.lt_or_ge a'.length a.length with hl | hl
      · exfalso
        have h1 : (a ++ ['-'] ++ b)[a'.length]? = some '-' := by rw [e]; simp
        rw [List.append_assoc, List.getElem?_append_left hl] at h1
        exact ha (List.mem_of_getElem? h1)
      · exact hl
    refine ⟨splitStr b ['-'], ?_⟩
    rw [show a ++ '-' :: b = a ++ ['-'] ++ b by simp, e1]
    congr 1
    rw [List.append_assoc, List.takeWhile_append_of_pos]
    · simp
    · intro c hc
      simp only [bne_iff_ne, ne_eq]
      rintro rfl
      exact ha hc
  · refine ⟨[], ?_⟩
    rw [splitStr_none (by simp)]
    · congr 1
      symm
      rw [← List.append_nil x, List.takeWhile_append_of_pos]
      · simp
      · intro c hc
        simp only [bne_iff_ne, ne_eq]
        rintro rfl
        exact h hc
    · intro a b e
      exact h (by rw [e]; simp)

/-- What an argument does to the options. -/
def Opts.after (o : Opts) : Wish → Opts
  | .target t => { o with target := t }
  | .noDocument => { o with doc := false }
  | .dir d => { o with dirs := btInsert pathCmp d o.dirs }
  | .stdin => { o with stdin := true }
  | .file f => { o with files := o.files ++ [f] }

theorem not_two_cons {c : Char} {s : Str} (hc : c ≠ '-') (h : ¬ HasTwoDashes s) : ¬ HasTwoDashes (c :: s) := by
  rintro ⟨a, b, e⟩
  cases a with
  | nil => exact hc (List.cons.inj e).1
  | cons d a => exact h ⟨a, b, (List.cons.inj e).2⟩

theorem not_two_dash {c : Char} {s : Str} (hc : c ≠ '-') (h : ¬ HasTwoDashes s) : ¬ HasTwoDashes ('-' :: c :: s) := by
  rintro ⟨a, b, e⟩
  cases a with
  | nil => exact hc (List.cons.inj (List.cons.inj e).2).1
  | cons d a => exact not_two_cons hc h ⟨a, b, (List.cons.inj e).2⟩

theorem cliStep_long (isThere : Str → Bool) (o : Opts) (x : Str) (h : ¬ HasTwoDashes x) :
    cliStep isThere o ('-' :: '-' :: x) =
      if x ∈ supportedTargets then .go { o with target := x }
      else if x = str! "nodocument" ∨ x = str! "nodoc" then .go { o with doc := false }
      else .fatal := by
  unfold cliStep
  rw [if_pos (List.head?_cons), split2_head, split2_none h]
  rfl

theorem cliStep_short (isThere : Str → Bool) (o : Opts) (x : Str) (h : ¬ HasTwoDashes ('-' :: x)) :
    cliStep isThere o ('-' :: x) =
      match x.takeWhile (· != '-') with
      | ['v'] => .version
      | 'I' :: _ => .go { o with dirs := btInsert pathCmp (x.drop 1) o.dirs }
      | [] => .go { o with stdin := true }
      | _ => .fatal := by
  unfold cliStep
  rw [if_pos (List.head?_cons), split2_none h, split1_head]
  obtain ⟨ps, e⟩ := split1_first x
  rw [e]
  generalize List.takeWhile (fun x => x != '-') x = t
  simp only [List.getElem?_cons_succ, List.getElem?_nil, List.getElem?_cons_zero, List.drop_succ_cons]
  split
  · next e => cases e; rfl
  · next e => cases e; rfl
  · next e => cases e; rfl
  · next h1 h2 h3 e => 
    cases e
    split
    · exact absurd rfl h1
    · exact absurd rfl (h2 _)
    · exact absurd rfl h3
    · rfl
  · next e => cases e

theorem asks_step {isThere : Str → Bool} {a : Str} {w : Wish} (h : Asks isThere a w) (o : Opts) :
    cliStep isThere o a = .go (o.after w) := by
  cases h with
  | target t ht =>
    have h2 : ¬ HasTwoDashes t := by
      intro ⟨a, b, e⟩
      have : ∀ t ∈ [str! "text", str! "sexp", str! "html", str! "xml", str! "css"], '-' ∉ t := by decide
      exact this t ht (by rw [e]; simp)
    rw [cliStep_long _ _ _ h2, if_pos (show t ∈ supportedTargets from ht)]
    rfl
  | noDocument => rfl
  | noDoc => rfl
  | dir d hd =>
    rw [cliStep_short _ _ _ (not_two_dash (by decide) hd)]
    rfl
  | stdin => rfl
  | file f hf hi =>
    unfold cliStep
    rw [if_neg hf, if_pos hi]
    rfl

theorem unknown_step {isThere : Str → Bool} {a : Str} (h : Unknown isThere a) (o : Opts) :
    cliStep isThere o a = .fatal := by
  cases h with
  | long x h2 hx =>
    rw [cliStep_long _ _ _ h2, if_neg (fun hm => hx ?_), if_neg (fun hm => hx ?_)]
    · rcases hm with rfl | rfl <;> decide
    · simp only [supportedTargets, List.mem_cons] at hm ⊢
      rcases hm with h | h | h | h | h | h
      · exact Or.inl h
      · exact Or.inr (Or.inl h)
      · exact Or.inr (Or.inr (Or.inl h))
      · exact Or.inr (Or.inr (Or.inr (Or.inl h)))
      · exact Or.inr (Or.inr (Or.inr (Or.inr (Or.inl h))))
      · cases h
  | short c x h2 hI hv =>
    have hc : c ≠ '-' := by
      rintro rfl
      exact h2 ⟨[], x, rfl⟩
    rw [cliStep_short _ _ _ h2, List.takeWhile_cons_of_pos (by simpa using hc)]
    split
    · next e =>
      obtain ⟨rfl, e⟩ := List.cons.inj e
      exfalso
      apply hv
      refine ⟨rfl, ?_⟩
      cases x with
      | nil => exact Or.inl rfl
      | cons d x =>
        refine Or.inr ?_
        rw [List.takeWhile_cons] at e
        split at e
        · cases e
        · next h => simpa using h
    · next e => exact absurd (List.cons.inj e).1 hI
    · next e => cases e
    · rfl
  | missing f hf hi =>
    unfold cliStep
    rw [if_neg hf, if_neg (by rw [hi]; exact Bool.false_ne_true)]

theorem version_step (isThere : Str → Bool) (o : Opts) : cliStep isThere o (str! "-v") = .version := rfl

theorem arg_cases (isThere : Str → Bool) (a : Str) :
    (∃ w, Asks isThere a w) ∨ Unknown isThere a ∨ a = str! "-v" ∨ Malformed a := by
  by_cases hd : a.head? = some '-'
  · cases a with
    | nil => cases hd
    | cons c s =>
      cases hd
      by_cases h2 : HasTwoDashes s
      · exact Or.inr (Or.inr (Or.inr ⟨s, rfl, Or.inl h2⟩))
      · cases s with
        | nil => exact Or.inl ⟨_, .stdin⟩
        | cons c x =>
          by_cases hc : c = '-'
          · subst hc
            have h3 : ¬ HasTwoDashes x := fun ⟨a, b, e⟩ => h2 ⟨'-' :: a, b, by rw [e]; rfl⟩
            by_cases hx : x ∈ [str! "text", str! "sexp", str! "html", str! "xml", str! "css", str! "nodocument", str! "nodoc"]
            · by_cases ht : x ∈ [str! "text", str! "sexp", str! "html", str! "xml", str! "css"]
              · exact Or.inl ⟨_, .target x ht⟩
              · have : x = str! "nodocument" ∨ x = str! "nodoc" := by
                  simp only [List.mem_cons, List.not_mem_nil, or_false, not_or] at hx ht
                  obtain ⟨t1, t2, t3, t4, t5⟩ := ht
                  rcases hx with h | h | h | h | h | h | h
                  · exact absurd h t1
                  · exact absurd h t2
                  · exact absurd h t3
                  · exact absurd h t4
                  · exact absurd h t5
                  · exact Or.inl h
                  · exact Or.inr h
                rcases this with rfl | rfl
                · exact Or.inl ⟨_, .noDocument⟩
                · exact Or.inl ⟨_, .noDoc⟩
            · exact Or.inr (Or.inl (.long x h3 hx))
          · have h3 : ¬ HasTwoDashes x := fun ⟨a, b, e⟩ => h2 ⟨c :: a, b, by rw [e]; rfl⟩
            by_cases hI : c = 'I'
            · subst hI
              exact Or.inl ⟨_, .dir x h3⟩
            · by_cases hv : c = 'v' ∧ (x = [] ∨ x.head? = some '-')
              · obtain ⟨rfl, rfl | hx⟩ := hv
                · exact Or.inr (Or.inr (Or.inl rfl))
                · cases x with
                  | nil => cases hx
                  | cons d x =>
                    cases hx
                    exact Or.inr (Or.inr (Or.inr ⟨_, rfl, Or.inr ⟨x, rfl⟩⟩))
              · exact Or.inr (Or.inl (.short c x (not_two_dash hc h3) hI hv))
  · cases hi : isThere a with
    | true => exact Or.inl ⟨_, .file a hd hi⟩
    | false => exact Or.inr (Or.inl (.missing a hd hi))

/-! ## The argument loop -/

theorem cliLoop_asks {isThere : Str → Bool} {as : List Str} {ws : List Wish} (h : Pairs (Asks isThere) as ws)
    (rest : List Str) : ∀ o, cliLoop isThere o (as ++ rest) = cliLoop isThere (ws.foldl Opts.after o) rest := by
  induction h with
  | nil => intro o; rfl
  | cons h1 h2 ih =>
    intro o
    rw [List.cons_append, cliLoop, asks_step h1]
    exact ih _

theorem fold_files (ws : List Wish) : ∀ o : Opts, (ws.foldl Opts.after o).files = o.files ++ filesOf ws := by
  induction ws with
  | nil => intro o; simp [filesOf]
  | cons w ws ih => intro o; cases w <;> simp [ih, Opts.after, filesOf]

theorem fold_doc (ws : List Wish) : ∀ o : Opts,
    (ws.foldl Opts.after o).doc = if .noDocument ∈ ws then false else o.doc := by
  induction ws with
  | nil => intro o; simp
  | cons w ws ih => intro o; cases w <;> simp [ih, Opts.after]

theorem fold_stdin (ws : List Wish) : ∀ o : Opts,
    (ws.foldl Opts.after o).stdin = if .stdin ∈ ws then true else o.stdin := by
  induction ws with
  | nil => intro o; simp
  | cons w ws ih => intro o; cases w <;> simp [ih, Opts.after]

theorem fold_dirs (ws : List Wish) : ∀ o : Opts, (ws.foldl Opts.after o).dirs = addDirs o.dirs (dirsOf ws) := by
  induction ws with
  | nil => intro o; simp [dirsOf, addDirs]
  | cons w ws ih => intro o; cases w <;> simp [ih, Opts.after, dirsOf, addDirs]

theorem fold_no_target (ws : List Wish) (h : ∀ t, .target t ∉ ws) : ∀ o : Opts,
    (ws.foldl Opts.after o).target = o.target := by
  induction ws with
  | nil => intro o; rfl
  | cons w ws ih =>
    intro o
    rw [List.foldl_cons, ih (fun t ht => h t (List.mem_cons_of_mem _ ht))]
    cases w with
    | target t => exact absurd List.mem_cons_self (h t)
    | _ => rfl

theorem fold_target {ws : List Wish} {t : Str} (h : LastTarget ws t) (o : Opts) :
    (ws.foldl Opts.after o).target = t := by
  obtain ⟨a, b, rfl, hb⟩ := h
  rw [List.foldl_append, List.foldl_cons, fold_no_target b hb]
  rfl

theorem lastTarget_cases (ws : List Wish) : (∀ t, .target t ∉ ws) ∨ ∃ t, LastTarget ws t := by
  induction ws with
  | nil => exact Or.inl (by simp)
  | cons w ws ih =>
    rcases ih with h | ⟨t, a, b, rfl, hb⟩
    · cases w with
      | target t => exact Or.inr ⟨t, [], ws, rfl, h⟩
      | _ => exact Or.inl (by simpa using h)
    · exact Or.inr ⟨t, w :: a, b, rfl, hb⟩

theorem mem_dirsOf (d : Str) : ∀ ws : List Wish, d ∈ dirsOf ws ↔ .dir d ∈ ws
  | [] => by simp [dirsOf]
  | w :: ws => by cases w <;> simp [dirsOf, mem_dirsOf d ws]

theorem asks_target {isThere : Str → Bool} {as : List Str} {ws : List Wish} {t : Str}
    (h : Pairs (Asks isThere) as ws) (ht : .target t ∈ ws) : t ∈ supportedTargets := by
  induction h with
  | nil => cases ht
  | cons h1 _ ih =>
    rcases List.mem_cons.1 ht with rfl | h
    · cases h1 with
      | target _ h => exact h
    · exact ih h

/-- The run for documented arguments. -/
theorem main_asks {ext : Ext} {order : Order} {dbg : Str → Str} {w : World} {fuel : Nat} {args : List Str}
    {wishes : List Wish} {target : Str} (h : Pairs (Asks w.isThere) args wishes) (ht : LastTarget wishes target) :
    main_ ext order dbg w fuel args =
      processAll { ext with includes := includesOf (addDirs [] (dirsOf wishes)) } order dbg fuel target
        (decide (.noDocument ∉ wishes)) (inputsFor w.stdin w.readFile wishes) := by
  unfold main_
  have := cliLoop_asks h [] Opts.init
  rw [List.append_nil] at this
  rw [this, cliLoop]
  have htm : target ≠ [] := by
    have := asks_target h (t := target) (by obtain ⟨a, b, rfl, _⟩ := ht; simp)
    rintro rfl
    revert this
    decide
  simp only
  rw [if_neg (by rw [fold_target ht]; simpa using htm), fold_target ht, fold_dirs, fold_doc]
  congr 1
  · by_cases hd : Wish.noDocument ∈ wishes <;> simp [hd, Opts.init]
  · unfold inputsOf inputsFor
    rw [fold_files, fold_stdin]
    by_cases h1 : Wish.stdin ∈ wishes <;> by_cases h2 : filesOf wishes = [] <;> simp [h1, h2, Opts.init]

/-! ## All arguments -/

theorem split2_first {a t : Str} (h : ¬ HasTwoDashes (a ++ ['-'])) :
    splitStr (a ++ '-' :: '-' :: t) ['-', '-'] = a :: splitStr t ['-', '-'] := by
  rw [show a ++ '-' :: '-' :: t = a ++ ['-', '-'] ++ t by simp]
  apply splitStr_first (by simp)
  intro a' b' e
  rcases Nat.lt_or_ge a'.length a.length with hl | hl
  · exfalso
    apply h
    have h1 : a' <+: a := by
      have e1 : a' <+: a ++ ['-', '-'] ++ t := ⟨['-', '-'] ++ b', by rw [e]; simp⟩
      exact List.prefix_of_prefix_length_le e1 (by rw [List.append_assoc]; exact List.prefix_append _ _) (Nat.le_of_lt hl)
    obtain ⟨r, rfl⟩ := h1
    simp only [List.append_assoc] at e
    have e2 := List.append_cancel_left e
    clear e h
    cases r with
    | nil => simp at hl
    | cons c r =>
      simp only [List.cons_append, List.nil_append, List.cons.injEq] at e2
      obtain ⟨rfl, e2⟩ := e2
      cases r with
      | nil => exact ⟨a', [], by simp⟩
      | cons d r =>
        simp only [List.cons_append, List.cons.injEq] at e2
        obtain ⟨rfl, e2⟩ := e2
        exact ⟨a', r ++ ['-'], by simp⟩
  · exact hl

theorem between_step {isThere : Str → Bool} {a t : Str} (hd : a.head? = some '-') (h : BetweenDashes a t) (o : Opts) :
    cliStep isThere o a =
      if t ∈ supportedTargets then .go { o with target := t }
      else if t = str! "nodocument" ∨ t = str! "nodoc" then .go { o with doc := false }
      else .fatal := by
  have hs : (splitStr a ['-', '-'])[1]? = some t := by
    obtain ⟨x, hx, ⟨rfl, ht⟩ | ⟨b, rfl, ht⟩⟩ := h
    · rw [split2_first hx, split2_none ht]; rfl
    · rw [split2_first hx, split2_first ht]; rfl
  unfold cliStep
  rw [if_pos hd, hs]

theorem targets_mem {t : Str} (h : t ∈ [str! "text", str! "sexp", str! "html", str! "xml", str! "css"]) : t ∈ supportedTargets := h

theorem meant_step {isThere : Str → Bool} {a : Str} {w : Wish} (h : Meant isThere a w) (o : Opts) :
    cliStep isThere o a = .go (o.after w) := by
  cases h with
  | asks _ h => exact asks_step h o
  | target t hd hb ht => rw [between_step hd hb, if_pos (targets_mem ht)]; rfl
  | noDocument t hd hb ht =>
    have h1 : t = str! "nodocument" ∨ t = str! "nodoc" := by simpa using ht
    rw [between_step hd hb, if_neg (by rcases h1 with rfl | rfl <;> decide), if_pos h1]
    rfl

theorem stops_step {isThere : Str → Bool} {a : Str} {n : Nat} (h : Stops isThere a n) (o : Opts) :
    (n = 1 ∧ cliStep isThere o a = .fatal) ∨ (n = 0 ∧ cliStep isThere o a = .version) := by
  cases h with
  | unknown _ h => exact .inl ⟨rfl, unknown_step h o⟩
  | between _ t hd hb ht =>
    refine .inl ⟨rfl, ?_⟩
    rw [between_step hd hb, if_neg, if_neg]
    · rintro (rfl | rfl) <;> exact ht (by decide)
    · intro h
      refine ht ?_
      have h : t ∈ [str! "text", str! "sexp", str! "html", str! "xml", str! "css"] := h
      exact List.mem_append_left [str! "nodocument", str! "nodoc"] h
  | version => exact .inr ⟨rfl, rfl⟩
  | versionDash x h =>
    refine .inr ⟨rfl, ?_⟩
    rw [cliStep_short _ _ _ (not_two_dash (by decide) h)]
    rfl

/-- The first place with two dashes in a row. -/
theorem first_two : ∀ {s : Str}, HasTwoDashes s → ∃ a r, s = a ++ '-' :: '-' :: r ∧ ¬ HasTwoDashes (a ++ ['-'])
  | [], ⟨a, b, e⟩ => by cases a <;> cases e
  | c :: s, h => by
    by_cases h0 : ∃ r, c :: s = '-' :: '-' :: r
    · obtain ⟨r, e⟩ := h0
      refine ⟨[], r, e, ?_⟩
      rintro ⟨a, b, e⟩
      have := congrArg List.length e
      simp at this
      omega
    · have hs : HasTwoDashes s := by
        obtain ⟨a, b, e⟩ := h
        cases a with
        | nil => exact absurd ⟨b, e⟩ h0
        | cons d a => exact ⟨a, b, (List.cons.inj e).2⟩
      obtain ⟨a, r, e, hn⟩ := first_two hs
      refine ⟨c :: a, r, by rw [e]; rfl, ?_⟩
      rintro ⟨a', b', e'⟩
      cases a' with
      | nil =>
        have h1 := List.cons.inj e'
        obtain ⟨rfl, h1⟩ := h1
        cases a with
        | nil => exact h0 ⟨'-' :: r, by rw [e]; rfl⟩
        | cons d a =>
          obtain ⟨rfl, _⟩ := List.cons.inj h1
          exact h0 ⟨a ++ '-' :: '-' :: r, by rw [e]; rfl⟩
      | cons d a' => exact hn ⟨a', b', (List.cons.inj e').2⟩

theorem between_total {a : Str} (h : HasTwoDashes a) : ∃ t, BetweenDashes a t := by
  obtain ⟨x, r, rfl, hx⟩ := first_two h
  by_cases hr : HasTwoDashes r
  · obtain ⟨t, b, rfl, ht⟩ := first_two hr
    exact ⟨t, x, hx, .inr ⟨b, rfl, ht⟩⟩
  · exact ⟨r, x, hx, .inl ⟨rfl, hr⟩⟩

theorem meant_total (isThere : Str → Bool) (a : Str) : (∃ w, Meant isThere a w) ∨ ∃ n, Stops isThere a n := by
  rcases arg_cases isThere a with ⟨w, h⟩ | h | rfl | h
  · exact .inl ⟨w, .asks _ _ h⟩
  · exact .inr ⟨1, .unknown _ h⟩
  · exact .inr ⟨0, .version⟩
  · by_cases h2 : HasTwoDashes a
    · obtain ⟨s, rfl, _⟩ := h
      obtain ⟨t, ht⟩ := between_total h2
      by_cases h1 : t ∈ [str! "text", str! "sexp", str! "html", str! "xml", str! "css"]
      · exact .inl ⟨_, .target _ t rfl ht h1⟩
      · by_cases h3 : t ∈ [str! "nodocument", str! "nodoc"]
        · exact .inl ⟨_, .noDocument _ t rfl ht h3⟩
        · refine .inr ⟨1, .between _ t rfl ht fun hm => ?_⟩
          have hm : t ∈ [str! "text", str! "sexp", str! "html", str! "xml", str! "css"] ++ [str! "nodocument", str! "nodoc"] := hm
          rcases List.mem_append.1 hm with hm | hm
          · exact h1 hm
          · exact h3 hm
    · obtain ⟨s, rfl, hs | ⟨x, rfl⟩⟩ := h
      · obtain ⟨p, q, rfl⟩ := hs
        exact absurd ⟨'-' :: p, q, rfl⟩ h2
      · exact .inr ⟨0, .versionDash x fun ⟨p, q, e⟩ => h2 ⟨'-' :: 'v' :: p, q, by rw [e]; rfl⟩⟩

theorem cliLoop_meant {isThere : Str → Bool} {as : List Str} {ws : List Wish} (h : Pairs (Meant isThere) as ws)
    (rest : List Str) : ∀ o, cliLoop isThere o (as ++ rest) = cliLoop isThere (ws.foldl Opts.after o) rest := by
  induction h with
  | nil => intro o; rfl
  | cons h1 h2 ih =>
    intro o
    rw [List.cons_append, cliLoop, meant_step h1]
    exact ih _

theorem meant_target {isThere : Str → Bool} {as : List Str} {ws : List Wish} {t : Str}
    (h : Pairs (Meant isThere) as ws) (ht : .target t ∈ ws) : t ∈ supportedTargets := by
  induction h with
  | nil => cases ht
  | cons h1 _ ih =>
    rcases List.mem_cons.1 ht with rfl | h
    · cases h1 with
      | asks _ h =>
        cases h with
        | target _ h => exact h
      | target _ _ _ h => exact h
    · exact ih h

/-- The run for arguments that all ask for something. -/
theorem main_meant {ext : Ext} {order : Order} {dbg : Str → Str} {w : World} {fuel : Nat} {args : List Str}
    {wishes : List Wish} {target : Str} (h : Pairs (Meant w.isThere) args wishes) (ht : LastTarget wishes target) :
    main_ ext order dbg w fuel args =
      processAll { ext with includes := includesOf (addDirs [] (dirsOf wishes)) } order dbg fuel target
        (decide (.noDocument ∉ wishes)) (inputsFor w.stdin w.readFile wishes) := by
  unfold main_
  have := cliLoop_meant h [] Opts.init
  rw [List.append_nil] at this
  rw [this, cliLoop]
  have htm : target ≠ [] := by
    have := meant_target h (t := target) (by obtain ⟨a, b, rfl, _⟩ := ht; simp)
    rintro rfl
    revert this
    decide
  simp only
  rw [if_neg (by rw [fold_target ht]; simpa using htm), fold_target ht, fold_dirs, fold_doc]
  congr 1
  · by_cases hd : Wish.noDocument ∈ wishes <;> simp [hd, Opts.init]
  · unfold inputsOf inputsFor
    rw [fold_files, fold_stdin]
    by_cases h1 : Wish.stdin ∈ wishes <;> by_cases h2 : filesOf wishes = [] <;> simp [h1, h2, Opts.init]

theorem args_split (isThere : Str → Bool) : ∀ args : List Str, (∃ ws, Pairs (Meant isThere) args ws) ∨
    ∃ pre a post ws n, args = pre ++ a :: post ∧ Pairs (Meant isThere) pre ws ∧ Stops isThere a n
  | [] => .inl ⟨[], .nil⟩
  | a :: args => by
    rcases meant_total isThere a with ⟨w, h⟩ | ⟨n, h⟩
    · rcases args_split isThere args with ⟨ws, hs⟩ | ⟨pre, b, post, ws, n, rfl, hs, hb⟩
      · exact .inl ⟨w :: ws, .cons h hs⟩
      · exact .inr ⟨a :: pre, b, post, w :: ws, n, rfl, .cons h hs, hb⟩
    · exact .inr ⟨[], a, args, [], n, rfl, .nil, h⟩

theorem includesOf_sorted (ds : List Str) :
    (includesOf (addDirs [] ds)).Pairwise (fun a b => pathCmp a b = .lt) ∧
    (∀ d ∈ includesOf (addDirs [] ds), d = str! "." ∨ d ∈ ds) ∧
    ∀ d, d = str! "." ∨ d ∈ ds → ∃ d' ∈ includesOf (addDirs [] ds), pathCmp d d' = .eq := by
  refine ⟨addDirs_sorted _ _ (by simp), fun d hd => ?_, fun d hd => ?_⟩
  · rcases addDirs_mem _ _ _ hd with h | h
    · exact Or.inl (by simpa using h)
    · rcases addDirs_mem _ _ _ h with h | h
      · cases h
      · exact Or.inr h
  · rcases hd with rfl | hd
    · exact ⟨str! ".", addDirs_keeps _ _ _ (by simp), by decide⟩
    · obtain ⟨d1, h1, e1⟩ := addDirs_has ds [] d hd
      obtain ⟨d2, h2, e2⟩ := addDirs_has (addDirs [] ds) [['.']] d1 h1
      refine ⟨d2, h2, ?_⟩
      unfold pathCmp at *
      rw [(compsCmp_eq _ _).1 e1]
      exact e2

theorem slashPieces_plain : ∀ (s acc : Str), '/' ∉ s → slashPieces acc s = [acc ++ s]
  | [], acc, _ => by simp [slashPieces]
  | c :: s, acc, h => by
    have hc : (c == '/') = false := by
      rw [beq_eq_false_iff_ne]
      rintro rfl
      exact h List.mem_cons_self
    rw [slashPieces, hc]
    show slashPieces (acc ++ [c]) s = _
    rw [slashPieces_plain s _ (fun hm => h (List.mem_cons_of_mem _ hm))]
    simp

theorem pathComps_plain {s : Str} (h : PlainName s) : pathComps s = [.normal s] := by
  obtain ⟨h1, h2, h3, h4⟩ := h
  unfold pathComps
  rw [slashPieces_plain s [] h2]
  simp only [List.nil_append]
  rw [if_neg (by simpa using h1), if_neg h1, if_neg h3]
  simp only [restComps]
  rw [if_neg (by simp [h1, h3]), if_neg h4]

theorem pathCmp_plain {a b : Str} (ha : PlainName a) (hb : PlainName b) : pathCmp a b = strCmp a b := by
  unfold pathCmp
  rw [pathComps_plain ha, pathComps_plain hb, compsCmp, PComp.cmp]
  rcases strCmp a b <;> rfl

theorem pathCmp_dot {a : Str} (ha : PlainName a) : pathCmp ['.'] a = .lt := by
  unfold pathCmp
  rw [pathComps_plain ha]
  rfl

theorem includesOf_names (ds : List Str) (h : ∀ d ∈ ds, PlainName d) :
    ∃ dirs, includesOf (addDirs [] ds) = str! "." :: dirs ∧
      dirs.Pairwise (fun a b => LexLe a b ∧ a ≠ b) ∧ ∀ d, d ∈ dirs ↔ d ∈ ds := by
  have hs := addDirs_sorted ds [] List.Pairwise.nil
  have hm : ∀ d, d ∈ addDirs [] ds ↔ d ∈ ds := by
    intro d
    constructor
    · intro hd
      rcases addDirs_mem ds [] d hd with h | h
      · cases h
      · exact h
    · intro hd
      obtain ⟨d', h1, h2⟩ := addDirs_has ds [] d hd
      have h3 : d' ∈ ds := by
        rcases addDirs_mem ds [] d' h1 with h | h
        · cases h
        · exact h
      rw [pathCmp_plain (h d hd) (h d' h3), strCmp_eq] at h2
      rw [h2]
      exact h1
  refine ⟨addDirs [] ds, ?_, ?_, hm⟩
  · apply addDirs_ascending (addDirs [] ds) [['.']]
    exact List.pairwise_cons.2 ⟨fun d hd => pathCmp_dot (h d ((hm d).1 hd)), hs⟩
  · refine List.Pairwise.imp_of_mem ?_ hs
    intro a b ma mb hab
    rw [pathCmp_plain (h a ((hm a).1 ma)) (h b ((hm b).1 mb))] at hab
    refine ⟨(lexLe_iff a b).2 (by rw [hab]; simp), ?_⟩
    rintro rfl
    rw [(strCmp_eq a a).2 rfl] at hab
    cases hab

/-! ## Printing -/

theorem generate_render (dbg : Str → Str) (target : Str) (doc : Bool) (tree : List PNode) :
    generate dbg target doc tree = render dbg target doc tree := by
  unfold generate
  split
  · next h => subst h; rfl
  · split
    · next h => subst h; rfl
    · split
      · next h => subst h; cases doc <;> rfl
      · split
        · next h => subst h; cases doc <;> rfl
        · split
          · next h => subst h; cases doc <;> rfl
          · next h1 h2 h3 h4 h5 =>
            unfold render
            split
            · exact absurd rfl h1
            · exact absurd rfl h2
            · exact absurd rfl h3
            · exact absurd rfl h3
            · exact absurd rfl h4
            · exact absurd rfl h4
            · exact absurd rfl h5
            · exact absurd rfl h5
            · rfl

theorem render_some (dbg : Str → Str) {target : Str} (ht : target ∈ supportedTargets) (doc : Bool) (tree : List PNode) :
    ∃ r, render dbg target doc tree = some r := by
  simp only [supportedTargets, List.mem_cons, List.not_mem_nil, or_false] at ht
  rcases ht with rfl | rfl | rfl | rfl | rfl <;> cases doc <;> exact ⟨_, rfl⟩

theorem expand_of_ge {ext : Ext} {order : Order} {f g : Nat} (h : f ≤ g) {path code : Str} {r : Res (List PNode)}
    (hr : r ≠ .diverge) (h1 : (expand ext order f path code).1 = r) : (expand ext order g path code).1 = r := by
  unfold expand at h1 ⊢
  cases hp : parse ext.unescape { path := path, id := 1, code := code } with
  | ok tree =>
    rw [hp] at h1
    show (expandNodes (run ext g) tree (St.init order)).1 = r
    rw [expandNodes_of_ge h (t := (expandNodes (run ext f) tree (St.init order)).2) hr (Prod.ext h1 rfl)]
  | _ => rw [hp] at h1; exact h1

theorem expandsTo_iff {ext : Ext} {order : Order} {path code : Str} {r : Res (List PNode)} :
    ExpandsTo ext order path code r ↔ r ≠ .diverge ∧ ∃ fuel, (expand ext order fuel path code).1 = r := by
  unfold ExpandsTo expand
  rcases parse ext.unescape { path := path, id := 1, code := code } with tree | e | _ | _
  · constructor
    · rintro (⟨tree', t, h, hr, f, hf⟩ | ⟨e, h, _⟩ | ⟨h, _⟩)
      · cases h
        exact ⟨hr, f, congrArg Prod.fst hf⟩
      · cases h
      · cases h
    · rintro ⟨hr, f, hf⟩
      exact Or.inl ⟨tree, _, rfl, hr, f, Prod.ext hf rfl⟩
  · constructor
    · rintro (⟨tree', t, h, _⟩ | ⟨e, h, rfl⟩ | ⟨h, _⟩)
      · cases h
      · cases h
        exact ⟨by simp, 0, rfl⟩
      · cases h
    · rintro ⟨_, _, rfl⟩
      exact Or.inr (Or.inl ⟨e, rfl, rfl⟩)
  · constructor
    · rintro (⟨tree', t, h, _⟩ | ⟨e, h, rfl⟩ | ⟨h, rfl⟩)
      · cases h
      · cases h
      · exact ⟨by simp, 0, rfl⟩
    · rintro ⟨_, _, rfl⟩
      exact Or.inr (Or.inr ⟨rfl, rfl⟩)
  · constructor
    · rintro (⟨tree', t, h, _⟩ | ⟨e, h, rfl⟩ | ⟨h, rfl⟩) <;> cases h
    · rintro ⟨h, _, rfl⟩
      exact absurd rfl h

theorem Spec.ExpandsTo.ev {ext : Ext} {order : Order} {path code : Str} {r : Res (List PNode)}
    (h : ExpandsTo ext order path code r) : Ev fun f => (expand ext order f path code).1 = r := by
  obtain ⟨hr, f, hf⟩ := expandsTo_iff.1 h
  exact ⟨f, fun g hg => expand_of_ge hg hr hf⟩

theorem Spec.ExpandsTo.unique {ext : Ext} {order : Order} {path code : Str} {r r' : Res (List PNode)}
    (h : ExpandsTo ext order path code r) (h' : ExpandsTo ext order path code r') : r = r' := by
  obtain ⟨f, h1, h2⟩ := (h.ev.and h'.ev).pick
  exact h1.symm.trans h2

/-- One step of processing that finishes. -/
theorem processAll_cons {ext : Ext} {order : Order} {dbg : Str → Str} {fuel : Nat} {target : Str} {doc : Bool}
    (ht : target ∈ supportedTargets) (i : Str × Option Str) (rest : List (Str × Option Str)) :
    (Fails ext order dbg target doc i ∧ processAll ext order dbg fuel target doc (i :: rest) = ([], .status 1)) ∨
    (Panics ext order dbg target doc i ∧ processAll ext order dbg fuel target doc (i :: rest) = ([], .panic)) ∨
    (processAll ext order dbg fuel target doc (i :: rest) = ([], .diverge)) ∨
    (∃ text, Prints ext order dbg target doc i text ∧ processAll ext order dbg fuel target doc (i :: rest) =
      (text ++ '\n' :: (processAll ext order dbg fuel target doc rest).1,
        (processAll ext order dbg fuel target doc rest).2)) := by
  obtain ⟨path, _ | code⟩ := i
  · exact Or.inl ⟨Or.inl rfl, rfl⟩
  · rw [processAll]
    unfold processOne
    rcases he : (expand ext order fuel path code).1 with tree | e | _ | _
    · have hE : ExpandsTo ext order path code (.ok tree) := expandsTo_iff.2 ⟨by simp, fuel, he⟩
      obtain ⟨r, hr⟩ := render_some dbg ht doc tree
      simp only
      rw [generate_render, hr]
      rcases r with text | e | _ | _
      · exact Or.inr (Or.inr (Or.inr ⟨text, ⟨code, tree, rfl, hE, hr⟩, by simp⟩))
      · exact Or.inl ⟨Or.inr ⟨code, rfl, Or.inr ⟨tree, e, hE, hr⟩⟩, rfl⟩
      · exact Or.inr (Or.inl ⟨⟨code, rfl, Or.inr ⟨tree, hE, hr⟩⟩, rfl⟩)
      · exact Or.inr (Or.inr (Or.inl rfl))
    · exact Or.inl ⟨Or.inr ⟨code, rfl, Or.inl ⟨e, expandsTo_iff.2 ⟨by simp, fuel, he⟩⟩⟩, rfl⟩
    · exact Or.inr (Or.inl ⟨⟨code, rfl, Or.inl (expandsTo_iff.2 ⟨by simp, fuel, he⟩)⟩, rfl⟩)
    · exact Or.inr (Or.inr (Or.inl rfl))

theorem processAll_prints {ext : Ext} {order : Order} {dbg : Str → Str} {target : Str} {doc : Bool}
    {inputs : List (Str × Option Str)} {texts : List Str} (h : Pairs (Prints ext order dbg target doc) inputs texts)
    (rest : List (Str × Option Str)) : Ev fun f => processAll ext order dbg f target doc (inputs ++ rest) =
      (lines texts ++ (processAll ext order dbg f target doc rest).1, (processAll ext order dbg f target doc rest).2) := by
  induction h with
  | nil => exact Ev.of fun f => rfl
  | @cons i text _ _ h1 _ ih =>
    obtain ⟨path, c⟩ := i
    obtain ⟨code, tree, hc, hE, hr⟩ := h1
    simp only at hc hE
    subst hc
    refine (hE.ev.and ih).mono fun f hf => ?_
    rw [List.cons_append, processAll]
    unfold processOne
    rw [hf.1]
    simp only
    rw [generate_render, hr, hf.2]
    simp [lines]

theorem processAll_fails {ext : Ext} {order : Order} {dbg : Str → Str} {target : Str} {doc : Bool}
    {i : Str × Option Str} (h : Fails ext order dbg target doc i) (rest : List (Str × Option Str)) :
    Ev fun f => processAll ext order dbg f target doc (i :: rest) = ([], .status 1) := by
  obtain ⟨path, c⟩ := i
  rcases h with h | ⟨code, h, h1⟩
  · simp only at h
    subst h
    exact Ev.of fun f => rfl
  · simp only at h h1
    subst h
    rcases h1 with ⟨e, hE⟩ | ⟨tree, e, hE, hr⟩
    · refine hE.ev.mono fun f hf => ?_
      rw [processAll]
      unfold processOne
      rw [hf]
    · refine hE.ev.mono fun f hf => ?_
      rw [processAll]
      unfold processOne
      rw [hf]
      simp only
      rw [generate_render, hr]

theorem processAll_panics {ext : Ext} {order : Order} {dbg : Str → Str} {target : Str} {doc : Bool}
    {i : Str × Option Str} (h : Panics ext order dbg target doc i) (rest : List (Str × Option Str)) :
    Ev fun f => processAll ext order dbg f target doc (i :: rest) = ([], .panic) := by
  obtain ⟨path, c⟩ := i
  obtain ⟨code, h, h1⟩ := h
  simp only at h h1
  subst h
  rcases h1 with hE | ⟨tree, hE, hr⟩
  · refine hE.ev.mono fun f hf => ?_
    rw [processAll]
    unfold processOne
    rw [hf]
  · refine hE.ev.mono fun f hf => ?_
    rw [processAll]
    unfold processOne
    rw [hf]
    simp only
    rw [generate_render, hr]

end Seam
