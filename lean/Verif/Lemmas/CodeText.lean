import Verif.Lemmas.Codes

/-! The document for a code. -/

namespace Seam
open Spec
open Turing.ToPartrec (Code)

/-! ## The text -/

/-- `(%match (%q (N)) ((&y)%x))`. -/
def codeStart (x : Char) (n : Nat) : PNode :=
  mat (use (partName []) (li [numNode n []] [' ']) [' ']) [clause patY (vr [x] [])] []

/-- The text before the argument. -/
def codeBefore (c : Code) : Str := sexpNodes id (codeDefs [] c) ++ str! "(%match (%q ("

/-- The text after the argument. -/
def codeAfter (x : Char) : Str := str! ")) ((&y)%" ++ x :: str! "))"

theorem code_text (c : Code) (x : Char) (n : Nat) : sexpNodes id (codeDefs [] c ++ [codeStart x n]) = codeBefore c ++ numeral n ++ codeAfter x := by
  rw [sexpNodes_app]
  simp [codeBefore, codeAfter, codeStart, mat, use, clause, patY, vr, partName, li, sy, sexpNode, sexpNodes, close, numNode_text]

/-! ## It can be read -/

theorem spaced_printables {u : Unescape} {dbg : Str → Str} {x : PNode} (hx : Printable u dbg x) : ∀ {ns : List PNode},
    (∀ n, n ∈ ns → Printable u dbg n ∧ n.lw = [' ']) → Printables u dbg (x :: ns)
  | [], _ => .one _ hx
  | n :: ns, h => .cons _ _ _ hx (spaced_apart _ _ (h n (by simp)).2) (spaced_printables (h n (by simp)).1 fun m hm => h m (by simp [hm]))

/-- Characters of names. -/
def Turns (place : Str) : Prop := ∀ c, c ∈ place → c = 'l' ∨ c = 'r'

theorem Turns.add {place : Str} (h : Turns place) {c : Char} (hc : c = 'l' ∨ c = 'r') : Turns (place ++ [c]) := by
  intro d hd
  rcases List.mem_append.1 hd with hd | hd
  · exact h d hd
  · simp at hd
    subst hd
    exact hc

theorem part_word {place : Str} (h : Turns place) : Word symbolStart (partName place) :=
  ⟨rfl, fun c hc => by
    rcases List.mem_cons.1 hc with e | e
    · subst e; rfl
    · rcases h c e with e | e <;> subst e <;> rfl⟩

theorem part_call_word {place : Str} (h : Turns place) : Word symbolStart ('%' :: partName place) :=
  ⟨rfl, fun c hc => by
    rcases List.mem_cons.1 hc with e | e
    · subst e; rfl
    · exact (part_word h).2 c e⟩

theorem sy_spaced {u : Unescape} {dbg : Str → Str} (t : Str) (h : t.all identChar = true) (h' : Starts symbolStart t) :
    Printable u dbg (sy t [' ']) ∧ (sy t [' ']).lw = [' '] := ⟨sy_printable _ _ _ _ blanks_one (word_of _ h h'), rfl⟩

theorem sy_bare {u : Unescape} {dbg : Str → Str} (t : Str) (h : t.all identChar = true) (h' : Starts symbolStart t) :
    Printable u dbg (sy t []) := sy_printable _ _ _ _ blanks_nil (word_of _ h h')

theorem li_spaced {u : Unescape} {dbg : Str → Str} {ns : List PNode} (h : Printables u dbg ns) :
    Printable u dbg (li ns [' ']) ∧ (li ns [' ']).lw = [' '] := ⟨li_printable _ _ _ _ blanks_one h, rfl⟩

theorem li_bare {u : Unescape} {dbg : Str → Str} {ns : List PNode} (h : Printables u dbg ns) : Printable u dbg (li ns []) :=
  li_printable _ _ _ _ blanks_nil h

theorem num_spaced {u : Unescape} {dbg : Str → Str} (n : Nat) : Printable u dbg (numNode n [' ']) ∧ (numNode n [' ']).lw = [' '] :=
  ⟨numNode_printable _ _ _ _ blanks_one, numNode_lw _ _⟩

theorem lst_prints {u : Unescape} {dbg : Str → Str} {x : PNode} {ns : List PNode} (hx : Printable u dbg x ∧ x.lw = [' '])
    (h : ∀ n, n ∈ ns → Printable u dbg n ∧ n.lw = [' ']) : Printable u dbg (lst x ns [' ']) ∧ (lst x ns [' ']).lw = [' '] :=
  li_spaced (spaced_printables (sy_bare (str! "%list") rfl rfl) fun n hn => by rcases List.mem_cons.1 hn with rfl | hn; exact hx; exact h n hn)

theorem mat_prints {u : Unescape} {dbg : Str → Str} {x : PNode} {ns : List PNode} (hx : Printable u dbg x ∧ x.lw = [' '])
    (h : ∀ n, n ∈ ns → Printable u dbg n ∧ n.lw = [' ']) (w : Str) (hw : Blanks w) : Printable u dbg (mat x ns w) ∧ (mat x ns w).lw = w :=
  ⟨li_printable _ _ _ _ hw (spaced_printables (sy_bare (str! "%match") rfl rfl) fun n hn => by rcases List.mem_cons.1 hn with rfl | hn; exact hx; exact h n hn), rfl⟩

theorem use_prints {u : Unescape} {dbg : Str → Str} {x : PNode} {place : Str} (hp : Turns place) (hx : Printable u dbg x ∧ x.lw = [' '])
    (w : Str) (hw : Blanks w) : Printable u dbg (use (partName place) x w) ∧ (use (partName place) x w).lw = w :=
  ⟨li_printable _ _ _ _ hw (printables_two (sy_printable _ _ _ _ blanks_nil (part_call_word hp)) hx.1 hx.2), rfl⟩

theorem clause_prints {u : Unescape} {dbg : Str → Str} {p b : PNode} (hp : Printable u dbg p) (hb : Printable u dbg b ∧ b.lw = [' ']) :
    Printable u dbg (clause p b) ∧ (clause p b).lw = [' '] := li_spaced (printables_two hp hb.1 hb.2)

theorem patNil_prints {u : Unescape} {dbg : Str → Str} : Printable u dbg patNil := li_bare .nil
theorem patY_prints {u : Unescape} {dbg : Str → Str} : Printable u dbg patY := li_bare (.one _ (sy_bare _ rfl rfl))
theorem patXY_prints {u : Unescape} {dbg : Str → Str} : Printable u dbg patXY :=
  li_bare (printables_two (sy_bare _ rfl rfl) (sy_spaced (str! "&y") rfl rfl).1 rfl)
theorem patZeroY_prints {u : Unescape} {dbg : Str → Str} : Printable u dbg patZeroY :=
  li_bare (printables_two (li_bare .nil) (sy_spaced (str! "&y") rfl rfl).1 rfl)
theorem patSuccY_prints {u : Unescape} {dbg : Str → Str} : Printable u dbg patSuccY :=
  li_bare (printables_two (li_bare (.one _ (sy_bare _ rfl rfl))) (sy_spaced (str! "&y") rfl rfl).1 rfl)

theorem all_one {P : PNode → Prop} {a : PNode} (h : P a) : ∀ n, n ∈ [a] → P n := by simpa using h
theorem all_two {P : PNode → Prop} {a b : PNode} (h : P a) (h' : P b) : ∀ n, n ∈ [a, b] → P n := by simpa using ⟨h, h'⟩
theorem all_three {P : PNode → Prop} {a b c : PNode} (h : P a) (h' : P b) (h'' : P c) : ∀ n, n ∈ [a, b, c] → P n := by simpa using ⟨h, h', h''⟩
theorem all_none {P : PNode → Prop} : ∀ n, n ∈ ([] : List PNode) → P n := by simp

theorem codeBody_prints {u : Unescape} {dbg : Str → Str} {place : Str} (hp : Turns place) (c : Code) : Printable u dbg (codeBody place c) := by
  have hl := hp.add (c := 'l') (.inl rfl)
  have hr := hp.add (c := 'r') (.inr rfl)
  have v : Printable u dbg (vr (str! "v") [' ']) ∧ (vr (str! "v") [' ']).lw = [' '] := sy_spaced _ rfl rfl
  have x : Printable u dbg (vr (str! "x") [' ']) ∧ (vr (str! "x") [' ']).lw = [' '] := sy_spaced _ rfl rfl
  have y : Printable u dbg (vr (str! "y") [' ']) ∧ (vr (str! "y") [' ']).lw = [' '] := sy_spaced _ rfl rfl
  have p : Printable u dbg (vr (str! "p") [' ']) ∧ (vr (str! "p") [' ']).lw = [' '] := sy_spaced _ rfl rfl
  have nl : Printable u dbg (li [] [' ']) ∧ (li [] [' ']).lw = [' '] := li_spaced .nil
  have lv := use_prints (u := u) (dbg := dbg) hl v _ blanks_one
  have rv := use_prints (u := u) (dbg := dbg) hr v _ blanks_one
  cases c with
  | zero' => exact (mat_prints v (all_one (clause_prints patY_prints (lst_prints (num_spaced 0) (all_one y)))) _ blanks_nil).1
  | succ => exact (mat_prints v (all_two (clause_prints patNil_prints (lst_prints (num_spaced 1) all_none))
      (clause_prints patXY_prints (lst_prints (lst_prints x all_none) all_none))) _ blanks_nil).1
  | tail => exact (mat_prints v (all_two (clause_prints patNil_prints nl) (clause_prints patXY_prints (lst_prints y all_none))) _ blanks_nil).1
  | cons f g => exact (mat_prints lv (all_two
      (clause_prints patNil_prints (mat_prints rv (all_one (clause_prints patY_prints (lst_prints (num_spaced 0) (all_one y)))) _ blanks_one))
      (clause_prints patXY_prints (mat_prints rv (all_one (clause_prints patY_prints (lst_prints x (all_one y)))) _ blanks_one))) _ blanks_nil).1
  | comp f g => exact (use_prints hl rv _ blanks_nil).1
  | case f g => exact (mat_prints v (all_three (clause_prints patNil_prints (use_prints hl nl _ blanks_one))
      (clause_prints patZeroY_prints (use_prints hl (lst_prints y all_none) _ blanks_one))
      (clause_prints patSuccY_prints (use_prints hr (lst_prints p (all_one y)) _ blanks_one))) _ blanks_nil).1
  | fix f => exact (mat_prints lv (all_three (clause_prints patNil_prints nl) (clause_prints patZeroY_prints (lst_prints y all_none))
      (clause_prints patSuccY_prints (use_prints hp (lst_prints y all_none) _ blanks_one))) _ blanks_nil).1

theorem codeBody_list (place : Str) (c : Code) : ∃ ns, codeBody place c = li ns [] := by
  cases c <;> exact ⟨_, rfl⟩

theorem codeDef_prints {u : Unescape} {dbg : Str → Str} {place : Str} (hp : Turns place) (c : Code) : Printable u dbg (codeDef place c) := by
  refine li_bare (.cons _ _ _ (sy_bare _ rfl rfl) (spaced_apart _ _ rfl) (.cons _ _ _
    (li_spaced (printables_two (sy_printable _ _ _ _ blanks_nil (part_word hp)) (sy_spaced (str! "v") rfl rfl).1 rfl)).1 ?_ (.one _ (codeBody_prints hp c))))
  obtain ⟨ns, h⟩ := codeBody_list place c
  exact lists_apart _ _ _ _ _ h

/-- Lists that are written one after the other. -/
def BareList (u : Unescape) (dbg : Str → Str) (n : PNode) : Prop := Printable u dbg n ∧ ∃ ns, n = li ns []

theorem bare_printables {u : Unescape} {dbg : Str → Str} : ∀ {ns : List PNode}, (∀ n, n ∈ ns → BareList u dbg n) → Printables u dbg ns
  | [], _ => .nil
  | [n], h => .one _ (h n (by simp)).1
  | n :: m :: ns, h => .cons _ _ _ (h n (by simp)).1 (by
      obtain ⟨-, as, rfl⟩ := h n (by simp)
      obtain ⟨-, bs, e⟩ := h m (by simp)
      exact lists_apart _ _ _ _ _ e) (bare_printables fun k hk => h k (List.mem_cons_of_mem _ hk))

theorem codeDefs_bare {u : Unescape} {dbg : Str → Str} : ∀ {place : Str} (c : Code), Turns place → ∀ n, n ∈ codeDefs place c → BareList u dbg n := by
  have one : ∀ {place : Str} (c : Code), Turns place → BareList u dbg (codeDef place c) := fun c hp => ⟨codeDef_prints hp c, _, rfl⟩
  intro place c
  induction c generalizing place with
  | zero' => intro hp n hn; simp [codeDefs] at hn; subst hn; exact one _ hp
  | succ => intro hp n hn; simp [codeDefs] at hn; subst hn; exact one _ hp
  | tail => intro hp n hn; simp [codeDefs] at hn; subst hn; exact one _ hp
  | cons f g hf hg =>
    intro hp n hn
    simp only [codeDefs, List.mem_append, List.mem_singleton] at hn
    rcases hn with (hn | hn) | hn
    · exact hf (hp.add (.inl rfl)) n hn
    · exact hg (hp.add (.inr rfl)) n hn
    · subst hn; exact one _ hp
  | comp f g hf hg =>
    intro hp n hn
    simp only [codeDefs, List.mem_append, List.mem_singleton] at hn
    rcases hn with (hn | hn) | hn
    · exact hf (hp.add (.inl rfl)) n hn
    · exact hg (hp.add (.inr rfl)) n hn
    · subst hn; exact one _ hp
  | case f g hf hg =>
    intro hp n hn
    simp only [codeDefs, List.mem_append, List.mem_singleton] at hn
    rcases hn with (hn | hn) | hn
    · exact hf (hp.add (.inl rfl)) n hn
    · exact hg (hp.add (.inr rfl)) n hn
    · subst hn; exact one _ hp
  | fix f hf =>
    intro hp n hn
    simp only [codeDefs, List.mem_append, List.mem_singleton] at hn
    rcases hn with hn | hn
    · exact hf (hp.add (.inl rfl)) n hn
    · subst hn; exact one _ hp

theorem codeStart_prints {u : Unescape} {dbg : Str → Str} {x : Char} (hx : identChar x = true) (n : Nat) : Printable u dbg (codeStart x n) := by
  have hp : Turns [] := fun c hc => by cases hc
  refine (mat_prints (use_prints hp (li_spaced (.one _ (numNode_printable _ _ _ _ blanks_nil))) _ blanks_one) (all_one ?_) _ blanks_nil).1
  refine li_spaced (.cons _ _ _ patY_prints ?_ (.one _ (sy_bare _ (by simp [hx]; rfl) rfl)))
  intro _
  exact ⟨by simp [patY, li, endsInWord], by simp [patY, li, endsInEmptyString]⟩

theorem code_printables (u : Unescape) (dbg : Str → Str) (c : Code) {x : Char} (hx : identChar x = true) (n : Nat) :
    Printables u dbg (codeDefs [] c ++ [codeStart x n]) :=
  bare_printables fun m hm => by
    rcases List.mem_append.1 hm with hm | hm
    · exact codeDefs_bare c (fun c hc => by cases hc) m hm
    · simp at hm
      subst hm
      exact ⟨codeStart_prints hx n, _, rfl⟩

/-! ## It can be evaluated -/

/-- Only macros for these parts are changed. -/
def Only (place : Str) (sc sc' : Scope) : Prop := ∀ x, (∀ p, place <+: p → x ≠ partName p) → sc' x = sc x

theorem Only.part {place : Str} {sc sc' : Scope} (h : Only place sc sc') (p : Str) (hp : ¬ place <+: p) : sc' (partName p) = sc (partName p) :=
  h _ fun q hq e => hp (by
    have : p = q := by simpa [partName] using e
    rw [this]
    exact hq)

theorem codeDef_evals (ext : Ext) {place : Str} {c : Code} {n : PNode} (h : SameNode (codeDef place c) n) (s : St) :
    ∃ t, Evals ext [n] s (.ok []) t ∧ HasOne t.scope place c ∧ ∀ x, x ≠ partName place → t.scope x = s.scope x := by
  obtain ⟨ms, si, e, rfl, hm⟩ := same_list h
  match ms, hm with
  | [.symbol a, hd, b], hm =>
    obtain ⟨⟨ha, -⟩, hh, hb, -⟩ := hm
    obtain ⟨ms, s1, e1, rfl, hm⟩ := same_list hh
    match ms, hm with
    | [.symbol f, .symbol x], hm =>
      obtain ⟨⟨hf, -⟩, hx, -⟩ := hm
      have hcall : IsCall (str! "define") [.list (.symbol f :: [.symbol x]) s1 e1 [], b]
          (.list [.symbol a, .list [.symbol f, .symbol x] s1 e1 [' '], b] si e []) := .mk a _ _ _ _ ha.symm rfl
      have hd : (createMacro f.value [.symbol x] [b] >>= fun _ => (pure [] : M (List PNode))) s =
          (.ok [], { s with scope := s.scope.insert (partName place) { params := [.symbol x], body := [b] } }) := by
        rw [← hf]
        have hx' : x = ⟨str! "v", x.site, x.lw⟩ := by
          have : x.value = str! "v" := hx.1.symm
          rw [← this]
        rw [hx']
        rfl
      refine ⟨_, (evals_define_function (ext := ext) hcall).2 ⟨by simp, hd⟩, ⟨{ params := [.symbol x], body := [b] }, by simp [Scope.insert], ⟨hx, trivial⟩, hb, trivial⟩,
        fun p hp => ?_⟩
      simp [Scope.insert, hp]

theorem part_ne {p q : Str} (h : p ≠ q) : partName p ≠ partName q := by simpa [partName] using h

theorem append_ne {place : Str} {c : Char} : ¬ place ++ [c] <+: place := fun h => by
  have := h.length_le
  simp at this

theorem apart_turns {place p : Str} (h : place ++ ['r'] <+: p) : ¬ place ++ ['l'] <+: p := by
  rintro ⟨t, rfl⟩
  obtain ⟨u, hu⟩ := h
  simp at hu

theorem two_evals (ext : Ext) {place : Str} {c f g : Code} {ns : List PNode}
    (hf : ∀ ns, SameNodes (codeDefs (place ++ ['l']) f) ns → ∀ s : St, ∃ t, Evals ext ns s (.ok []) t ∧ Has t.scope (place ++ ['l']) f ∧
      Only (place ++ ['l']) s.scope t.scope)
    (hg : ∀ ns, SameNodes (codeDefs (place ++ ['r']) g) ns → ∀ s : St, ∃ t, Evals ext ns s (.ok []) t ∧ Has t.scope (place ++ ['r']) g ∧
      Only (place ++ ['r']) s.scope t.scope)
    (h : SameNodes (codeDefs (place ++ ['l']) f ++ codeDefs (place ++ ['r']) g ++ [codeDef place c]) ns) (s : St) :
    ∃ t, Evals ext ns s (.ok []) t ∧ (HasOne t.scope place c ∧ Has t.scope (place ++ ['l']) f ∧ Has t.scope (place ++ ['r']) g) ∧
      Only place s.scope t.scope := by
  obtain ⟨as, bs, rfl, h1, h2⟩ := sameNodes_split _ _ _ h
  obtain ⟨as, cs, rfl, h1, h3⟩ := sameNodes_split _ _ _ h1
  obtain ⟨b, rfl, hb⟩ := same_one h2
  obtain ⟨t1, e1, e2, e3⟩ := hf as h1 s
  obtain ⟨t2, e4, e5, e6⟩ := hg cs h3 t1
  obtain ⟨t3, e7, e8, e9⟩ := codeDef_evals ext hb t2
  refine ⟨t3, (e1.append e4).append e7, ⟨e8, e2.congr fun p hp => ?_, e5.congr fun p hp => ?_⟩, fun p hp => ?_⟩
  · rw [e9 _ (part_ne (by rintro rfl; exact append_ne hp)), e6.part p fun h' => apart_turns h' hp]
  · rw [e9 _ (part_ne (by rintro rfl; exact append_ne hp))]
  · rw [e9 p (hp _ List.prefix_rfl), e6 p fun q h' => hp q (below_prefix h'), e3 p fun q h' => hp q (below_prefix h')]

theorem codeDefs_evals (ext : Ext) : ∀ (c : Code) (place : Str) (ns : List PNode), SameNodes (codeDefs place c) ns → ∀ s : St,
    ∃ t, Evals ext ns s (.ok []) t ∧ Has t.scope place c ∧ Only place s.scope t.scope := by
  have leaf : ∀ (c : Code) (place : Str) (ns : List PNode), SameNodes [codeDef place c] ns → ∀ s : St,
      ∃ t, Evals ext ns s (.ok []) t ∧ HasOne t.scope place c ∧ Only place s.scope t.scope := by
    intro c place ns h s
    obtain ⟨n, rfl, hn⟩ := same_one h
    obtain ⟨t, h1, h2, h3⟩ := codeDef_evals ext hn s
    exact ⟨t, h1, h2, fun p hp => h3 p (hp _ List.prefix_rfl)⟩
  intro c
  induction c with
  | zero' => exact leaf _
  | succ => exact leaf _
  | tail => exact leaf _
  | cons f g hf hg => exact fun place ns h s => two_evals ext (hf _) (hg _) h s
  | comp f g hf hg => exact fun place ns h s => two_evals ext (hf _) (hg _) h s
  | case f g hf hg => exact fun place ns h s => two_evals ext (hf _) (hg _) h s
  | fix f hf =>
    intro place ns h s
    obtain ⟨as, bs, rfl, h1, h2⟩ := sameNodes_split _ _ _ h
    obtain ⟨b, rfl, hb⟩ := same_one h2
    obtain ⟨t1, e1, e2, e3⟩ := hf _ as h1 s
    obtain ⟨t3, e7, e8, e9⟩ := codeDef_evals ext hb t1
    refine ⟨t3, e1.append e7, ⟨e8, e2.congr fun p hp => ?_⟩, fun p hp => ?_⟩
    · rw [e9 _ (part_ne (by rintro rfl; exact append_ne hp))]
    · rw [e9 p (hp _ List.prefix_rfl), e3 p fun q h' => hp q (below_prefix h')]

/-- What is evaluated before the function is computed. -/
theorem code_begins (ext : Ext) (order : Order) (path : Str) (c : Code) {x : Char} (hx : identChar x = true) (n : Nat) :
    ∃ tree call e cls s, parse ext.unescape { path := path, id := 1, code := codeBefore c ++ numeral n ++ codeAfter x } = .ok tree ∧
      (∀ r t, Evals ext tree { scope := Scope.empty, fresh := 2, log := [], hashes := 0, order := order } r t ↔ Evals ext [call] s r t) ∧
      IsCall (str! "match") (e :: cls) call ∧ SameNodes [clause patY (vr [x] [])] cls ∧ Comes ext e s (c.eval [n]) ∧
      (∀ y, y ≠ 'q' → s.scope [y] = none) := by
  obtain ⟨tree, h1, h2⟩ := C14_sexp_reads_back ext.unescape id _ (code_printables ext.unescape id c hx n) path 1
  rw [code_text] at h1
  obtain ⟨ds, cs, rfl, hd, hc⟩ := sameNodes_split _ _ _ h2
  obtain ⟨call, rfl, hcall⟩ := same_one hc
  obtain ⟨s, e1, e2, e3⟩ := codeDefs_evals ext c [] ds hd { scope := Scope.empty, fresh := 2, log := [], hashes := 0, order := order }
  obtain ⟨e, cls, hm, he, hcs⟩ := mat_same hcall rfl
  refine ⟨_, call, e, cls, s, h1, fun r t => ⟨fun h => ?_, fun h => ?_⟩, hm, hcs, ?_, fun y hy => ?_⟩
  · rcases h.append_inv with ⟨as, t', r', h3, h4, rfl⟩ | ⟨h3, h4⟩
    · obtain ⟨h5, rfl⟩ := e1.unique h3
      cases h5
      have : addBefore [] r' = r' := by cases r' <;> rfl
      rw [this]
      exact h4
    · exact absurd (h3.unique e1).1 (h4 _)
  · have := e1.before h
    have e : addBefore [] r = r := by cases r <;> rfl
    rw [e] at this
    exact this
  · refine (computes ext c).use (w := []) e2 he rfl fun a ha => ?_
    obtain ⟨ms, si, e, rfl, h⟩ := same_list (ns := [numNode n []]) (w := []) ha
    obtain ⟨x, rfl, hx⟩ := same_one h
    have hx := numNode_same _ _ _ hx
    exact ⟨_, macroFree_evals ext _ (.list _ _ _ _ (.cons _ _ hx.free .nil)) s, _, _, _, _, rfl, .cons hx .nil⟩
  · rw [e3 [y] fun p _ => by simp only [partName, ne_eq, List.cons.injEq, not_and]; intro e; exact absurd e hy]
    rfl

theorem match_ends {ext : Ext} {call e : PNode} {cls : List PNode} {s t : St} {r : Res (List PNode)} {P : Part (List Nat)}
    (hm : IsCall (str! "match") (e :: cls) call) (hg : Comes ext e s P) (h : Evals ext [call] s r t) : P.Dom := by
  obtain ⟨hr, g, hg'⟩ := results_evals.2 ⟨t, h⟩
  obtain ⟨k, -, hk⟩ := match_needs hm (g := g) (by rw [hg']; exact hr)
  exact hg.ends k hk

/-- What the document for a code comes to. -/
theorem code_runs (ext : Ext) (order : Order) (path : Str) (c : Code) (n : Nat) :
    ∃ tree, parse ext.unescape { path := path, id := 1, code := codeBefore c ++ numeral n ++ codeAfter 'y' } = .ok tree ∧
      (∀ r t, Evals ext tree { scope := Scope.empty, fresh := 2, log := [], hashes := 0, order := order } r t → (c.eval [n]).Dom) ∧
      ∀ m, [m] ∈ c.eval [n] → ∃ o t, Num m o ∧ o.lw = [] ∧
        Evals ext tree { scope := Scope.empty, fresh := 2, log := [], hashes := 0, order := order } (.ok [o]) t := by
  obtain ⟨tree, call, e, cls, s, hp, hev, hm, hcs, hg, -⟩ := code_begins ext order path c (x := 'y') rfl n
  refine ⟨tree, hp, fun r t h => match_ends hm hg ((hev r t).1 h), fun m hv => ?_⟩
  obtain ⟨o, h3, h4⟩ := hg.value _ hv
  obtain ⟨b, xs, h5, h6, h7⟩ := clauses_any ext hcs h4 s
  cases h6 with
  | @cons _ x _ xs hx hxs =>
    cases hxs
    obtain ⟨a, rfl, ha, hw⟩ := same_sy h5
    have h8 : Evals ext [.symbol a] (put s (str! "y") [x]) (.ok [x.setLw a.lw]) (put s (str! "y") [x]) :=
      evals_var (name := str! "y") ha (put_same _ _ _) (hx.evals ext _)
    have h9 := (tail_match hm h3 h7).evals h8
    have h10 : Evals ext [call] s (.ok [x.setLw a.lw]) s := h9
    refine ⟨_, s, hx.setLw _, ?_, (hev _ _).2 h10⟩
    rw [setLw_lw, hw]

/-- The document in which the value is not used, but a variable that there is not. -/
theorem code_fails (ext : Ext) (order : Order) (path : Str) (c : Code) (n : Nat) :
    ∃ tree, parse ext.unescape { path := path, id := 1, code := codeBefore c ++ numeral n ++ codeAfter 'z' } = .ok tree ∧
      (∀ r t, Evals ext tree { scope := Scope.empty, fresh := 2, log := [], hashes := 0, order := order } r t → (c.eval [n]).Dom) ∧
      ((c.eval [n]).Dom → ∃ e t, Evals ext tree { scope := Scope.empty, fresh := 2, log := [], hashes := 0, order := order } (.err e) t) := by
  obtain ⟨tree, call, e, cls, s, hp, hev, hm, hcs, hg, hz⟩ := code_begins ext order path c (x := 'z') rfl n
  refine ⟨tree, hp, fun r t h => match_ends hm hg ((hev r t).1 h), fun hd => ?_⟩
  obtain ⟨v, hv⟩ := Part.dom_iff_mem.1 hd
  obtain ⟨o, h3, h4⟩ := hg.value _ hv
  obtain ⟨b, xs, h5, h6, h7⟩ := clauses_any ext hcs h4 s
  obtain ⟨a, rfl, ha, hw⟩ := same_sy h5
  have hn : (put s (str! "y") xs).scope (str! "z") = none := by rw [put_var _ (by decide)]; exact hz _ (by decide)
  obtain ⟨x, t, h8⟩ : ∃ x t, Evals ext [.symbol a] (put s (str! "y") xs) (.err x) t := by
    obtain ⟨x, hx⟩ : ∃ x, ∀ f, expandNode (run ext f) (.symbol a) (put s (str! "y") xs) = (.err x, put s (str! "y") xs) := by
      have key : ∀ f, expandNode (run ext f) (.symbol a) (put s (str! "y") xs) =
          (M.fail "No such macro." a.site : M (List PNode)) (put s (str! "y") xs) := by
        intro f
        simp only [expandNode, ha, macroName?, expandVariable]
        rw [M.bind_ok (M.lookup_def _ _), hn]
      exact ⟨_, key⟩
    exact ⟨x, _, evals_node (by simp) (Ev.of hx)⟩
  exact ⟨x, _, (hev _ _).2 ((tail_match hm h3 h7).evals h8)⟩

end Seam
