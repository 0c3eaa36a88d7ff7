import Verif.Lemmas.Sound
import Verif.Lemmas.Reader
import Verif.Lemmas.Lists

/-! # The expander is as the program logic wants it -/

namespace Seam
open Spec

section
variable {S : Region} {strict : Prop}

/-! ## Arguments -/

theorem check_err_site : ∀ (t : ArgType) (n : PNode), Good S n → ROk S strict (fun _ => True) (t.check n) := by
  have hall : ∀ (ps : List ArgPred) (n : PNode), Good S n → ROk S strict (fun _ => True) (checkAll ps n) := by
    intro ps n h
    unfold checkAll
    split
    · trivial
    · split
      · trivial
      · exact h.site
  intro t n
  induction n using PNode.rec (motive_2 := fun ns => ∀ t, Goods S ns → ROk S strict (fun _ => True) (ArgType.checkZip t ns))
    generalizing t with
  | symbol a => intro h; cases t <;> simp only [ArgType.check] <;> first | exact hall _ _ h | exact h.site
  | number a => intro h; cases t <;> simp only [ArgType.check] <;> first | exact hall _ _ h | exact h.site
  | string a => intro h; cases t <;> simp only [ArgType.check] <;> first | exact hall _ _ h | exact h.site
  | raw a => intro h; cases t <;> simp only [ArgType.check] <;> first | exact hall _ _ h | exact h.site
  | list ns s e w ih =>
    intro h
    cases t with
    | list ts =>
      simp only [ArgType.check]
      split
      · exact h.site
      · exact ih ts h.kids
    | any p => simp only [ArgType.check]; exact hall _ _ h
    | _ => exact h.site
  | attr k n s w ih =>
    intro h
    cases t with
    | any p => simp only [ArgType.check]; exact hall _ _ h
    | _ => exact h.site
  | nil => rename_i t _; cases t <;> exact trivial
  | cons n ns ih1 ih2 =>
    rename_i t h
    cases t with
    | nil => exact trivial
    | cons t ts =>
      simp only [ArgType.checkZip]
      exact (ih1 t h.head).bind fun _ _ => ih2 ts h.tail

/-- What is known of parsed arguments. -/
structure ArgsOk (S : Region) (patterns : List ArgRule) (tr : Option ArgType) (p : ArgParser) : Prop where
  pos : ∀ i n, (i, n) ∈ p.positional → Good S n ∧
    ∃ r, patterns.find? (fun r => r.pattern (.int i)) = some r ∧ r.type.check n = .ok ()
  named : ∀ k n, (k, n) ∈ p.named → Good S n ∧
    ∃ r, patterns.find? (fun r => r.pattern (.str k)) = some r ∧ r.type.check n = .ok ()
  trailing : ∀ n ∈ p.trailing, Good S n ∧ ∃ t, tr = some t ∧ t.check n = .ok ()

theorem amInsert_cases {α β : Type} [BEq α] {k : α} {v : β} {p : α × β} : ∀ {m : List (α × β)}, p ∈ amInsert k v m →
    p = (k, v) ∨ p ∈ m
  | [], h => by simp [amInsert] at h; exact Or.inl h
  | (k', v') :: m, h => by
    simp only [amInsert] at h
    split at h
    · rcases List.mem_cons.1 h with h | h
      · exact Or.inl h
      · exact Or.inr (by simp [h])
    · rcases List.mem_cons.1 h with h | h
      · exact Or.inr (by simp [h])
      · rcases amInsert_cases h with h | h
        · exact Or.inl h
        · exact Or.inr (by simp [h])

theorem argTrailing_snd {patterns : List ArgRule} {tr : Option ArgType} {st : ArgLoop} {v : PNode}
    (h : ArgsOk S patterns tr st.parser) (hv : Good S v) (pos : Nat) (t : ArgType) (ht : tr = some t) :
    ROk S strict (fun st => ArgsOk S patterns tr st.parser) (do
      let _ ← t.check v
      .ok { st with position := pos, parser := { st.parser with trailing := st.parser.trailing ++ [v] } }) := by
  rcases hc : t.check v with _ | e | _ | _
  · refine ⟨h.pos, h.named, ?_⟩
    intro n hn
    rcases List.mem_append.1 hn with hn | hn
    · exact h.trailing n hn
    · simp only [List.mem_singleton] at hn
      subst hn
      exact ⟨hv, t, ht, hc⟩
  all_goals
    have := check_err_site (strict := strict) t v hv
    rw [hc] at this
    exact this

theorem argStep_snd {patterns : List ArgRule} {tr : Option ArgType} {st : ArgLoop} {v : PNode}
    (h : ArgsOk S patterns tr st.parser) (hv : Good S v) :
    ROk S strict (fun st => ArgsOk S patterns tr st.parser) (argStep { patterns := patterns, trailing := tr } st v) := by
  cases v with
  | attr k n s w =>
    unfold argStep
    rcases hf : patterns.find? (fun r => r.pattern (.str k)) with _ | rule
    · simp only [hf]
      cases tr with
      | none => exact hv.site
      | some t => exact argTrailing_snd h hv _ t rfl
    · simp only [hf]
      rcases hc : rule.type.check n with _ | e | _ | _
      · refine ⟨h.pos, ?_, h.trailing⟩
        intro k' n' hn
        rcases amInsert_cases hn with hn | hn
        · simp only [Prod.mk.injEq] at hn
          obtain ⟨rfl, rfl⟩ := hn
          exact ⟨hv.value, rule, hf, hc⟩
        · exact h.named _ _ hn
      all_goals
        have := check_err_site (strict := strict) rule.type n hv.value
        rw [hc] at this
        exact this
  | _ =>
    unfold argStep
    rcases hf : patterns.find? (fun r => r.pattern (.int (st.position + 1))) with _ | rule
    · simp only [hf]
      cases tr with
      | none => exact hv.site
      | some t => exact argTrailing_snd h hv _ t rfl
    · simp only [hf]
      rcases hc : rule.type.check _ with _ | e | _ | _
      · refine ⟨?_, h.named, h.trailing⟩
        intro i n hn
        rcases amInsert_cases hn with hn | hn
        · simp only [Prod.mk.injEq] at hn
          obtain ⟨rfl, rfl⟩ := hn
          exact ⟨hv, rule, hf, hc⟩
        · exact h.pos i n hn
      all_goals
        have := check_err_site (strict := strict) rule.type _ hv
        rw [hc] at this
        exact this

theorem argLoop_snd {patterns : List ArgRule} {tr : Option ArgType} : ∀ {vs : List PNode} {st : ArgLoop},
    ArgsOk S patterns tr st.parser → Goods S vs →
    ROk S strict (fun st => ArgsOk S patterns tr st.parser) (argLoop { patterns := patterns, trailing := tr } st vs)
  | [], _, h, _ => h
  | _ :: _, _, h, hv => (argStep_snd h hv.head).bind fun _ h' => argLoop_snd h' hv.tail

theorem arguments_snd {patterns : List ArgRule} {tr : Option ArgType} {call : PNode} {vs : List PNode}
    (hc : Good S call) (hv : Goods S vs) : Snd S strict (ArgsOk S patterns tr) (arguments patterns tr call vs) := by
  refine Snd.lift (ROk.bind (argLoop_snd ⟨?_, ?_, ?_⟩ hv) fun st h => ?_)
  · intro _ _ h; simp at h
  · intro _ _ h; simp at h
  · intro _ h; simp at h
  · split
    · rcases hl : vs.getLast? with _ | n
      · exact hc.site
      · exact (hv n (List.mem_of_getLast? hl)).site
    · exact h

theorem amGet_mem_nat {β : Type} {k : Nat} {v : β} : ∀ {m : List (Nat × β)}, amGet k m = some v → (k, v) ∈ m
  | [], h => by simp [amGet] at h
  | (k₀, v₀) :: m, h => by
    simp only [amGet, beq_iff_eq] at h
    split at h
    · rename_i hk
      simp only [Option.some.injEq] at h
      simp [hk, h]
    · exact List.mem_cons_of_mem _ (amGet_mem_nat h)

theorem pos_snd {patterns : List ArgRule} {tr : Option ArgType} {call : PNode} {p : ArgParser} (h : ArgsOk S patterns tr p)
    (hc : Good S call) (i : Nat) : ROk S strict (fun n => Good S n ∧ ∃ r, patterns.find? (fun r => r.pattern (.int i)) = some r ∧
      r.type.check n = .ok ()) (p.pos call i) := by
  unfold ArgParser.pos
  rcases hg : amGet i p.positional with _ | n
  · exact hc.site
  · exact h.pos i n (amGet_mem_nat hg)

/-- The declared type at a place is one of those wanted. -/
def declared (q : ArgType → Bool) (patterns : List ArgRule) (pos : ArgPos) : Bool :=
  (patterns.find? (fun r => r.pattern pos)).all fun r => q r.type

theorem declared_type {q : ArgType → Bool} {patterns : List ArgRule} {pos : ArgPos} (h : declared q patterns pos = true)
    {r : ArgRule} (hr : patterns.find? (fun r => r.pattern pos) = some r) : q r.type = true := by
  unfold declared at h
  rw [hr] at h
  exact h

theorem atom_snd {t : ArgType} {n : PNode} (hn : Good S n) (ht : isAtomType t = true) (hc : t.check n = .ok ()) :
    ∃ a, toNode n = .ok a ∧ S a.site ∧ n.atomic? = some a := by
  obtain ⟨a, ha⟩ := atomType_literal ht ((check_iff t n).1 hc)
  exact ⟨a, toNode_literal ha, hn.atomic (literal_atomic ha), literal_atomic ha⟩

theorem posNode_snd {patterns : List ArgRule} {tr : Option ArgType} {call : PNode} {p : ArgParser} (h : ArgsOk S patterns tr p)
    (hc : Good S call) (i : Nat) (hd : declared isAtomType patterns (.int i) = true) :
    ROk S strict (fun a => S a.site) (p.posNode call i) := by
  refine (pos_snd h hc i).bind fun n hn => ?_
  obtain ⟨hn, r, hr, hk⟩ := hn
  obtain ⟨a, h1, h2, _⟩ := atom_snd hn (declared_type hd hr) hk
  rw [h1]
  exact h2

/-- The type of symbols. -/
def isSymbolType : ArgType → Bool
  | .symbol _ => true
  | _ => false

theorem posSymbol_snd {patterns : List ArgRule} {tr : Option ArgType} {call : PNode} {p : ArgParser} (h : ArgsOk S patterns tr p)
    (hc : Good S call) (i : Nat) (hd : declared isSymbolType patterns (.int i) = true) :
    ROk S strict (fun a => S.mark (.name a.value)) (p.posNode call i) := by
  refine (pos_snd h hc i).bind fun n hn => ?_
  obtain ⟨hn, r, hr, hk⟩ := hn
  have hd := declared_type hd hr
  have hk := (check_iff _ _).1 hk
  generalize r.type = t at hd hk
  cases hk with
  | symbol ps a _ => exact hn.name
  | _ => cases hd

theorem posList_snd {patterns : List ArgRule} {tr : Option ArgType} {call : PNode} {p : ArgParser} (h : ArgsOk S patterns tr p)
    (hc : Good S call) (i : Nat) (hd : declared isListType patterns (.int i) = true) :
    ROk S strict (fun ns => Goods S ns) (p.posList call i) := by
  refine (pos_snd h hc i).bind fun n hn => ?_
  obtain ⟨hn, r, hr, hk⟩ := hn
  obtain ⟨ns, s, e, w, rfl⟩ := listType_list (declared_type hd hr) ((check_iff _ _).1 hk)
  exact hn.kids

theorem posOpt_snd {patterns : List ArgRule} {tr : Option ArgType} {p : ArgParser} (h : ArgsOk S patterns tr p)
    (i : Nat) (hd : declared isAtomType patterns (.int i) = true) :
    ROk S strict (fun o => ∀ a, o = some a → S a.site) (p.posOpt i) := by
  unfold ArgParser.posOpt
  rcases hg : amGet i p.positional with _ | n
  · intro a ha; cases ha
  · obtain ⟨hn, r, hr, hk⟩ := h.pos i n (amGet_mem_nat hg)
    obtain ⟨a, h1, h2, _⟩ := atom_snd hn (declared_type hd hr) hk
    simp only [optNode, h1]
    intro a' ha'
    simp only [Option.some.injEq] at ha'
    exact ha' ▸ h2

theorem opt_snd {patterns : List ArgRule} {tr : Option ArgType} {p : ArgParser} (h : ArgsOk S patterns tr p)
    (k : Str) (hd : declared isAtomType patterns (.str k) = true) :
    ROk S strict (fun o => ∀ a, o = some a → S a.site ∧ ∃ r n, patterns.find? (fun r => r.pattern (.str k)) = some r ∧
      HasType r.type n ∧ n.atomic? = some a ∧ Good S n) (p.opt k) := by
  unfold ArgParser.opt
  rcases hg : amGet k p.named with _ | n
  · intro a ha; cases ha
  · obtain ⟨hn, r, hr, hk⟩ := h.named k n (amGet_mem hg)
    obtain ⟨a, h1, h2, h3⟩ := atom_snd hn (declared_type hd hr) hk
    simp only [optNode, h1]
    intro a' ha'
    simp only [Option.some.injEq] at ha'
    subst ha'
    exact ⟨h2, r, n, hr, (check_iff _ _).1 hk, h3, hn⟩

theorem literalOf_value {vs : List Str} (hv : vs ≠ []) {n : PNode} {a : Node} (h : HasType (literalOf vs) n)
    (ha : n.atomic? = some a) : a.value ∈ vs := by
  obtain ⟨b, h1, h2⟩ := (hasType_literalOf hv).1 h
  have := literal_atomic h1
  rw [ha] at this
  simp only [Option.some.injEq] at this
  exact this ▸ h2

theorem restNodes_snd {patterns : List ArgRule} {t : ArgType} {p : ArgParser} (h : ArgsOk S patterns (some t) p)
    (ht : isAtomType t = true) : ROk S strict (fun ns => ∀ a ∈ ns, S a.site) p.restNodes := by
  have : ∀ (ns : List PNode), (∀ n ∈ ns, Good S n ∧ ∃ t', some t = some t' ∧ t'.check n = .ok ()) →
      ROk S strict (fun ns => ∀ a ∈ ns, S a.site) (toNodeList ns) := by
    intro ns
    induction ns with
    | nil => intro _ a ha; simp at ha
    | cons n ns ih =>
      intro h
      obtain ⟨hn, t', ht', hk⟩ := h n (by simp)
      simp only [Option.some.injEq] at ht'
      subst ht'
      obtain ⟨a, h1, h2, _⟩ := atom_snd hn ht hk
      simp only [toNodeList, h1, Res.ok_bind]
      refine ROk.bind (Q := fun ns => ∀ a ∈ ns, S a.site) (ih fun n hn => h n (by simp [hn])) fun as has => ?_
      intro b hb
      rcases List.mem_cons.1 hb with rfl | hb
      · exact h2
      · exact has b hb
  exact this p.trailing h.trailing

theorem trailing_goods {patterns : List ArgRule} {tr : Option ArgType} {p : ArgParser} (h : ArgsOk S patterns tr p) :
    Goods S p.trailing := fun n hn => (h.trailing n hn).1

/-! ## Data -/

theorem Snd.calm {α : Type} {Q : α → Prop} {m : M α} (h : Snd S False Q m) (hp : strict → ∀ s, (m s).1 ≠ .panic) :
    Snd S strict Q m := by
  intro s hl hi
  refine ⟨(h s hl hi).1, ?_⟩
  have h2 := (h s hl hi).2
  have h3 := fun hs => hp hs s
  rcases hm : (m s).1 with _ | _ | _ | _ <;> rw [hm] at h2 h3
  · exact h2
  · exact h2
  · exact fun hs => h3 hs rfl
  · trivial

/-- The nodes collected so far are good, and the names collected so far may be keywords. -/
structure GoodSink (S : Region) (k : YSink) : Prop where
  nodes : Goods S k.nodes
  parent : ∀ ns ∈ k.parent, Goods S ns
  defining : ∀ d, k.defining = some d → S.mark (.key d)
  pref : ∀ d ∈ k.pref, S.mark (.key d)

theorem yScalar_snd {site : Site} {sep v : Str} {k : YSink} (hs : S site) (hk : GoodSink S k) (hv : S.mark (.key v))
    (hn : ∀ i, S.mark (.key (natStr i))) : Snd S False (GoodSink S) (yScalar site sep v k) := by
  have hstr : ∀ w, Good S (.string { value := v, site := site, lw := w }) := fun w => good_string hs
  unfold yScalar
  split
  · rename_i name hd
    refine Snd.bind (Q := fun _ => True) (Snd.define _ _ goods_nil (goods_one (hstr _)) trivial) fun _ _ => ?_
    split
    · exact Snd.pure ⟨hk.nodes.append (goods_one (good_attr (hstr _) hs (hk.defining name hd))), hk.parent, fun _ h => (by cases h), hk.pref⟩
    · exact Snd.pure ⟨hk.nodes.append (goods_one (hstr _)), hk.parent, fun d h => Option.some.inj h ▸ hn _, hk.pref⟩
    · exact Snd.panic id
  · split
    · exact Snd.pure ⟨hk.nodes, hk.parent, fun d h => Option.some.inj h ▸ hv, hk.pref⟩
    · exact Snd.panic id
    · exact Snd.pure ⟨hk.nodes.append (goods_one (hstr _)), hk.parent, hk.defining, hk.pref⟩

theorem yEnd_snd {site : Site} {sep : Str} {k : YSink} (hs : S site) (hk : GoodSink S k)
    (hn : ∀ i, S.mark (.key (natStr i))) : Snd S False (GoodSink S) (yEnd site sep k) := by
  have hlist : ∀ w, Good S (.list k.nodes site (dreadedRparen site) w) := fun w => good_list hk.nodes hs hs
  have hout : Goods S (k.parent.head?.getD []) := by
    rcases hp : k.parent with _ | ⟨a, b⟩
    · exact goods_nil
    · exact hk.parent a (by simp [hp])
  have hpar : ∀ ns ∈ k.parent.tail, Goods S ns := fun ns hn => hk.parent ns (List.mem_of_mem_tail hn)
  have hpre : ∀ d ∈ k.pref.tail, S.mark (.key d) := fun d hd => hk.pref d (List.mem_of_mem_tail hd)
  have hfin : ∀ {d m ms} {item : PNode}, (∀ x, d = some x → S.mark (.key x)) → Good S item → Snd S False (GoodSink S) (pure (f := M) (
      { defining := d, nodes := (k.parent.head?.getD []) ++ [item], parent := k.parent.tail,
        pref := k.pref.tail, mode := m, modes := ms } : YSink)) :=
    fun hd hi => Snd.pure ⟨hout.append (goods_one hi), hpar, hd, hpre⟩
  have hno : ∀ x : Str, none = some x → S.mark (.key x) := fun _ h => by cases h
  have hix : ∀ {i : Nat} (x : Str), some (natStr i) = some x → S.mark (.key x) := fun x h => Option.some.inj h ▸ hn _
  have hdef : ∀ {name : Str} {w : Str} {f : Unit → M YSink}, Snd S False (GoodSink S) (f ()) →
      (∀ a, Grows _ (f a)) → Snd S False (GoodSink S) (M.define name (Macro.var [.list k.nodes site (dreadedRparen site) w]) >>= f) :=
    fun h hg => Snd.bind (Q := fun _ => True) (Snd.define _ _ goods_nil (goods_one (hlist _)) trivial) (fun _ _ => h) hg
  unfold yEnd
  dsimp only
  rcases hp : k.pref.head? with _ | name <;> rcases k.modes.head? with _ | _ | _ <;> dsimp only
  · exact Snd.bind (Snd.pure (hlist _)) fun _ h => hfin hno h
  · exact Snd.bind (Q := fun _ => False) (Snd.panic id) fun _ h => h.elim
  · exact Snd.bind (Snd.pure (hlist _)) fun _ h => hfin hix h
  · exact hdef (Snd.bind (Snd.pure (hlist _)) fun _ h => hfin hno h) (by grows)
  · exact hdef (Snd.bind (Snd.pure (good_attr (hlist _) hs (hk.pref _ (List.mem_of_mem_head? hp)))) fun _ h => hfin hno h) (by grows)
  · exact hdef (Snd.bind (Snd.pure (hlist _)) fun _ h => hfin hix h) (by grows)

theorem yEvents_snd {site : Site} {sep : Str} (hs : S site) (hn : ∀ i, S.mark (.key (natStr i))) :
    ∀ {es : List YEvent} {k : YSink}, (∀ v, .scalar v ∈ es → S.mark (.key v)) → GoodSink S k →
    Snd S False (GoodSink S) (yEvents site sep k es)
  | [], _, _, hk => Snd.pure hk
  | e :: es, k, hv, hk => by
    refine Snd.bind (Q := GoodSink S) ?_ fun k' hk' => yEvents_snd hs hn (fun v h => hv v (List.mem_cons_of_mem _ h)) hk'
    have hst : ∀ m, GoodSink S (yStart m k) := fun m => ⟨goods_nil, fun ns hn => by
      rcases List.mem_cons.1 hn with rfl | hn
      · exact hk.nodes
      · exact hk.parent ns hn, fun d hd => by
      cases m
      · cases hd
      · exact Option.some.inj hd ▸ hn 0, fun d hd => by
      simp only [yStart] at hd
      split at hd
      · rename_i d' hd'
        rcases List.mem_cons.1 hd with rfl | hd
        · exact hk.defining _ hd'
        · exact hk.pref d hd
      · exact hk.pref d hd⟩
    cases e with
    | scalar v => exact yScalar_snd hs hk (hv v (by simp)) hn
    | mapStart => exact Snd.pure (hst _)
    | seqStart => exact Snd.pure (hst _)
    | mapEnd => exact yEnd_snd hs hk hn
    | seqEnd => exact yEnd_snd hs hk hn
    | other => exact Snd.pure hk

mutual
theorem tomlValue_snd {site : Site} {sep : Str} (hs : S site) : ∀ {v : TVal} {pref : List Str} {b : Bool}, (∀ m ∈ tomlMarks v, S.mark m) →
    Snd S strict (Good S) (tomlValue site sep pref b v)
  | .str _, _, _, _ => by unfold tomlValue; exact Snd.pure (good_string hs)
  | .num _, _, _, _ => by unfold tomlValue; exact Snd.pure (good_number hs)
  | .sym _, _, _, hm => by unfold tomlValue; exact Snd.pure (good_symbol hs (hm _ (by simp [tomlMarks])))
  | .arr vs, _, _, hm => by
    unfold tomlValue
    exact Snd.bind (tomlArray_snd hs fun m h => hm m (by simpa only [tomlMarks] using h)) fun _ h => Snd.pure (good_list h hs hs)
  | .tab kvs, _, _, hm => by
    unfold tomlValue
    exact Snd.bind (tomlTable_snd hs fun m h => hm m (by simpa only [tomlMarks] using h)) fun _ h => Snd.pure (good_list h hs hs)
theorem tomlArray_snd {site : Site} {sep : Str} (hs : S site) : ∀ {vs : List TVal} {pref : List Str} {b : Bool} {i : Nat},
    (∀ m ∈ tomlMarksAll vs, S.mark m) → Snd S strict (Goods S) (tomlArray site sep pref b i vs)
  | [], _, _, _, _ => by unfold tomlArray; exact Snd.pure goods_nil
  | v :: vs, _, _, _, hm => by
    unfold tomlArray
    exact Snd.bind (tomlValue_snd hs fun m h => hm m (by simp [tomlMarksAll, h])) fun _ h =>
      Snd.bind (Q := fun _ => True) (Snd.define _ _ goods_nil (goods_one h) trivial) fun _ _ =>
      Snd.bind (tomlArray_snd hs fun m h => hm m (by simp [tomlMarksAll, h])) fun _ h' => Snd.pure (goods_cons h h')
theorem tomlTable_snd {site : Site} {sep : Str} (hs : S site) : ∀ {kvs : List (Str × TVal)} {pref : List Str} {b : Bool},
    (∀ m ∈ tableMarks kvs, S.mark m) → Snd S strict (Goods S) (tomlTable site sep pref b kvs)
  | [], _, _, _ => by unfold tomlTable; exact Snd.pure goods_nil
  | (_, v) :: kvs, _, _, hm => by
    unfold tomlTable
    exact Snd.bind (tomlValue_snd hs fun m h => hm m (by simp [tableMarks, h])) fun _ h =>
      Snd.bind (Q := fun _ => True) (Snd.define _ _ goods_nil (goods_one h) trivial) fun _ _ =>
      Snd.bind (tomlTable_snd hs fun m h => hm m (by simp [tableMarks, h])) fun _ h' =>
        Snd.pure (goods_cons (good_attr h hs (hm _ (by simp [tableMarks]))) h')
end

/-- Nothing outside the program makes it panic. -/
structure Calm (ext : Ext) : Prop where
  yaml : ∀ text site sep s, (yEvents site sep YSink.init (ext.yaml text).1 s).1 ≠ .panic
  tz : ∀ text bits, ext.fixed text = some bits → tzSeconds bits ≠ none
  date : ∀ t off fmt, ext.date t off fmt ≠ none
  glob : ∀ p fs, ext.glob p = some fs → some none ∉ fs

/-- The marks that macros and data make are in `S`. -/
structure MarkSrc (S : Region) (ext : Ext) : Prop where
  call : ∀ t b, S.mark (.name ('%' :: t)) → builtin? t = some b → S.uses b
  indirect : ∀ a ∈ [Builtin.apply, .map, .filter, .sort], S.uses a → ∀ t b, S.mark (.name t) → builtin? t = some b → S.uses b
  sort : S.uses .sort → S.uses .do_
  raw : S.uses .raw → ∀ t, S.mark (.raw t)
  markdown : S.uses .markdown → ∀ text html, ext.mdHtml text = some html → S.mark (.raw html)
  symbol : S.uses .symbol → ∀ t, S.mark (.name t)
  lambda : S.uses .lambda → ∀ s, S.mark (.name (str! "__lambda" ++ ext.uuid s))
  toml : S.uses .toml ∨ S.uses .markdown → ∀ text table, ext.toml text = some table → ∀ m ∈ tableMarks table, S.mark m
  yaml : S.uses .yaml ∨ S.uses .markdown → ∀ text v, .scalar v ∈ (ext.yaml text).1 → S.mark (.key v)
  index : S.uses .yaml ∨ S.uses .markdown → ∀ i, S.mark (.key (natStr i))

theorem MarkSrc.all {ext : Ext} (h1 : ∀ m, S.mark m) (h2 : ∀ b, S.uses b) : MarkSrc S ext :=
  ⟨fun _ _ _ _ => h2 _, fun _ _ _ _ _ _ _ => h2 _, fun _ => h2 _, fun _ _ => h1 _, fun _ _ _ _ => h1 _, fun _ _ => h1 _, fun _ _ => h1 _,
    fun _ _ _ _ _ _ => h1 _, fun _ _ _ _ => h1 _, fun _ _ => h1 _⟩

/-- What is assumed of the outside: calm if wanted, and files and data only have sites and marks in `S`. -/
structure ExtSnd (S : Region) (strict : Prop) (ext : Ext) : Prop where
  calm : strict → Calm ext
  src : MarkSrc S ext
  file : S.uses .include_ → ∀ p code id tree, S.lim (id + 1) → ext.readFile p = some code → parse ext.unescape { path := p, id := id, code := code } = .ok tree →
    Goods S tree

theorem expandYaml_snd {ext : Ext} (he : ExtSnd S strict ext) (hu : S.uses .yaml ∨ S.uses .markdown) {text sep : Str} {site : Site} (hs : S site) :
    Snd S strict (Goods S) (expandYaml ext text sep site) := by
  unfold expandYaml
  have h : Snd S strict (GoodSink S) (yEvents site sep YSink.init (ext.yaml text).1) :=
    Snd.calm (yEvents_snd hs (he.src.index hu) (he.src.yaml hu text) ⟨goods_nil, fun _ h => absurd h (by simp [YSink.init]),
      fun _ h => absurd h (by simp [YSink.init]), fun _ h => absurd h (by simp [YSink.init])⟩) fun hc s => (he.calm hc).yaml _ _ _ _
  rcases hy : ext.yaml text with ⟨events, ok⟩
  rw [hy] at h
  refine Snd.bind h fun k hk => ?_
  split
  · exact Snd.pure hk.nodes
  · exact Snd.fail hs

theorem expandToml_snd {ext : Ext} (he : ExtSnd S strict ext) (hu : S.uses .toml ∨ S.uses .markdown) {text sep : Str} {site : Site} (hs : S site) :
    Snd S strict (Goods S) (expandToml ext text sep site) := by
  unfold expandToml
  split
  · exact Snd.fail hs
  · rename_i ht
    exact Snd.bind (tomlTable_snd hs (he.src.toml hu _ _ ht)) fun _ h => Snd.pure (goods_one (good_list h hs hs))

theorem frontmatter_snd {ext : Ext} (he : ExtSnd S strict ext) (hu : S.uses .markdown) {text sep : Str} {call : PNode} {site : Site} (hc : Good S call)
    (hs : S site) : Snd S strict (fun _ => True) (frontmatter ext text sep call site) := by
  unfold frontmatter
  split
  · exact Snd.fail hs
  · exact Snd.fail hs
  · exact Snd.bind (expandYaml_snd he (.inr hu) hc.site) fun _ _ => Snd.pure trivial
  · exact Snd.bind (expandToml_snd he (.inr hu) hc.site) fun _ _ => Snd.pure trivial

/-! ## The macros -/

variable {ext : Ext} {rec : Rec} {call : PNode} {ps : List PNode}

theorem expandNodes_snd (hr : RecSnd S strict rec) : ∀ {ns : List PNode}, Goods S ns → Snd S strict (Goods S) (expandNodes rec ns)
  | [], _ => Snd.pure goods_nil
  | _ :: _, h => Snd.bind (hr.node _ h.head) fun _ h1 => Snd.bind (expandNodes_snd hr h.tail) fun _ h2 => Snd.pure (h1.append h2)

theorem matchLoop_eq (rec : Rec) (expr pat : PNode) (value : List PNode) (s : Site) (e : Token) (w : Str) (ps : List PNode) :
    matchLoop rec expr (.list (pat :: value) s e w :: ps) = (do
      let pats ← rec (.node pat)
      match pats with
      | [pat'] => matchStep (bind pat' expr) (expandNodes rec value) (matchLoop rec expr ps)
      | _ => M.fail "Pattern must evaluate to a single node." pat.site) := rfl

theorem matchLoop_snd (hr : RecSnd S strict rec) {expr : PNode} (he : Good S expr) : ∀ {ps : List PNode}, Goods S ps →
    Snd S strict (Goods S) (matchLoop rec expr ps)
  | [], _ => Snd.pure goods_nil
  | p :: ps, h => by
    have ih := matchLoop_snd hr he h.tail
    cases p with
    | list ns s e w =>
      cases ns with
      | nil => exact Snd.fail h.head.site
      | cons pat value =>
        rw [matchLoop_eq]
        refine Snd.bind (hr.node _ h.head.kids.head) fun pats hp => ?_
        split
        · exact Snd.matchStep (bind_snd hp.head he) (expandNodes_snd hr h.head.kids.tail) ih
        · exact Snd.fail h.head.kids.head.site
    | _ => exact Snd.fail h.head.site

theorem matchMacro_snd (hr : RecSnd S strict rec) (hc : Good S call) (hp : Goods S ps) :
    Snd S strict (Goods S) (matchMacro rec call ps) := by
  unfold matchMacro
  split
  · exact Snd.fail hc.site
  · refine Snd.bind (hr.node _ hp.head) fun es he => ?_
    split
    · exact matchLoop_snd hr he.head hp.tail
    · exact Snd.fail hp.head.site

theorem createMacro_snd {name : Str} {params body : List PNode} (hp : Goods S params) (hb : Goods S body) :
    Snd S strict (fun _ => True) (createMacro name params body) := by
  unfold createMacro
  split
  · rename_i a x b h
    have : x ∈ restParams params := by rw [h]; exact List.mem_cons_of_mem _ List.mem_cons_self
    exact Snd.fail (hp x (List.mem_filter.1 this).1).site
  · split
    · rename_i a x b h
      have : x ∈ kwRestParams params := by rw [h]; exact List.mem_cons_of_mem _ List.mem_cons_self
      exact Snd.fail (hp x (List.mem_filter.1 this).1).site
    · exact Snd.define _ _ hp hb trivial

theorem defineMacro_snd (hr : RecSnd S strict rec) (hc : Good S call) (hp : Goods S ps) :
    Snd S strict (Goods S) (defineMacro rec call ps) := by
  unfold defineMacro
  split
  · exact Snd.fail hc.site
  · split
    · exact Snd.bind (expandNodes_snd hr hp.tail) fun _ h => Snd.bind (createMacro_snd goods_nil h) fun _ _ => Snd.pure goods_nil
    · exact Snd.fail hp.head.site
    · exact Snd.bind (createMacro_snd hp.head.kids.tail hp.tail) fun _ _ => Snd.pure goods_nil
    · exact Snd.fail hp.head.kids.head.site
    · exact Snd.fail hp.head.site

theorem ifdefMacro_snd (hr : RecSnd S strict rec) (hc : Good S call) (hp : Goods S ps) :
    Snd S strict (Goods S) (ifdefMacro rec call ps) := by
  unfold ifdefMacro
  dsimp only
  split
  · split
    · exact Snd.fail hp.head.site
    · refine Snd.bind (Snd.lookup _) fun d _ => ?_
      cases d with
      | some m => exact Snd.bind (hr.node _ hp.tail.head) fun _ h => Snd.pure (h.firstLw _)
      | none => exact Snd.bind (Snd.pure goods_nil) fun _ h => Snd.pure (h.firstLw _)
  · split
    · exact Snd.fail hp.head.site
    · refine Snd.bind (Snd.lookup _) fun d _ => ?_
      cases d with
      | some m => exact Snd.bind (hr.node _ hp.tail.head) fun _ h => Snd.pure (h.firstLw _)
      | none => exact Snd.bind (hr.node _ hp.tail.tail.head) fun _ h => Snd.pure (h.firstLw _)
  · exact Snd.fail hc.site

theorem findInclude_read {path : Str} {file code : Str} : ∀ {dirs : List Str}, findInclude ext path dirs = some (file, code) →
    ext.readFile file = some code
  | [], h => by simp [findInclude] at h
  | dir :: dirs, h => by
    unfold findInclude at h
    dsimp only at h
    split at h
    · rename_i hr
      simp only [Option.some.injEq, Prod.mk.injEq] at h
      rw [← h.1, ← h.2]
      exact hr
    · split at h
      · exact findInclude_read h
      · split at h
        · rename_i hr
          simp only [Option.some.injEq, Prod.mk.injEq] at h
          rw [← h.1, ← h.2]
          exact hr
        · exact findInclude_read h

theorem parse_noPanic (u : Unescape) (b : Buf) : parse u b ≠ .panic := by
  intro h
  obtain ⟨toks, e, ht⟩ := tokens_total b [] 1 b.code
  have hout := parse_out u b ht
  rw [h] at hout
  exact hout

theorem includeMacro_snd (he : ExtSnd S strict ext) (hu : S.uses .include_) (hr : RecSnd S strict rec) (hc : Good S call) (hp : Goods S ps) :
    Snd S strict (Goods S) (includeMacro ext rec call ps) := by
  unfold includeMacro
  refine Snd.bind (expandNodes_snd hr hp) fun vs hv => ?_
  split
  · split
    · exact Snd.fail hv.head.site
    · rename_i a ha
      rcases hf : findInclude ext a.value ext.includes with _ | ⟨p, code⟩ <;> dsimp only
      · exact Snd.fail (hv.head.atomic ha)
      · refine Snd.bind Snd.tick fun id hid => ?_
        rcases hq : parse ext.unescape { path := p, id := id, code := code } with tree | e | _ | _ <;> dsimp only
        · exact Snd.bind (expandNodes_snd hr (he.file hu _ _ _ _ hid (findInclude_read hf) hq)) fun _ h => Snd.pure (h.firstLw _)
        · exact Snd.fail hc.site
        · exact absurd hq (parse_noPanic _ _)
        · exact Snd.lift trivial
  · exact Snd.fail hc.site

theorem embedMacro_snd (hr : RecSnd S strict rec) (hc : Good S call) (hp : Goods S ps) :
    Snd S strict (Goods S) (embedMacro ext rec call ps) := by
  unfold embedMacro
  refine Snd.bind (expandNodes_snd hr hp) fun vs hv => ?_
  split
  · split
    · exact Snd.fail hv.head.site
    · rename_i a ha
      split
      · exact Snd.fail (hv.head.atomic ha)
      · exact Snd.pure (goods_one (good_string hc.site))
  · exact Snd.fail hc.site

theorem markdownMacro_snd (he : ExtSnd S strict ext) (hu : S.uses .markdown) (hr : RecSnd S strict rec) (hc : Good S call) (hp : Goods S ps) :
    Snd S strict (Goods S) (markdownMacro ext rec call ps) := by
  unfold markdownMacro
  refine Snd.bind (expandNodes_snd hr hp) fun vs hv => ?_
  refine Snd.bind (arguments_snd hc hv) fun args ha => ?_
  refine Snd.bind (Snd.lift (posNode_snd ha hc 1 rfl)) fun contents h1 => ?_
  refine Snd.bind (Snd.lift (opt_snd ha (str! "only") rfl)) fun only h2 => ?_
  refine Snd.bind (Snd.lift (opt_snd ha (str! "separator") rfl)) fun sep h3 => ?_
  have hfm : Snd S strict (fun _ => True) (frontmatter ext contents.value (sepOf sep) call contents.site) := frontmatter_snd he hu hc h1
  have hhtml : Snd S strict (Goods S) (match ext.mdHtml contents.value with
    | none => M.fail "Failed to render markdown." contents.site
    | some html => pure [.raw (callNode call html)]) := by
    split
    · exact Snd.fail h1
    · rename_i hm
      exact Snd.pure (goods_one (good_raw hc.site (he.src.markdown hu _ _ hm)))
  cases only with
  | none => exact Snd.bind (Snd.ignoreErr hfm trivial) fun _ _ => hhtml
  | some o =>
    dsimp only
    split
    · exact Snd.bind hfm fun _ _ => Snd.pure goods_nil
    · split
      · exact hhtml
      · rename_i hn1 hn2
        obtain ⟨_, r, n, hr, ht, hn, _⟩ := h2 o rfl
        have hr' : r = optionalNamed (str! "only") (literalOf [str! "frontmatter", str! "content"]) := by
          have : markdownSchema.find? (fun r => r.pattern (.str (str! "only"))) =
            some (optionalNamed (str! "only") (literalOf [str! "frontmatter", str! "content"])) := rfl
          rw [this] at hr
          exact (Option.some.inj hr).symm
        subst hr'
        have := literalOf_value (by simp) ht hn
        simp only [List.mem_cons, List.not_mem_nil, or_false] at this
        rcases this with h | h
        · exact absurd h hn1
        · exact absurd h hn2

theorem yamlMacro_snd (he : ExtSnd S strict ext) (hu : S.uses .yaml) (hr : RecSnd S strict rec) (hc : Good S call) (hp : Goods S ps) :
    Snd S strict (Goods S) (yamlMacro ext rec call ps) := by
  unfold yamlMacro
  exact Snd.bind (expandNodes_snd hr hp) fun vs hv => Snd.bind (arguments_snd hc hv) fun args ha =>
    Snd.bind (Snd.lift (posNode_snd ha hc 1 rfl)) fun contents h1 =>
    Snd.bind (Snd.lift (opt_snd ha (str! "separator") rfl)) fun sep h3 => expandYaml_snd he (.inl hu) hc.site

theorem tomlMacro_snd (he : ExtSnd S strict ext) (hu : S.uses .toml) (hr : RecSnd S strict rec) (hc : Good S call) (hp : Goods S ps) :
    Snd S strict (Goods S) (tomlMacro ext rec call ps) := by
  unfold tomlMacro
  exact Snd.bind (expandNodes_snd hr hp) fun vs hv => Snd.bind (arguments_snd hc hv) fun args ha =>
    Snd.bind (Snd.lift (posNode_snd ha hc 1 rfl)) fun contents h1 =>
    Snd.bind (Snd.lift (opt_snd ha (str! "separator") rfl)) fun sep h3 => expandToml_snd he (.inl hu) hc.site

theorem findAttr_good {k : Str} {n : PNode} : ∀ {ns : List PNode}, Goods S ns → findAttr k ns = some n → Good S n
  | [], _, h => by simp [findAttr] at h
  | m :: ms, hm, h => by
    have ih := findAttr_good (k := k) (n := n) hm.tail
    cases m with
    | attr k' v s w =>
      simp only [findAttr] at h
      split at h
      · exact Option.some.inj h ▸ hm.head.value
      · exact ih h
    | _ => exact ih h

theorem getItem_snd {node : PNode} {item : Str} (hn : Good S node) : ROk S strict (Good S) (getItem node item) := by
  unfold getItem
  split
  · exact hn.site
  · rename_i view hv
    have hg : Goods S view := by
      cases node with
      | list ns s e w => exact Option.some.inj hv ▸ hn.kids
      | _ => simp [PNode.list?] at hv
    split
    · rename_i n hm
      rcases hp : parseUsize item with _ | i
      · rw [hp] at hm; cases hm
      · rw [hp] at hm
        exact hg n (List.mem_of_getElem? hm)
    · split
      · rename_i h
        exact findAttr_good hg h
      · exact hn.site

theorem getPath_snd : ∀ {items : List Str} {node : PNode}, Good S node → ROk S strict (Good S) (getPath node items)
  | [], _, h => h
  | _ :: _, _, h => (getItem_snd h).bind fun _ h' => getPath_snd h'

theorem getMacro_snd (hr : RecSnd S strict rec) (hc : Good S call) (hp : Goods S ps) :
    Snd S strict (Goods S) (getMacro rec call ps) := by
  unfold getMacro
  exact Snd.bind (expandNodes_snd hr hp) fun vs hv => Snd.bind (arguments_snd hc hv) fun args ha =>
    Snd.bind (Snd.lift (posNode_snd ha hc 1 rfl)) fun path h1 =>
    Snd.bind (Snd.lift (pos_snd ha hc 2)) fun node h2 =>
    Snd.bind (Snd.lift (opt_snd ha (str! "separator") rfl)) fun sep h3 =>
    Snd.bind (Snd.lift (getPath_snd h2.1)) fun n hn => Snd.pure (goods_one hn)

theorem timezone_snd (he : ExtSnd S strict ext) {tz : Option Node} (h : ∀ a, tz = some a → S a.site) :
    Snd S strict (fun _ => True) (timezone ext tz) := by
  unfold timezone
  split
  · exact Snd.pure trivial
  · split
    · exact Snd.fail (h _ rfl)
    · rename_i hb
      split
      · exact Snd.pure trivial
      · rename_i ht
        exact Snd.panic fun hs => (he.calm hs).tz _ _ hb ht

theorem tzSite {tz : Option Node} (hc : Good S call) (h : ∀ a, tz = some a → S a.site) :
    S (match (generalizing := false) tz with | some n => n.site | none => call.site) := by
  cases tz with
  | none => exact hc.site
  | some a => exact h a rfl

theorem dateMacro_snd (he : ExtSnd S strict ext) (hr : RecSnd S strict rec) (hc : Good S call) (hp : Goods S ps) :
    Snd S strict (Goods S) (dateMacro ext rec call ps) := by
  unfold dateMacro
  refine Snd.bind (expandNodes_snd hr hp) fun vs hv => Snd.bind (arguments_snd hc hv) fun args ha =>
    Snd.bind (Snd.lift (posNode_snd ha hc 1 rfl)) fun fmt h1 =>
    Snd.bind (Snd.lift (posOpt_snd ha 2 rfl)) fun time h2 =>
    Snd.bind (Snd.lift (opt_snd ha (str! "timezone") rfl)) fun tz h3 =>
    Snd.bind (timezone_snd he fun a h => (h3 a h).1) fun off _ => ?_
  have hnext : ∀ secs, Snd S strict (Goods S) (
      if eastOk off then
        match ext.date secs off fmt.value with
        | some text => pure [.string (callNode call text)]
        | none => M.panic
      else M.fail "Failed to compute UTC+(east) offset." (match (generalizing := false) tz with | some n => n.site | none => call.site)) := by
    intro secs
    split
    · split
      · exact Snd.pure (goods_one (good_string hc.site))
      · rename_i hd
        exact Snd.panic fun hs => (he.calm hs).date _ _ _ hd
    · exact Snd.fail (tzSite hc fun a h => (h3 a h).1)
  cases time with
  | none => exact Snd.bind (Q := fun _ => True) (Snd.pure trivial) fun _ _ => hnext _
  | some t =>
    dsimp only
    have ht := h2 t rfl
    split
    · exact Snd.bind (Q := fun _ => True) (Snd.fail ht) fun _ _ => hnext _
    · split
      · exact Snd.bind (Q := fun _ => True) (Snd.pure trivial) fun _ _ => hnext _
      · exact Snd.bind (Q := fun _ => True) (Snd.fail ht) fun _ _ => hnext _

theorem timestampMacro_snd (he : ExtSnd S strict ext) (hr : RecSnd S strict rec) (hc : Good S call) (hp : Goods S ps) :
    Snd S strict (Goods S) (timestampMacro ext rec call ps) := by
  unfold timestampMacro
  refine Snd.bind (expandNodes_snd hr hp) fun vs hv => Snd.bind (arguments_snd hc hv) fun args ha =>
    Snd.bind (Snd.lift (posNode_snd ha hc 1 rfl)) fun fmt h1 =>
    Snd.bind (Snd.lift (posNode_snd ha hc 2 rfl)) fun text h2 =>
    Snd.bind (Snd.lift (opt_snd ha (str! "timezone") rfl)) fun tz h3 =>
    Snd.bind (timezone_snd he fun a h => (h3 a h).1) fun off _ => ?_
  split
  · split
    · exact Snd.pure (goods_one (good_number hc.site))
    · split
      · exact Snd.pure (goods_one (good_number hc.site))
      · exact Snd.fail hc.site
  · exact Snd.fail (tzSite hc fun a h => (h3 a h).1)

theorem logMacro_snd (hr : RecSnd S strict rec) (hc : Good S call) (hp : Goods S ps) :
    Snd S strict (Goods S) (logMacro rec call ps) := by
  unfold logMacro
  refine Snd.bind (expandNodes_snd hr hp) fun vs hv => ?_
  split
  · exact Snd.bind (Q := fun _ => True) (Snd.emit _ hc.site trivial) fun _ _ => Snd.pure goods_nil
  · exact Snd.fail hc.site

theorem osEnvMacro_snd (hr : RecSnd S strict rec) (hc : Good S call) (hp : Goods S ps) :
    Snd S strict (Goods S) (osEnvMacro ext rec call ps) := by
  unfold osEnvMacro
  refine Snd.bind (expandNodes_snd hr hp) fun vs hv => ?_
  split
  · split
    · exact Snd.fail hv.head.site
    · rename_i a ha
      split
      · exact Snd.fail (hv.head.atomic ha)
      · exact Snd.pure (goods_one (good_string (S := S) (show S a.site from hv.head.atomic ha)))
  · exact Snd.fail hc.site

theorem formatArgs_snd : ∀ {ns : List PNode}, Goods S ns → ROk S strict (fun _ => True) (formatArgs ns)
  | [], _ => trivial
  | n :: ns, h => by
    have ih := formatArgs_snd h.tail
    have : ∀ (name : Option Str) (v : PNode), Good S v → ROk S strict (fun _ => True) (match v.atomic? with
      | none => .err (expErr "In `%format', the compound type is not formattable." v.site)
      | some a => do
        let rest ← formatArgs ns
        .ok ((name, a.value) :: rest)) := by
      intro name v hv
      split
      · exact hv.site
      · exact ih.bind fun _ _ => trivial
    cases n with
    | attr k v s w => exact this (some k) v h.head.value
    | _ => exact this none _ h.head

theorem formatMacro_snd (hr : RecSnd S strict rec) (hc : Good S call) (hp : Goods S ps) :
    Snd S strict (Goods S) (formatMacro ext rec call ps) := by
  unfold formatMacro
  refine Snd.bind (expandNodes_snd hr hp) fun vs hv => ?_
  split
  · exact Snd.fail hc.site
  · split
    · refine Snd.bind (Snd.lift (formatArgs_snd hv.tail)) fun args _ => ?_
      split
      · exact Snd.pure (goods_one (good_string hc.site))
      · exact Snd.fail hv.head.site
    · exact Snd.fail hv.head.site
  · exact Snd.fail hv.head.site

theorem namespaceOpts_snd : ∀ {ns : List PNode} {sep : Str}, Goods S ns → ROk S strict (fun p => Goods S p.2) (namespaceOpts sep ns)
  | [], _, _ => goods_nil
  | n :: ns, sep, h => by
    cases n with
    | attr k v s w =>
      simp only [namespaceOpts]
      split
      · rcases v.atomic? with _ | a
        · exact h.head.value.site
        · exact namespaceOpts_snd h.tail
      · exact h.head.site
    | _ => exact h

theorem namespaceMacro_snd (hr : RecSnd S strict rec) (hc : Good S call) (hp : Goods S ps) :
    Snd S strict (Goods S) (namespaceMacro rec call ps) := by
  rw [namespaceMacro_eq]
  refine Snd.exporting (expandNodes_snd hr hp) fun args ha => ?_
  split
  · exact hc.site
  · split
    · exact hc.site
    · have := namespaceOpts_snd (strict := strict) (sep := ['/']) ha.tail
      rename_i opts _ _ _ _
      rcases hn : namespaceOpts ['/'] _ with ⟨_, _⟩ | _ | _ | _ <;> rw [hn] at this <;> exact this

theorem forLoop_snd (hr : RecSnd S strict rec) {it : PNode} {body : List PNode} (hi : Good S it) (hb : Goods S body) :
    ∀ {ns : List PNode}, Goods S ns → Snd S strict (Goods S) (forLoop rec it body ns)
  | [], _ => Snd.pure goods_nil
  | _ :: _, h => Snd.bind (bind_snd hi h.head) fun _ _ => Snd.bind (expandNodes_snd hr hb) fun _ h1 =>
      Snd.bind (forLoop_snd hr hi hb h.tail) fun _ h2 => Snd.pure (h1.append h2)

theorem forMacro_snd (hr : RecSnd S strict rec) (hc : Good S call) (hp : Goods S ps) :
    Snd S strict (Goods S) (forMacro rec call ps) := by
  unfold forMacro
  exact Snd.bind (arguments_snd hc hp) fun args ha => Snd.bind (Snd.lift (pos_snd ha hc 1)) fun it h1 =>
    Snd.bind (Snd.lift (posNode_snd ha hc 2 rfl)) fun _ _ =>
    Snd.bind (Snd.lift (posList_snd ha hc 3 rfl)) fun list hl =>
    Snd.bind (expandNodes_snd hr hl) fun list hl => Snd.inner (forLoop_snd hr h1.1 (trailing_goods ha) hl)

theorem globCollect_snd (he : ExtSnd S strict ext) {site : Site} {type : Option Str} {by_ : SortBy} (hs : S site) :
    ∀ {fs : List (Option (Option GFile))} {acc : List GFile}, (strict → some none ∉ fs) →
    ROk S strict (fun _ => True) (globCollect site type by_ acc fs)
  | [], _, _ => trivial
  | none :: _, _, _ => hs
  | some none :: _, _, h => fun hs => h hs List.mem_cons_self
  | some (some _) :: fs, _, h => globCollect_snd (fs := fs) he hs fun hs hm => h hs (List.mem_cons_of_mem _ hm)

theorem globMacro_snd (he : ExtSnd S strict ext) (hr : RecSnd S strict rec) (hc : Good S call) (hp : Goods S ps) :
    Snd S strict (Goods S) (globMacro ext rec call ps) := by
  unfold globMacro
  refine Snd.bind (expandNodes_snd hr hp) fun vs hv => Snd.bind (arguments_snd hc hv) fun args ha =>
    Snd.bind (Snd.lift (posNode_snd ha hc 1 rfl)) fun pat h1 =>
    Snd.bind (Snd.lift (opt_snd ha (str! "type") rfl)) fun type h2 =>
    Snd.bind (Snd.lift (opt_snd ha (str! "sort") rfl)) fun sort h3 =>
    Snd.bind (Snd.lift (opt_snd ha (str! "order") rfl)) fun order h4 => ?_
  dsimp only
  split
  · split
    · rename_i hs
      exfalso
      cases sort with
      | none => simp [sortByOf] at hs
      | some o =>
        obtain ⟨_, r, n, hr, ht, hn, _⟩ := h3 o rfl
        have hr' : r = optionalNamed (str! "sort") (literalOf [str! "modified", str! "created", str! "name", str! "type", str! "none"]) := by
          have : globSchema.find? (fun r => r.pattern (.str (str! "sort"))) =
            some (optionalNamed (str! "sort") (literalOf [str! "modified", str! "created", str! "name", str! "type", str! "none"])) := rfl
          rw [this] at hr
          exact (Option.some.inj hr).symm
        subst hr'
        have := literalOf_value (by simp) ht hn
        simp only [List.mem_cons, List.not_mem_nil, or_false] at this
        simp only [Option.map_some, sortByOf] at hs
        rcases this with h | h | h | h | h <;> rw [h] at hs <;> revert hs <;> decide
    · split
      · exact Snd.fail h1
      · rename_i hg
        refine Snd.bind (Snd.lift (globCollect_snd he h1 fun hs => (he.calm hs).glob _ _ hg)) fun files _ => Snd.pure ?_
        refine Goods.firstLw ?_ _
        intro n hn
        obtain ⟨f, _, rfl⟩ := List.mem_map.1 hn
        exact good_string h1
  · rename_i hno
    exfalso
    cases type with
    | none => exact hno (Or.inl rfl)
    | some o =>
      obtain ⟨_, r, n, hr, ht, hn, _⟩ := h2 o rfl
      have hr' : r = optionalNamed (str! "type") (literalOf [str! "file", str! "directory", str! "any"]) := by
        have : globSchema.find? (fun r => r.pattern (.str (str! "type"))) =
          some (optionalNamed (str! "type") (literalOf [str! "file", str! "directory", str! "any"])) := rfl
        rw [this] at hr
        exact (Option.some.inj hr).symm
      subst hr'
      have := literalOf_value (by simp) ht hn
      simp only [List.mem_cons, List.not_mem_nil, or_false] at this
      apply hno
      simp only [Option.map_some]
      rcases this with h | h | h <;> rw [h] <;> simp

theorem buildText_snd : ∀ {ns : List PNode}, Goods S ns → ROk S strict (fun _ => True) (buildText ns)
  | [], _ => trivial
  | n :: ns, h => by
    unfold buildText
    split
    · exact h.head.site
    · exact (buildText_snd h.tail).bind fun _ _ => trivial

theorem rawMacro_snd (hm : ∀ t, S.mark (.raw t)) (hr : RecSnd S strict rec) (hc : Good S call) (hp : Goods S ps) :
    Snd S strict (Goods S) (rawMacro rec call ps) :=
  Snd.bind (expandNodes_snd hr hp) fun _ hv => Snd.bind (Snd.lift (buildText_snd hv)) fun _ _ => Snd.pure (goods_one (good_raw hc.site (hm _)))

theorem stringMacro_snd (hr : RecSnd S strict rec) (hc : Good S call) (hp : Goods S ps) :
    Snd S strict (Goods S) (stringMacro rec call ps) :=
  Snd.bind (expandNodes_snd hr hp) fun _ hv => Snd.bind (Snd.lift (buildText_snd hv)) fun _ _ => Snd.pure (goods_one (good_string hc.site))

theorem numberMacro_snd (hr : RecSnd S strict rec) (hc : Good S call) (hp : Goods S ps) :
    Snd S strict (Goods S) (numberMacro rec call ps) :=
  Snd.bind (expandNodes_snd hr hp) fun _ hv => Snd.bind (arguments_snd hc hv) fun _ ha =>
    Snd.bind (Snd.lift (restNodes_snd ha rfl)) fun ns hn => Snd.pure fun n h => by
      obtain ⟨a, h', rfl⟩ := List.mem_map.1 h
      exact good_number (hn a h')

theorem symbolMacro_snd (hm : ∀ t, S.mark (.name t)) (hr : RecSnd S strict rec) (hc : Good S call) (hp : Goods S ps) :
    Snd S strict (Goods S) (symbolMacro rec call ps) :=
  Snd.bind (expandNodes_snd hr hp) fun _ hv => Snd.bind (arguments_snd hc hv) fun _ ha =>
    Snd.bind (Snd.lift (restNodes_snd ha rfl)) fun ns hn => Snd.pure fun n h => by
      obtain ⟨a, h', rfl⟩ := List.mem_map.1 h
      exact good_symbol (hn a h') (hm _)

theorem layoutOf_good : ∀ {ls ns : List PNode}, Goods S ns → Goods S (layoutOf ls ns)
  | [], _, _ => goods_nil
  | _ :: _, [], _ => goods_nil
  | _ :: _, _ :: _, h => goods_cons (h.head.setLw _) (layoutOf_good h.tail)

theorem reverseMacro_snd (hr : RecSnd S strict rec) (hc : Good S call) (hp : Goods S ps) :
    Snd S strict (Goods S) (reverseMacro rec call ps) := by
  unfold reverseMacro
  refine Snd.bind (expandNodes_snd hr hp) fun vs hv => ?_
  refine Snd.bind (Q := fun p => ArgsOk S [mandatory 1 (.list [])] none p ∧ ∃ ns si e w, vs = [PNode.list ns si e w]) ?_
    fun args ha => ?_
  · have ha := arguments_snd (strict := strict) (patterns := [mandatory 1 (.list [])]) (tr := none) hc hv
    intro s hl hi
    refine ⟨(ha s hl hi).1, ?_⟩
    have h2 := (ha s hl hi).2
    rcases argParser_new (eager_wellDeclared _ reverse_mem) none call vs with ⟨p, h1, _, h3⟩ | ⟨e, h1, _⟩
    · have hh : arguments [mandatory 1 (.list [])] none call vs s = (.ok p, s) := Prod.ext h1 rfl
      rw [hh] at h2 ⊢
      exact ⟨h2, reverse_accepts.1 h3⟩
    · have hh : arguments [mandatory 1 (.list [])] none call vs s = (.err e, s) := Prod.ext h1 rfl
      rw [hh] at h2 ⊢
      exact h2
  · obtain ⟨ha, ns, si, e, w, rfl⟩ := ha
    exact Snd.bind (Snd.lift (posList_snd ha hc 1 rfl)) fun list hl =>
      Snd.pure (goods_one (good_list (layoutOf_good fun n hn => hl n (List.mem_reverse.1 hn)) hv.head.site hv.head.close))

theorem sortKeys_snd {f : Str} (hu : ∀ b, builtin? f = some b → S.uses b) (hr : RecSnd S strict rec)
    (hl : call.list?.isSome = true) (hc : Good S call) {site : Site} (hs : S site) :
    ∀ {ns : List PNode}, Goods S ns → Snd S strict (fun ps => ∀ p ∈ ps, Good S p.2) (sortKeys rec call f site ns)
  | [], _ => Snd.pure fun _ h => absurd h (by simp)
  | n :: ns, h => by
    unfold sortKeys
    refine Snd.bind (Snd.rethrow _ hs (hr.invoke _ _ _ hl hu hc (goods_one h.head))) fun key hk => ?_
    split
    · exact Snd.fail hs
    · split
      · exact Snd.fail hk.head.site
      · refine Snd.bind (sortKeys_snd hu hr hl hc hs h.tail) fun rest hrest => Snd.pure fun p hp => ?_
        rcases List.mem_cons.1 hp with rfl | hp
        · exact h.head
        · exact hrest p hp
    · exact Snd.fail hs

theorem sortMacro_snd (hdo : S.uses .do_) (hu : ∀ t b, S.mark (.name t) → builtin? t = some b → S.uses b) (hr : RecSnd S strict rec) (hl : call.list?.isSome = true) (hc : Good S call) (hp : Goods S ps) :
    Snd S strict (Goods S) (sortMacro ext rec call ps) := by
  unfold sortMacro
  refine Snd.bind (expandNodes_snd hr hp) fun vs hv => Snd.bind (arguments_snd hc hv) fun args ha =>
    Snd.bind (Snd.lift (pos_snd ha hc 1)) fun arg h1 =>
    Snd.bind (Snd.lift (opt_snd ha (str! "order") rfl)) fun order h2 =>
    Snd.bind (Snd.lift (opt_snd ha (str! "key") rfl)) fun key h3 => ?_
  have hks : S (match (generalizing := false) key with | some k => k.site | none => call.site) := by
    cases key with
    | none => exact hc.site
    | some a => exact (h3 a rfl).1
  have hkf : ∀ b, builtin? (match (generalizing := false) key with | some k => k.value | none => str! "do") = some b → S.uses b := by
    intro b hb
    cases key with
    | none => cases hb; exact hdo
    | some a =>
      obtain ⟨_, r, n, hr, ht, hn, hg⟩ := h3 a rfl
      have hr' : r = optionalNamed (str! "key") (.symbol []) := by
        have : sortSchema.find? (fun r => r.pattern (.str (str! "key"))) = some (optionalNamed (str! "key") (.symbol [])) := rfl
        rw [this] at hr
        exact (Option.some.inj hr).symm
      subst hr'
      cases ht with
      | symbol ps c _ =>
        cases hn
        exact hu _ b hg.name hb
  cases arg with
  | list nodes site e w =>
    refine Snd.bind (sortKeys_snd hkf hr hl hc hks h1.1.kids) fun items hi => Snd.pure (goods_one (good_list (layoutOf_good ?_) h1.1.site h1.1.close))
    intro n hn
    obtain ⟨p, hp, rfl⟩ := List.mem_map.1 hn
    exact hi p ((List.mergeSort_perm _ _).subset hp)
  | _ => exact Snd.fail h1.1.site

theorem joinMacro_snd (hr : RecSnd S strict rec) (hc : Good S call) (hp : Goods S ps) :
    Snd S strict (Goods S) (joinMacro rec call ps) :=
  Snd.bind (expandNodes_snd hr hp) fun _ hv => Snd.bind (arguments_snd hc hv) fun _ ha =>
    Snd.bind (Snd.lift (posNode_snd ha hc 1 rfl)) fun _ _ =>
    Snd.bind (Snd.lift (opt_snd ha (str! "trailing") rfl)) fun _ _ =>
    Snd.bind (Snd.lift (restNodes_snd ha rfl)) fun _ _ => Snd.pure (goods_one (good_string hc.site))

theorem concatMacro_snd (hr : RecSnd S strict rec) (hc : Good S call) (hp : Goods S ps) :
    Snd S strict (Goods S) (concatMacro rec call ps) :=
  Snd.bind (expandNodes_snd hr hp) fun _ hv => Snd.bind (arguments_snd hc hv) fun _ ha =>
    Snd.bind (Snd.lift (restNodes_snd ha rfl)) fun _ _ => Snd.pure (goods_one (good_string hc.site))

theorem mapLoop_snd {f : Str} (hu : ∀ b, builtin? f = some b → S.uses b) (hr : RecSnd S strict rec)
    (hl : call.list?.isSome = true) (hc : Good S call) :
    ∀ {ns : List PNode}, Goods S ns → Snd S strict (Goods S) (mapLoop rec call f ns)
  | [], _ => Snd.pure goods_nil
  | _ :: _, h => Snd.bind (hr.invoke _ _ _ hl hu hc (goods_one h.head)) fun _ h1 =>
      Snd.bind (mapLoop_snd hu hr hl hc h.tail) fun _ h2 => Snd.pure (h1.append h2)

theorem mapMacro_snd (hu : ∀ t b, S.mark (.name t) → builtin? t = some b → S.uses b) (hr : RecSnd S strict rec) (hl : call.list?.isSome = true) (hc : Good S call) (hp : Goods S ps) :
    Snd S strict (Goods S) (mapMacro rec call ps) :=
  Snd.bind (expandNodes_snd hr hp) fun _ hv => Snd.bind (arguments_snd hc hv) fun _ ha =>
    Snd.bind (Snd.lift (posSymbol_snd ha hc 1 rfl)) fun _ h1 => mapLoop_snd (fun b => hu _ b h1) hr hl hc (trailing_goods ha)

theorem filterLoop_snd {f : Str} (hu : ∀ b, builtin? f = some b → S.uses b) (hr : RecSnd S strict rec)
    (hl : call.list?.isSome = true) (hc : Good S call) :
    ∀ {ns : List PNode}, Goods S ns → Snd S strict (Goods S) (filterLoop rec call f ns)
  | [], _ => Snd.pure goods_nil
  | _ :: _, h => Snd.bind (hr.invoke _ _ _ hl hu hc (goods_one h.head)) fun _ h1 =>
      Snd.bind (filterLoop_snd hu hr hl hc h.tail) fun _ h2 => Snd.pure (by split; exact h2; exact h1.append h2)

theorem filterMacro_snd (hu : ∀ t b, S.mark (.name t) → builtin? t = some b → S.uses b) (hr : RecSnd S strict rec) (hl : call.list?.isSome = true) (hc : Good S call) (hp : Goods S ps) :
    Snd S strict (Goods S) (filterMacro rec call ps) :=
  Snd.bind (expandNodes_snd hr hp) fun _ hv => Snd.bind (arguments_snd hc hv) fun _ ha =>
    Snd.bind (Snd.lift (posSymbol_snd ha hc 1 rfl)) fun _ h1 => filterLoop_snd (fun b => hu _ b h1) hr hl hc (trailing_goods ha)

theorem splat_good : ∀ {ns : List PNode}, Goods S ns → Goods S (splat ns)
  | [], _ => goods_nil
  | n :: ns, h => by
    have ih := splat_good h.tail
    cases n with
    | list ms s e w => exact (h.head.kids.firstLw w).append ih
    | _ => exact goods_cons h.head ih

theorem splatMacro_snd (hr : RecSnd S strict rec) (hp : Goods S ps) : Snd S strict (Goods S) (splatMacro rec ps) :=
  Snd.bind (expandNodes_snd hr hp) fun _ hv => Snd.pure (splat_good hv)

theorem listMacro_snd (hr : RecSnd S strict rec) (hl : call.list?.isSome = true) (hc : Good S call) (hp : Goods S ps) :
    Snd S strict (Goods S) (listMacro rec call ps) := by
  refine Snd.bind (expandNodes_snd hr hp) fun vs hv => ?_
  cases call with
  | list ns s e w => exact Snd.pure (goods_one (good_list hv hc.site hc.close))
  | _ => simp [PNode.list?] at hl

theorem stripMacro_snd (hr : RecSnd S strict rec) (hp : Goods S ps) : Snd S strict (Goods S) (stripMacro rec ps) :=
  Snd.bind (expandNodes_snd hr hp) fun _ hv => Snd.pure (hv.firstLw _)

theorem applyMacro_snd (hu : ∀ t b, S.mark (.name t) → builtin? t = some b → S.uses b) (hr : RecSnd S strict rec) (hl : call.list?.isSome = true) (hc : Good S call) (hp : Goods S ps) :
    Snd S strict (Goods S) (applyMacro rec call ps) :=
  Snd.bind (expandNodes_snd hr hp) fun _ hv => Snd.bind (arguments_snd hc hv) fun _ ha =>
    Snd.bind (Snd.lift (posSymbol_snd ha hc 1 rfl)) fun _ h1 => hr.invoke _ _ _ hl (fun b => hu _ b h1) hc (trailing_goods ha)

theorem lambdaMacro_snd (hm : ∀ s, S.mark (.name (str! "__lambda" ++ ext.uuid s))) (hc : Good S call) (hp : Goods S ps) : Snd S strict (Goods S) (lambdaMacro ext call ps) := by
  unfold lambdaMacro
  refine Snd.bind (arguments_snd hc hp) fun args ha => Snd.bind (Snd.lift (pos_snd ha hc 1)) fun head h1 => ?_
  have hnext : ∀ {al : List PNode}, Goods S al → Snd S strict (Goods S) (do
      createMacro (str! "__lambda" ++ ext.uuid call.site) al args.trailing
      pure [.symbol (callNode call (str! "__lambda" ++ ext.uuid call.site))]) := fun h =>
    Snd.bind (createMacro_snd h (trailing_goods ha)) fun _ _ => Snd.pure (goods_one (good_symbol hc.site (hm _)))
  cases head with
  | list ns s e w => exact Snd.bind (Snd.pure h1.1.kids) fun _ h => hnext h
  | symbol a => exact Snd.bind (Snd.pure (goods_one h1.1)) fun _ h => hnext h
  | _ => exact Snd.bind (Q := Goods S) (Snd.fail h1.1.site) fun _ h => hnext h

theorem userMacro_snd (hr : RecSnd S strict rec) {name : Str} (hc : Good S call) (hp : Goods S ps) :
    Snd S strict (Goods S) (userMacro rec name call ps) := by
  refine Snd.bind (expandNodes_snd hr hp) fun vs hv => Snd.bind (Snd.lookup name) fun d hd => ?_
  cases d with
  | none => exact Snd.fail hc.site
  | some m => exact Snd.inner (Snd.bind (bindList_snd hc.site (hd m rfl).1 hv) fun _ _ => expandNodes_snd hr (hd m rfl).2)

theorem runBuiltin_snd (he : ExtSnd S strict ext) (hr : RecSnd S strict rec) {b : Builtin} (hu : S.uses b)
    (hl : call.list?.isSome = true) (hc : Good S call) (hp : Goods S ps) : Snd S strict (Goods S) (runBuiltin ext rec b call ps) := by
  cases b with
  | define => exact defineMacro_snd hr hc hp
  | match_ => exact matchMacro_snd hr hc hp
  | ifdef => exact ifdefMacro_snd hr hc hp
  | do_ => exact expandNodes_snd hr hp
  | include_ => exact includeMacro_snd he hu hr hc hp
  | namespace_ => exact namespaceMacro_snd hr hc hp
  | for_ => exact forMacro_snd hr hc hp
  | lambda => exact lambdaMacro_snd (he.src.lambda hu) hc hp
  | splat => exact splatMacro_snd hr hp
  | strip => exact stripMacro_snd hr hp
  | get => exact getMacro_snd hr hc hp
  | raw => exact rawMacro_snd (he.src.raw hu) hr hc hp
  | string => exact stringMacro_snd hr hc hp
  | number => exact numberMacro_snd hr hc hp
  | symbol => exact symbolMacro_snd (he.src.symbol hu) hr hc hp
  | embed => exact embedMacro_snd hr hc hp
  | toml => exact tomlMacro_snd he hu hr hc hp
  | reverse => exact reverseMacro_snd hr hc hp
  | join => exact joinMacro_snd hr hc hp
  | concat => exact concatMacro_snd hr hc hp
  | log => exact logMacro_snd hr hc hp
  | format => exact formatMacro_snd hr hc hp
  | osEnv => exact osEnvMacro_snd hr hc hp
  | markdown => exact markdownMacro_snd he hu hr hc hp
  | yaml => exact yamlMacro_snd he hu hr hc hp
  | glob => exact globMacro_snd he hr hc hp
  | date => exact dateMacro_snd he hr hc hp
  | timestamp => exact timestampMacro_snd he hr hc hp
  | sort => exact sortMacro_snd (he.src.sort hu) (he.src.indirect _ (by simp) hu) hr hl hc hp
  | map => exact mapMacro_snd (he.src.indirect _ (by simp) hu) hr hl hc hp
  | filter => exact filterMacro_snd (he.src.indirect _ (by simp) hu) hr hl hc hp
  | list => exact listMacro_snd hr hl hc hp
  | apply => exact applyMacro_snd (he.src.indirect _ (by simp) hu) hr hl hc hp

theorem expandInvocation_snd (he : ExtSnd S strict ext) (hr : RecSnd S strict rec) {name : Str} (hl : call.list?.isSome = true)
    (hu : ∀ b, builtin? name = some b → S.uses b) (hc : Good S call) (hp : Goods S ps) : Snd S strict (Goods S) (expandInvocation ext rec name call ps) := by
  unfold expandInvocation
  split
  · rename_i b hb
    exact runBuiltin_snd he hr (hu b hb) hl hc hp
  · exact userMacro_snd hr hc hp

theorem expandVariable_snd (hr : RecSnd S strict rec) {a : Node} {name : Str} (ha : S a.site) :
    Snd S strict (Goods S) (expandVariable rec a name) := by
  refine Snd.bind (Snd.lookup name) fun d hd => ?_
  cases d with
  | none => exact Snd.fail ha
  | some m =>
    dsimp only
    split
    · exact Snd.bind (expandNodes_snd hr (hd m rfl).2) fun _ h => Snd.pure (h.firstLw _)
    · exact Snd.fail ha

theorem macroName?_some : ∀ {v name : Str}, macroName? v = some name → v = '%' :: name
  | [], _, h => by cases h
  | c :: v, name, h => by
    unfold macroName? at h
    split at h
    · simp only [Option.some.injEq] at h; simp_all
    · cases h

/-- Any node that is not a keyword, and any keyword if panics are allowed. -/
theorem expandNode_snd (hcall : ∀ t b, S.mark (.name ('%' :: t)) → builtin? t = some b → S.uses b) (hr : RecSnd S strict rec) {n : PNode} (hn : Good S n) (ha : strict → n.attribute? = none) :
    Snd S strict (Goods S) (expandNode rec n) := by
  cases n with
  | symbol a =>
    simp only [expandNode]
    split
    · exact expandVariable_snd hr hn.site
    · exact Snd.pure (goods_one hn)
  | list ns s e w =>
    cases ns with
    | nil => exact Snd.pure (goods_one hn)
    | cons h t =>
      simp only [expandNode]
      split
      · rename_i name hh
        refine hr.invoke _ _ _ rfl (fun b hb => hcall name b ?_ hb) hn hn.kids.tail.trimFirst
        have hg := hn.kids.head
        cases h with
        | symbol a =>
          have : a.value = '%' :: name := macroName?_some hh
          exact this ▸ hg.name
        | _ => cases hh
      · exact Snd.bind (expandNodes_snd hr hn.kids) fun _ h => Snd.pure (goods_one (good_list h hn.site hn.close))
  | attr k v s w =>
    refine Snd.bind (hr.node _ hn.value) fun ns h => ?_
    cases ns with
    | nil => exact Snd.panic fun hs => by simpa [PNode.attribute?] using ha hs
    | cons n' rest => exact Snd.pure (goods_cons (good_attr h.head hn.site hn.key) h.tail)
  | _ => exact Snd.pure (goods_one hn)

theorem run_snd (he : ExtSnd S False ext) : ∀ fuel, RecSnd S False (run ext fuel)
  | 0 => ⟨fun _ => grow.lift _, fun _ _ => Snd.lift trivial, fun _ _ _ _ _ _ _ => Snd.lift trivial⟩
  | fuel + 1 => ⟨run_closed grow ext _, fun _ h => expandNode_snd he.src.call (run_snd he fuel) h False.elim,
      fun _ _ _ hl hu hc hp => expandInvocation_snd he (run_snd he fuel) hl hu hc hp⟩

end

end Seam
