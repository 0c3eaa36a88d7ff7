import Verif.Lemmas.Get
import Verif.Spec.Data

/-! # YAML and TOML documents -/

namespace Seam
open Spec

/-! ## The definitions made for a document, in order -/

mutual
/-- The definitions for the parts of some data; `vl table first d` is the whitespace of
the value of the variable. -/
def defsIn (vl : Bool → Bool → Data → Str) (site : Site) (sep : Str) (pref : List Str) : Data → List (Str × PNode)
  | .items ds => defsItems vl site sep pref 0 ds
  | .entries es => defsEntries vl site sep pref true es
  | _ => []
def defsItems (vl : Bool → Bool → Data → Str) (site : Site) (sep : Str) (pref : List Str) (i : Nat) :
    List Data → List (Str × PNode)
  | [] => []
  | d :: ds => defsIn vl site sep (natStr i :: pref) d ++
      (qualified sep pref (natStr i), dataNode site (vl false (i == 0) d) d) :: defsItems vl site sep pref (i + 1) ds
def defsEntries (vl : Bool → Bool → Data → Str) (site : Site) (sep : Str) (pref : List Str) (first : Bool) :
    List (Str × Data) → List (Str × PNode)
  | [] => []
  | (k, d) :: es => defsIn vl site sep (k :: pref) d ++
      (qualified sep pref k, dataNode site (vl true first d) d) :: defsEntries vl site sep pref false es
end

/-- A state after some definitions. -/
def St.defs (s : St) : List (Str × PNode) → St
  | [] => s
  | x :: xs => St.defs { s with scope := s.scope.insert x.1 (Macro.var [x.2]) } xs

theorem St.defs_append (s : St) (xs ys : List (Str × PNode)) : s.defs (xs ++ ys) = (s.defs xs).defs ys := by
  induction xs generalizing s with
  | nil => rfl
  | cons x xs ih => exact ih _

theorem St.defs_only (s : St) (xs : List (Str × PNode)) : s.defs xs = { s with scope := (s.defs xs).scope } := by
  induction xs generalizing s with
  | nil => rfl
  | cons x xs ih =>
    show St.defs _ xs = _
    rw [ih]
    rfl

theorem insert_same (sc : Scope) (k : Str) (m : Macro) : sc.insert k m k = some m := by simp [Scope.insert]

theorem insert_other (sc : Scope) {k n : Str} (m : Macro) (h : n ≠ k) : sc.insert k m n = sc n := by
  unfold Scope.insert
  exact if_neg (by simpa using h)

theorem St.defs_other (xs : List (Str × PNode)) (n : Str) : ∀ s : St, (∀ x ∈ xs, x.1 ≠ n) → (s.defs xs).scope n = s.scope n := by
  induction xs with
  | nil => intro s _; rfl
  | cons x xs ih =>
    intro s h
    show (St.defs _ xs).scope n = _
    rw [ih _ (fun y hy => h y (List.mem_cons_of_mem _ hy))]
    exact insert_other _ _ (Ne.symm (h x List.mem_cons_self))

theorem St.defs_some (xs : List (Str × PNode)) (n : Str) : ∀ s : St, (∃ x ∈ xs, x.1 = n) →
    ∃ x ∈ xs, x.1 = n ∧ (s.defs xs).scope n = some (Macro.var [x.2]) := by
  induction xs with
  | nil => intro s h; obtain ⟨x, hx, _⟩ := h; cases hx
  | cons x xs ih =>
    intro s h
    by_cases hl : ∃ y ∈ xs, y.1 = n
    · obtain ⟨y, h1, h2, h3⟩ := ih { s with scope := s.scope.insert x.1 (Macro.var [x.2]) } hl
      exact ⟨y, List.mem_cons_of_mem _ h1, h2, h3⟩
    · have hx : x.1 = n := by
        obtain ⟨y, hy, e⟩ := h
        rcases List.mem_cons.1 hy with rfl | hy
        · exact e
        · exact absurd ⟨y, hy, e⟩ hl
      refine ⟨x, List.mem_cons_self, hx, ?_⟩
      show (St.defs _ xs).scope n = _
      rw [St.defs_other xs n _ (fun y hy e => hl ⟨y, hy, e⟩), ← hx]
      exact insert_same _ _ _

/-! ## Names and paths -/

theorem intercalate_cons (sep a : Str) (bs : List Str) :
    sep.intercalate (a :: bs) = if bs.isEmpty then a else a ++ sep ++ sep.intercalate bs := by
  cases bs with
  | nil => simp [List.intercalate]
  | cons b bs => simp [List.intercalate]

theorem joinStr_intercalate (sep : Str) : ∀ ss : List Str, joinStr sep ss = sep.intercalate ss
  | [] => by simp [joinStr, List.intercalate]
  | [s] => by simp [joinStr, List.intercalate]
  | s :: t :: ss => by
    rw [joinStr, joinStr_intercalate sep (t :: ss), intercalate_cons sep s (t :: ss)]
    rfl

theorem intercalate_append (sep : Str) : ∀ (as bs : List Str), as ≠ [] → bs ≠ [] →
    sep.intercalate (as ++ bs) = sep.intercalate as ++ sep ++ sep.intercalate bs
  | [], _, h, _ => absurd rfl h
  | [a], bs, _, h => by
    rw [List.singleton_append, intercalate_cons, intercalate_cons sep a [], if_neg (by simpa using h)]
    rfl
  | a :: b :: as, bs, _, h => by
    rw [List.cons_append, intercalate_cons, if_neg (by simp), intercalate_append sep (b :: as) bs (by simp) h,
      intercalate_cons sep a (b :: as), if_neg (by simp)]
    simp

theorem qualified_intercalate (sep : Str) (pref : List Str) (name : Str) :
    qualified sep pref name = sep.intercalate (pref.reverse ++ [name]) := by
  unfold qualified
  cases pref with
  | nil => simp [List.intercalate]
  | cons p ps =>
    rw [if_neg (by simp), joinStr_intercalate, intercalate_append _ _ _ (by simp) (by simp), intercalate_cons sep name []]
    rfl

/-- The definitions are the paths. -/
def DefsPaths (site : Site) (sep : Str) (pref : List Str) (P : List Str → Data → Prop) (xs : List (Str × PNode)) : Prop :=
  (∀ x ∈ xs, ∃ p d w, P p d ∧ p ≠ [] ∧ x = (sep.intercalate (pref.reverse ++ p), dataNode site w d)) ∧
  ∀ p d, P p d → p ≠ [] → ∃ x ∈ xs, x.1 = sep.intercalate (pref.reverse ++ p)

/-- Paths into items that start at index `i`. -/
inductive SubItems (i : Nat) (ds : List Data) : List Str → Data → Prop
  | mk (j : Nat) (d d' : Data) (p : List Str) : ds[j]? = some d → Sub d p d' → SubItems i ds (natStr (i + j) :: p) d'

inductive SubEntries (es : List (Str × Data)) : List Str → Data → Prop
  | mk (k : Str) (d d' : Data) (p : List Str) : (k, d) ∈ es → Sub d p d' → SubEntries es (k :: p) d'

mutual
theorem defsIn_paths (vl : Bool → Bool → Data → Str) (site : Site) (sep : Str) : ∀ (pref : List Str) (d : Data),
    DefsPaths site sep pref (Sub d) (defsIn vl site sep pref d)
  | pref, .items ds => by
    obtain ⟨h1, h2⟩ := defsItems_paths vl site sep pref 0 ds
    refine ⟨fun x hx => ?_, fun p d hp hn => ?_⟩
    · obtain ⟨p, d, w, hP, hn, e⟩ := h1 x hx
      refine ⟨p, d, w, ?_, hn, e⟩
      obtain ⟨j, d0, d', p, hj, hs⟩ := hP
      rw [Nat.zero_add]
      exact .item ds j d0 _ p hj hs
    · cases hp with
      | here => exact absurd rfl hn
      | item _ i d0 _ p hi hs =>
        refine h2 (natStr i :: p) d ?_ hn
        have := SubItems.mk (i := 0) (ds := ds) i d0 d p hi hs
        rwa [Nat.zero_add] at this
  | pref, .entries es => by
    obtain ⟨h1, h2⟩ := defsEntries_paths vl site sep pref true es
    refine ⟨fun x hx => ?_, fun p d hp hn => ?_⟩
    · obtain ⟨p, d, w, hP, hn, e⟩ := h1 x hx
      refine ⟨p, d, w, ?_, hn, e⟩
      obtain ⟨k, d0, d', p, hj, hs⟩ := hP
      exact .entry es k d0 _ p hj hs
    · cases hp with
      | here => exact absurd rfl hn
      | entry _ k d0 _ p hi hs => exact h2 (k :: p) d (.mk k d0 d p hi hs) hn
  | pref, .text v => ⟨fun x hx => (nomatch hx), fun p d hp hn => by cases hp; exact absurd rfl hn⟩
  | pref, .number v => ⟨fun x hx => (nomatch hx), fun p d hp hn => by cases hp; exact absurd rfl hn⟩
  | pref, .symbol v => ⟨fun x hx => (nomatch hx), fun p d hp hn => by cases hp; exact absurd rfl hn⟩
theorem defsItems_paths (vl : Bool → Bool → Data → Str) (site : Site) (sep : Str) : ∀ (pref : List Str) (i : Nat) (ds : List Data),
    DefsPaths site sep pref (SubItems i ds) (defsItems vl site sep pref i ds)
  | pref, i, [] => ⟨fun x hx => (nomatch hx), fun p d hp hn => by
      obtain ⟨j, d0, _, p, hj, _⟩ := hp
      simp at hj⟩
  | pref, i, d :: ds => by
    obtain ⟨a1, a2⟩ := defsIn_paths vl site sep (natStr i :: pref) d
    obtain ⟨b1, b2⟩ := defsItems_paths vl site sep pref (i + 1) ds
    rw [defsItems]
    refine ⟨fun x hx => ?_, fun p d' hp hn => ?_⟩
    · rcases List.mem_append.1 hx with hx | hx
      · obtain ⟨p, d', w, hP, hn, e⟩ := a1 x hx
        exact ⟨natStr i :: p, d', w, .mk 0 d d' p rfl hP, by simp, by rw [e]; simp⟩
      · rcases List.mem_cons.1 hx with rfl | hx
        · exact ⟨[natStr i], d, _, .mk 0 d d [] rfl (.here d), by simp, by rw [qualified_intercalate]⟩
        · obtain ⟨p, d', w, hP, hn, e⟩ := b1 x hx
          refine ⟨p, d', w, ?_, hn, e⟩
          obtain ⟨j, d0, _, p, hj, hs⟩ := hP
          have := SubItems.mk (i := i) (ds := d :: ds) (j + 1) d0 d' p (by simpa using hj) hs
          rwa [show i + (j + 1) = i + 1 + j by omega] at this
    · obtain ⟨j, d0, _, p, hj, hs⟩ := hp
      cases j with
      | zero =>
        simp only [List.getElem?_cons_zero, Option.some.injEq] at hj
        subst hj
        show ∃ x : Str × PNode, x ∈ _ ∧ x.1 = sep.intercalate (pref.reverse ++ natStr i :: p)
        cases p with
        | nil => exact ⟨_, List.mem_append_right _ List.mem_cons_self, by rw [qualified_intercalate]⟩
        | cons a p =>
          obtain ⟨x, hx, e⟩ := a2 (a :: p) d' hs (by simp)
          exact ⟨x, List.mem_append_left _ hx, by rw [e]; simp⟩
      | succ j =>
        have := SubItems.mk (i := i + 1) (ds := ds) j d0 d' p (by simpa using hj) hs
        rw [show i + 1 + j = i + (j + 1) by omega] at this
        obtain ⟨x, hx, e⟩ := b2 _ d' this (by simp)
        exact ⟨x, List.mem_append_right _ (List.mem_cons_of_mem _ hx), e⟩
theorem defsEntries_paths (vl : Bool → Bool → Data → Str) (site : Site) (sep : Str) : ∀ (pref : List Str) (first : Bool)
    (es : List (Str × Data)), DefsPaths site sep pref (SubEntries es) (defsEntries vl site sep pref first es)
  | pref, first, [] => ⟨fun x hx => (nomatch hx), fun p d hp hn => by
      obtain ⟨k, d0, _, p, hj, _⟩ := hp
      cases hj⟩
  | pref, first, (k, d) :: es => by
    obtain ⟨a1, a2⟩ := defsIn_paths vl site sep (k :: pref) d
    obtain ⟨b1, b2⟩ := defsEntries_paths vl site sep pref false es
    rw [defsEntries]
    refine ⟨fun x hx => ?_, fun p d' hp hn => ?_⟩
    · rcases List.mem_append.1 hx with hx | hx
      · obtain ⟨p, d', w, hP, hn, e⟩ := a1 x hx
        exact ⟨k :: p, d', w, .mk k d d' p List.mem_cons_self hP, by simp, by rw [e]; simp⟩
      · rcases List.mem_cons.1 hx with rfl | hx
        · exact ⟨[k], d, _, .mk k d d [] List.mem_cons_self (.here d), by simp, by rw [qualified_intercalate]⟩
        · obtain ⟨p, d', w, hP, hn, e⟩ := b1 x hx
          refine ⟨p, d', w, ?_, hn, e⟩
          obtain ⟨k', d0, _, p, hj, hs⟩ := hP
          exact .mk k' d0 d' p (List.mem_cons_of_mem _ hj) hs
    · obtain ⟨k', d0, _, p, hj, hs⟩ := hp
      rcases List.mem_cons.1 hj with e | hj
      · cases e
        cases p with
        | nil => exact ⟨_, List.mem_append_right _ List.mem_cons_self, by rw [qualified_intercalate]⟩
        | cons a p =>
          obtain ⟨x, hx, e⟩ := a2 (a :: p) d' hs (by simp)
          exact ⟨x, List.mem_append_left _ hx, by rw [e]; simp⟩
      · obtain ⟨x, hx, e⟩ := b2 _ d' (.mk k' d0 d' p hj hs) (by simp)
        exact ⟨x, List.mem_append_right _ (List.mem_cons_of_mem _ hx), e⟩
end

theorem defs_definesPaths (vl : Bool → Bool → Data → Str) (site : Site) (sep : Str) (d : Data) (s : St) :
    DefinesPaths site sep d s.scope (s.defs (defsIn vl site sep [] d)).scope := by
  obtain ⟨h1, h2⟩ := defsIn_paths vl site sep [] d
  refine ⟨fun p d' hp hn => ?_, fun name hname => ?_⟩
  · obtain ⟨x, hx, e1, e2⟩ := St.defs_some _ (sep.intercalate p) s (h2 p d' hp hn)
    obtain ⟨p', d'', w, hp', hn', e⟩ := h1 x hx
    rw [e] at e1 e2
    exact ⟨p', d'', w, hp', hn', e1, e2⟩
  · apply St.defs_other
    intro x hx e
    obtain ⟨p', d'', w, hp', hn', e'⟩ := h1 x hx
    rw [e'] at e
    exact hname p' d'' hp' hn' e.symm

/-! ## TOML -/

def tomlVl (table first : Bool) (_ : Data) : Str := if table then [' '] else itemLw first

mutual
theorem tomlValue_run (site : Site) (sep : Str) : ∀ (v : TVal) (pref : List Str) (leading : Bool) (s : St),
    tomlValue site sep pref leading v s =
      (.ok (dataNode site (itemLw leading) (tomlData v)), s.defs (defsIn tomlVl site sep pref (tomlData v)))
  | .str v, pref, leading, s => rfl
  | .num v, pref, leading, s => rfl
  | .sym v, pref, leading, s => rfl
  | .arr vs, pref, leading, s => by
    have h : tomlArray site sep pref true 0 vs s = _ := tomlArray_run site sep vs pref 0 s
    rw [tomlValue, M.bind_ok h]
    rfl
  | .tab kvs, pref, leading, s => by
    rw [tomlValue, M.bind_ok (tomlTable_run site sep kvs pref true s)]
    rfl
theorem tomlArray_run (site : Site) (sep : Str) : ∀ (vs : List TVal) (pref : List Str) (i : Nat) (s : St),
    tomlArray site sep pref (i == 0) i vs s =
      (.ok (itemNodes site (i == 0) (tomlItems vs)), s.defs (defsItems tomlVl site sep pref i (tomlItems vs)))
  | [], pref, i, s => rfl
  | v :: vs, pref, i, s => by
    rw [tomlArray, M.bind_ok (tomlValue_run site sep v (natStr i :: pref) (i == 0) s), M.bind_ok (M.define_def _ _ _)]
    have := tomlArray_run site sep vs pref (i + 1)
      { s.defs (defsIn tomlVl site sep (natStr i :: pref) (tomlData v)) with
        scope := (s.defs (defsIn tomlVl site sep (natStr i :: pref) (tomlData v))).scope.insert
          (qualified sep pref (natStr i)) (Macro.var [dataNode site (itemLw (i == 0)) (tomlData v)]) }
    rw [show (i + 1 == 0) = false from rfl] at this
    rw [M.bind_ok this, tomlItems, defsItems, St.defs_append]
    rfl
theorem tomlTable_run (site : Site) (sep : Str) : ∀ (kvs : List (Str × TVal)) (pref : List Str) (first : Bool) (s : St),
    tomlTable site sep pref first kvs s =
      (.ok (entryNodes site first (tomlEntries kvs)), s.defs (defsEntries tomlVl site sep pref first (tomlEntries kvs)))
  | [], pref, first, s => rfl
  | (k, v) :: kvs, pref, first, s => by
    rw [tomlTable]
    rw [M.bind_ok (tomlValue_run site sep v (k :: pref) false s), M.bind_ok (M.define_def _ _ _),
      M.bind_ok (tomlTable_run site sep kvs pref false _), tomlEntries, defsEntries, St.defs_append]
    rfl
end

theorem expandToml_run (ext : Ext) (text sep : Str) (site : Site) (table : List (Str × TVal)) (s : St)
    (h : ext.toml text = some table) : expandToml ext text sep site s =
      (.ok [dataNode site [] (.entries (tomlEntries table))],
        s.defs (defsIn tomlVl site sep [] (.entries (tomlEntries table)))) := by
  unfold expandToml
  rw [h]
  simp only
  rw [M.bind_ok (tomlTable_run site sep table [] true s)]
  rfl

/-! ## YAML -/

def yamlVl (_ first : Bool) : Data → Str
  | .items _ | .entries _ => itemLw first
  | _ => [' ']

theorem yEvents_append (site : Site) (sep : Str) : ∀ (es es' : List YEvent) (k : YSink),
    yEvents site sep k (es ++ es') = (yEvents site sep k es >>= fun k => yEvents site sep k es')
  | [], es', k => rfl
  | e :: es, es', k => by
    rw [List.cons_append, yEvents, yEvents, M.bind_assoc]
    congr 1
    funext k'
    exact yEvents_append site sep es es' k'

theorem yEvents_filter (site : Site) (sep : Str) : ∀ (es : List YEvent) (k : YSink),
    yEvents site sep k es = yEvents site sep k (es.filter (· ≠ .other))
  | [], k => rfl
  | e :: es, k => by
    have ih := yEvents_filter site sep es
    by_cases h : e = .other
    · subst h
      rw [List.filter_cons_of_neg (by simp), ← ih, yEvents]
      rfl
    · rw [List.filter_cons_of_pos (by simpa using h), yEvents, yEvents]
      congr 1
      funext k'
      exact ih k'

theorem isEmpty_snoc {α : Type} (l : List α) (a : α) : (l ++ [a]).isEmpty = false := by simp

/-- What a value does to a sink that waits for one. -/
def yPush (site : Site) (d : Data) (k : YSink) : YSink :=
  match k.mode with
  | none => { k with nodes := k.nodes ++ [dataNode site (itemLw k.nodes.isEmpty) d] }
  | some .map =>
    { k with
      defining := none
      nodes := k.nodes ++ [.attr (k.defining.getD []) (dataNode site [' '] d) site (itemLw k.nodes.isEmpty)] }
  | some .seq =>
    { k with
      defining := some (natStr (k.nodes.length + 1))
      nodes := k.nodes ++ [dataNode site (itemLw k.nodes.isEmpty) d] }

/-- The definitions made for it. -/
def yDefs (site : Site) (sep : Str) (d : Data) (k : YSink) : List (Str × PNode) :=
  match k.defining with
  | none => defsIn yamlVl site sep k.pref d
  | some name => defsIn yamlVl site sep (name :: k.pref) d ++
      [(qualified sep k.pref name, dataNode site (yamlVl true k.nodes.isEmpty d) d)]

/-- A sink that waits for a value. -/
def Waits (k : YSink) : Prop :=
  (k.mode = none ∧ k.defining = none ∧ k.pref = [] ∧ k.modes = []) ∨
  (k.mode = some .map ∧ ∃ n, k.defining = some n) ∨
  (k.mode = some .seq ∧ ∃ n, k.defining = some n)

theorem yScalar_run (site : Site) (sep v : Str) (k : YSink) (hk : Waits k) (s : St) :
    yScalar site sep v k s = (.ok (yPush site (.text v) k), s.defs (yDefs site sep (.text v) k)) := by
  obtain ⟨defining, nodes, parent, pref, mode, modes⟩ := k
  rcases hk with ⟨h1, h2, h3, h4⟩ | ⟨h1, n, h2⟩ | ⟨h1, n, h2⟩
  · simp only at h1 h2 h3 h4
    subst h1 h2 h3 h4
    rfl
  · simp only at h1 h2
    subst h1 h2
    rfl
  · simp only at h1 h2
    subst h1 h2
    rfl

theorem yEnd_run (site : Site) (sep : Str) (k k' : YSink) (m : YMode) (d : Data) (s : St) (hk : Waits k)
    (hd : ∀ lw, dataNode site lw d = .list k'.nodes site (dreadedRparen site) lw)
    (hv : ∀ t f, yamlVl t f d = itemLw f)
    (h1 : k'.parent = (yStart m k).parent) (h2 : k'.pref = (yStart m k).pref) (h3 : k'.modes = (yStart m k).modes) :
    yEnd site sep k' s = (.ok (yPush site d k),
      match k.defining with
      | none => s
      | some name => s.defs [(qualified sep k.pref name, dataNode site (yamlVl true k.nodes.isEmpty d) d)]) := by
  obtain ⟨defining, nodes, parent, pref, mode, modes⟩ := k
  obtain ⟨defining', nodes', parent', pref', mode', modes'⟩ := k'
  simp only [yStart] at h1 h2 h3 hd
  subst h1 h2 h3
  rcases hk with ⟨h1, h2, h3, h4⟩ | ⟨h1, n, h2⟩ | ⟨h1, n, h2⟩
  · simp only at h1 h2 h3 h4
    subst h1 h2 h3 h4
    simp only [yPush, hd]
    rfl
  · simp only at h1 h2
    subst h1 h2
    simp only [yPush, hd, hv]
    rfl
  · simp only at h1 h2
    subst h1 h2
    simp only [yPush, hd, hv]
    rfl

mutual
theorem y_value (site : Site) (sep : Str) : ∀ {d : Data} {es : List YEvent}, YamlOf d es → ∀ (k : YSink) (s : St), Waits k →
    yEvents site sep k es s = (.ok (yPush site d k), s.defs (yDefs site sep d k))
  | _, _, .text v, k, s, hk => by
    rw [yEvents, M.bind_ok (show yEvent site sep k (.scalar v) s = _ from yScalar_run site sep v k hk s)]
    rfl
  | _, _, .items ds es h, k, s, hk => by
    rw [List.cons_append, yEvents, M.bind_ok (show yEvent site sep k .seqStart s = (.ok (yStart .seq k), s) from rfl),
      yEvents_append, M.bind_ok (y_items site sep h (yStart .seq k) s rfl (show some ['0'] = some (natStr 0) by decide)), yEvents]
    have he := yEnd_run site sep k (m := .seq) (d := .items ds) (s.defs (defsItems yamlVl site sep (yStart .seq k).pref 0 ds)) hk
      (k' := { yStart .seq k with defining := some (natStr (0 + ds.length)), nodes := [] ++ itemNodes site true ds })
      (fun lw => by rw [dataNode]; rfl) (fun _ _ => rfl) rfl rfl rfl
    refine (M.bind_ok he).trans ?_
    rw [yEvents, M.pure_def]
    congr 1
    unfold yDefs
    cases hd : k.defining with
    | none => simp [yStart, hd, defsIn]
    | some n => simp [yStart, hd, defsIn, St.defs_append]
  | _, _, .entries kvs es h, k, s, hk => by
    obtain ⟨dfn, hy⟩ := y_entries site sep h (yStart .map k) s rfl rfl
    rw [List.cons_append, yEvents, M.bind_ok (show yEvent site sep k .mapStart s = (.ok (yStart .map k), s) from rfl),
      yEvents_append, M.bind_ok hy, yEvents]
    have he := yEnd_run site sep k (m := .map) (d := .entries kvs) (s.defs (defsEntries yamlVl site sep (yStart .map k).pref true kvs)) hk
      (k' := { yStart .map k with defining := dfn, nodes := [] ++ entryNodes site true kvs })
      (fun lw => by rw [dataNode]; rfl) (fun _ _ => rfl) rfl rfl rfl
    refine (M.bind_ok he).trans ?_
    rw [yEvents, M.pure_def]
    congr 1
    unfold yDefs
    cases hd : k.defining with
    | none => simp [yStart, hd, defsIn]
    | some n => simp [yStart, hd, defsIn, St.defs_append]
theorem y_items (site : Site) (sep : Str) : ∀ {ds : List Data} {es : List YEvent}, YamlItems ds es → ∀ (k : YSink) (s : St),
    k.mode = some .seq → k.defining = some (natStr k.nodes.length) →
    yEvents site sep k es s = (.ok { k with
        defining := some (natStr (k.nodes.length + ds.length))
        nodes := k.nodes ++ itemNodes site k.nodes.isEmpty ds },
      s.defs (defsItems yamlVl site sep k.pref k.nodes.length ds))
  | _, _, .nil, k, s, h1, h2 => by
    obtain ⟨defining, nodes, parent, pref, mode, modes⟩ := k
    simp only at h1 h2
    subst h1 h2
    simp [yEvents, itemNodes, defsItems, St.defs, M.pure_def]
  | _, _, .cons d ds es es' h h', k, s, h1, h2 => by
    rw [yEvents_append, M.bind_ok (y_value site sep h k s (Or.inr (Or.inr ⟨h1, _, h2⟩)))]
    have hp : yPush site d k = { k with
        defining := some (natStr (k.nodes.length + 1))
        nodes := k.nodes ++ [dataNode site (itemLw k.nodes.isEmpty) d] } := by
      unfold yPush; rw [h1]
    have ih := y_items site sep h' { k with
        defining := some (natStr (k.nodes.length + 1))
        nodes := k.nodes ++ [dataNode site (itemLw k.nodes.isEmpty) d] } (s.defs (yDefs site sep d k)) h1 (by simp)
    rw [hp, ih]
    congr 1
    · simp only [List.append_assoc, List.length_append, List.length_cons, List.length_nil]
      congr 2
      · congr 2; omega
      · simp only [itemNodes, isEmpty_snoc]
        rfl
    · rw [defsItems, yDefs, h2]
      simp only [St.defs_append, List.length_append, List.length_cons, List.length_nil]
      have : k.nodes.isEmpty = (k.nodes.length == 0) := by cases k.nodes <;> rfl
      rw [this]
      cases d <;> rfl
theorem y_entries (site : Site) (sep : Str) : ∀ {kvs : List (Str × Data)} {es : List YEvent}, YamlEntries kvs es →
    ∀ (k : YSink) (s : St), k.mode = some .map → k.defining = none → ∃ dfn,
    yEvents site sep k es s = (.ok { k with defining := dfn, nodes := k.nodes ++ entryNodes site k.nodes.isEmpty kvs },
      s.defs (defsEntries yamlVl site sep k.pref k.nodes.isEmpty kvs))
  | _, _, .nil, k, s, h1, h2 => by
    refine ⟨k.defining, ?_⟩
    simp [yEvents, entryNodes, defsEntries, St.defs, M.pure_def]
  | _, _, .last key, k, s, h1, h2 => by
    have hs : yEvent site sep k (.scalar key) s = (.ok { k with defining := some key }, s) := by
      show yScalar site sep key k s = _
      unfold yScalar
      rw [h2, h1]
      rfl
    refine ⟨some key, ?_⟩
    rw [yEvents, M.bind_ok hs]
    simp [yEvents, entryNodes, defsEntries, St.defs, M.pure_def]
  | _, _, .cons key d kvs es es' h h', k, s, h1, h2 => by
    have hs : yEvent site sep k (.scalar key) s = (.ok { k with defining := some key }, s) := by
      show yScalar site sep key k s = _
      unfold yScalar
      rw [h2, h1]
      rfl
    rw [List.cons_append, yEvents, M.bind_ok hs, yEvents_append,
      M.bind_ok (y_value site sep h { k with defining := some key } s (Or.inr (Or.inl ⟨h1, key, rfl⟩)))]
    have hp : yPush site d { k with defining := some key } = { k with
        nodes := k.nodes ++ [.attr key (dataNode site [' '] d) site (itemLw k.nodes.isEmpty)] } := by
      unfold yPush
      simp only [h1, Option.getD_some, ← h2]
    obtain ⟨dfn, ih⟩ := y_entries site sep h' { k with
        nodes := k.nodes ++ [.attr key (dataNode site [' '] d) site (itemLw k.nodes.isEmpty)] }
      (s.defs (yDefs site sep d { k with defining := some key })) h1 h2
    refine ⟨dfn, ?_⟩
    rw [hp, ih]
    congr 1
    · simp only [entryNodes, isEmpty_snoc, List.append_assoc]
      rfl
    · rw [defsEntries, yDefs]
      simp only [St.defs_append]
      have : (k.nodes ++ [PNode.attr key (dataNode site [' '] d) site (itemLw k.nodes.isEmpty)]).isEmpty = false := by simp
      rw [this]
      cases d <;> rfl
end

theorem expandYaml_run (ext : Ext) (text sep : Str) (site : Site) (d : Data) (es : List YEvent) (s : St)
    (h : ext.yaml text = (es, true)) (hd : YamlOf d (es.filter (· ≠ .other))) : expandYaml ext text sep site s =
      (.ok [dataNode site [] d], s.defs (defsIn yamlVl site sep [] d)) := by
  unfold expandYaml
  rw [h]
  simp only
  rw [yEvents_filter, M.bind_ok (y_value site sep hd YSink.init s (Or.inl ⟨rfl, rfl, rfl, rfl⟩))]
  rfl

/-! Documents with aliases. -/

theorem filter_aliases (n : Nat) : (itemEvents (List.replicate n .alias)).filter (· ≠ .other) = [] := by
  induction n with
  | zero => rfl
  | succ n ih =>
    rw [List.replicate_succ, itemEvents, List.filter_append, ih]
    rfl

theorem itemEvents_append (xs ys : List Yaml) : itemEvents (xs ++ ys) = itemEvents xs ++ itemEvents ys := by
  induction xs with
  | nil => rfl
  | cons x xs ih => simp only [List.cons_append, itemEvents, ih, List.append_assoc]

theorem entryEvents_flat : ∀ kvs : List (Yaml × Yaml), entryEvents kvs = itemEvents (kvs.flatMap fun (k, v) => [k, v])
  | [] => rfl
  | (k, v) :: kvs => by
    simp only [entryEvents, List.flatMap_cons, List.cons_append, List.nil_append, itemEvents, entryEvents_flat kvs, List.append_assoc]

mutual
theorem takenFor_yaml : ∀ {y : Yaml} {d : Data}, TakenFor y d → YamlOf d (y.events.filter (· ≠ .other))
  | _, _, .scalar v => .text v
  | _, _, .seq ys ds h => by
    have := takenItems_yaml h
    rw [Yaml.events, List.cons_append, List.filter_cons_of_pos (by decide), List.filter_append]
    exact .items ds _ this
  | _, _, .map kvs es h => by
    have := takenPairs_yaml h
    rw [Yaml.events, entryEvents_flat, List.cons_append, List.filter_cons_of_pos (by decide), List.filter_append]
    exact .entries es _ this
theorem takenItems_yaml : ∀ {ys : List Yaml} {ds : List Data}, TakenItems ys ds → YamlItems ds ((itemEvents ys).filter (· ≠ .other))
  | _, _, .nil => .nil
  | _, _, .alias ys ds h => by
    have h1 := takenItems_yaml h
    rw [itemEvents, List.filter_append]
    exact h1
  | _, _, .cons y ys d ds h h' => by
    have h1 := takenFor_yaml h
    have h2 := takenItems_yaml h'
    rw [itemEvents, List.filter_append]
    exact .cons d ds _ _ h1 h2
theorem takenPairs_yaml : ∀ {ys : List Yaml} {es : List (Str × Data)}, TakenPairs ys es → YamlEntries es ((itemEvents ys).filter (· ≠ .other))
  | _, _, .nil => .nil
  | _, _, .alias ys ds h => by
    have h1 := takenPairs_yaml h
    rw [itemEvents, List.filter_append]
    exact h1
  | _, _, .last k n => by
    rw [itemEvents, List.filter_append, filter_aliases]
    exact .last k
  | _, _, .cons k n y d ys es h h' => by
    have h1 := takenFor_yaml h
    have h2 := takenPairs_yaml h'
    rw [List.cons_append, itemEvents, itemEvents_append, itemEvents, List.filter_append, List.filter_append, List.filter_append, filter_aliases,
      List.nil_append]
    have h3 := YamlEntries.cons k d es _ _ h1 h2
    exact h3
end

/-- Reading some of the events does not panic or fail if reading all does not. -/
theorem yEvents_prefix {site : Site} {sep : Str} {es es' : List YEvent} {k k' : YSink} {s t : St}
    (h : yEvents site sep k (es ++ es') s = (.ok k', t)) : ∃ k₁ t₁, yEvents site sep k es s = (.ok k₁, t₁) := by
  rw [yEvents_append] at h
  obtain ⟨k₁, t₁, h1, _⟩ := M.bind_eq_ok h
  exact ⟨k₁, t₁, h1⟩

/-! ## The macros -/

theorem yaml_mem : (str! "yaml", schemaEntries [.string []] getKey, none) ∈ eagerMacros := by
  simp [eagerMacros, schemaEntries, getKey]
theorem json_mem : (str! "json", schemaEntries [.string []] getKey, none) ∈ eagerMacros := by
  simp [eagerMacros, schemaEntries, getKey]
theorem toml_mem : (str! "toml", schemaEntries [.string []] getKey, none) ∈ eagerMacros := by
  simp [eagerMacros, schemaEntries, getKey]

/-- A macro that takes a text and a separator. -/
theorem data_runs {ext : Ext} {name : Str} {args vs : List PNode} {c x : PNode} {a : Node} {o : Option Node}
    {b : Builtin} {F : Str → Str → M (List PNode)}
    (hb : builtin? name = some b) (hm : (name, schemaEntries [.string []] getKey, none) ∈ eagerMacros)
    (hF : ∀ rec, runBuiltin ext rec b c args = expandNodes rec args >>= fun vs =>
      arguments (rulesOf (schemaEntries [.string []] getKey)) none c vs >>= fun p =>
        M.lift (p.posNode c 1) >>= fun text => M.lift (p.opt (str! "separator")) >>= fun sep => F text.value (sepOf sep))
    (hc : IsCall name args c) {s u : St} (ha : Evals ext args s (.ok vs) u)
    (hp : positional vs = [x]) (hl : x = .string a ∨ x = .raw a)
    (hn : NamedArgs (fun k v => k = str! "separator" ∧ ∃ a, Literal v a) vs)
    (ho : Given (str! "separator") vs o) {r : Res (List PNode)} {t : St} :
    Evals ext [c] s r t ↔ r ≠ .diverge ∧ F a.value ((o.map (·.value)).getD ['/']) u = (r, t) := by
  have hlit : Literal x a := by
    rcases hl with rfl | rfl
    · exact .string a
    · exact .raw a
  obtain ⟨p, hp', h⟩ := eager_extract hc hb hm (H := fun vs p _ =>
      M.lift (p.posNode c 1) >>= fun text => M.lift (p.opt (str! "separator")) >>= fun sep => F text.value (sepOf sep))
    hF (fun _ _ => Mon.const _)
    ha (front := [x]) (back := []) hp (.cons _ _ _ _ (hasType_string_iff.2 ⟨a, hl⟩) .nil) (by simp)
    (fun k v s w hm => by
      obtain ⟨rfl, h⟩ := hn k v s w hm
      refine ⟨fun t ht => ?_, fun h => absurd (by simp [getKey]) (h (.literal []))⟩
      simp only [getKey, List.mem_singleton, Prod.mk.injEq, true_and] at ht
      subst ht
      exact hasType_literal_iff.2 h)
  rw [h]
  have h1 : p.posNode c 1 = .ok a := extracted_node hp' (i := 0) (by simp) (by rw [hp]; rfl) hlit c
  have h3 : p.opt (str! "separator") = .ok o := given_opt hp' ⟨_, by simp [getKey]; rfl⟩ ho
  rw [h1, h3]
  have hsep : sepOf o = (o.map (·.value)).getD ['/'] := by cases o <;> rfl
  rw [← hsep, runs_const]
  rfl

theorem yaml_runs {ext : Ext} {name : Str} {args vs : List PNode} {c x : PNode} {a : Node} {o : Option Node}
    (hname : name = str! "yaml" ∨ name = str! "json")
    (hc : IsCall name args c) {s u : St} (ha : Evals ext args s (.ok vs) u)
    (hp : positional vs = [x]) (hl : x = .string a ∨ x = .raw a)
    (hn : NamedArgs (fun k v => k = str! "separator" ∧ ∃ a, Literal v a) vs)
    (ho : Given (str! "separator") vs o) {r : Res (List PNode)} {t : St} :
    Evals ext [c] s r t ↔ r ≠ .diverge ∧ expandYaml ext a.value ((o.map (·.value)).getD ['/']) c.site u = (r, t) := by
  rcases hname with rfl | rfl
  · exact data_runs (b := .yaml) (F := fun x y => expandYaml ext x y c.site) rfl yaml_mem (fun _ => rfl) hc ha hp hl hn ho
  · exact data_runs (b := .yaml) (F := fun x y => expandYaml ext x y c.site) rfl json_mem (fun _ => rfl) hc ha hp hl hn ho

theorem toml_runs {ext : Ext} {args vs : List PNode} {c x : PNode} {a : Node} {o : Option Node}
    (hc : IsCall (str! "toml") args c) {s u : St} (ha : Evals ext args s (.ok vs) u)
    (hp : positional vs = [x]) (hl : x = .string a ∨ x = .raw a)
    (hn : NamedArgs (fun k v => k = str! "separator" ∧ ∃ a, Literal v a) vs)
    (ho : Given (str! "separator") vs o) {r : Res (List PNode)} {t : St} :
    Evals ext [c] s r t ↔ r ≠ .diverge ∧ expandToml ext a.value ((o.map (·.value)).getD ['/']) c.site u = (r, t) :=
  data_runs (b := .toml) (F := fun x y => expandToml ext x y c.site) rfl toml_mem (fun _ => rfl) hc ha hp hl hn ho

end Seam
