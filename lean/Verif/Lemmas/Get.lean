import Verif.Lemmas.Sort

/-! `%get`. -/

namespace Seam
open Spec

theorem parseUsize_iff {x : Str} {i : Nat} : parseUsize x = some i ↔ Numeral x i := by
  have key : ∀ ds : Str, (if ds.isEmpty then none else match digitsVal 0 ds with
      | some n => if n < 2 ^ 64 then some n else none
      | none => none) = some i ↔ ds ≠ [] ∧ (∀ d ∈ ds, '0' ≤ d ∧ d ≤ '9') ∧
        i = ds.foldl (fun n d => 10 * n + (d.toNat - '0'.toNat)) 0 ∧ i < 2 ^ 64 := by
    intro ds
    cases ds with
    | nil => simp
    | cons d ds =>
      rw [if_neg (by simp)]
      by_cases hd : ∀ e ∈ d :: ds, '0' ≤ e ∧ e ≤ '9'
      · rw [(digitsVal_iff (d :: ds) 0 (digitsOf (d :: ds))).2 ⟨hd, rfl⟩]
        show (if digitsOf (d :: ds) < 2 ^ 64 then some (digitsOf (d :: ds)) else none) = some i ↔
          d :: ds ≠ [] ∧ (∀ e ∈ d :: ds, '0' ≤ e ∧ e ≤ '9') ∧ i = digitsOf (d :: ds) ∧ i < 2 ^ 64
        by_cases hn : digitsOf (d :: ds) < 2 ^ 64
        · rw [if_pos hn]
          constructor
          · intro h; cases h; exact ⟨by simp, hd, rfl, hn⟩
          · rintro ⟨_, _, rfl, _⟩; rfl
        · rw [if_neg hn]
          constructor
          · intro h; cases h
          · rintro ⟨_, _, rfl, h⟩; exact absurd h hn
      · have : digitsVal 0 (d :: ds) = none := by
          cases h : digitsVal 0 (d :: ds) with
          | none => rfl
          | some n => exact absurd ((digitsVal_iff _ _ _).1 h).1 hd
        rw [this]
        simp only [reduceCtorEq, false_iff]
        exact fun h => hd h.2.1
  unfold Numeral parseUsize
  refine (key _).trans ?_
  split
  · constructor
    · rintro ⟨h1, h2⟩
      exact ⟨_, Or.inr rfl, h1, h2⟩
    · rintro ⟨ds, (rfl | h), h1, h2⟩
      · exact absurd rfl (digit_not_sign (h2.1 '+' (by simp))).1
      · cases h; exact ⟨h1, h2⟩
  · rename_i hne
    constructor
    · rintro ⟨h1, h2⟩
      exact ⟨_, Or.inl rfl, h1, h2⟩
    · rintro ⟨ds, (rfl | h), h1, h2⟩
      · exact ⟨h1, h2⟩
      · exact absurd h (hne _)

theorem findAttr_iff {k : Str} {n : PNode} : ∀ {ns : List PNode}, findAttr k ns = some n ↔ FirstNamed k ns n
  | [] => ⟨fun h => (by simp [findAttr] at h), fun h => by cases h⟩
  | m :: ns => by
    have ih := findAttr_iff (k := k) (n := n) (ns := ns)
    have hother : ∀ m : PNode, findAttr k (m :: ns) = findAttr k ns → (∀ v s w, m ≠ .attr k v s w) →
        (findAttr k (m :: ns) = some n ↔ FirstNamed k (m :: ns) n) := by
      intro m h1 h2
      rw [h1, ih]
      constructor
      · exact .later _ _ _ h2
      · intro h
        cases h with
        | here => exact absurd rfl (h2 _ _ _)
        | later _ _ _ _ h => exact h
    cases m with
    | attr k' v s w =>
      by_cases hk : k = k'
      · subst hk
        have : findAttr k (.attr k v s w :: ns) = some v := by simp [findAttr]
        rw [this]
        constructor
        · intro h; cases h; exact .here _ _ _ _
        · intro h
          cases h with
          | here => rfl
          | later _ _ _ h => exact absurd rfl (h _ _ _)
      · exact hother _ (by simp [findAttr, hk]) (by intro v s w h; cases h; exact hk rfl)
    | symbol => exact hother _ rfl (by simp)
    | number => exact hother _ rfl (by simp)
    | string => exact hother _ rfl (by simp)
    | raw => exact hother _ rfl (by simp)
    | list => exact hother _ rfl (by simp)

theorem getItem_cases (v : PNode) (x : Str) : (∃ n, getItem v x = .ok n) ∨ ∃ e, getItem v x = .err e := by
  unfold getItem
  split
  · exact Or.inr ⟨_, rfl⟩
  · split
    · exact Or.inl ⟨_, rfl⟩
    · split
      · exact Or.inl ⟨_, rfl⟩
      · exact Or.inr ⟨_, rfl⟩

theorem getItem_iff {v n : PNode} {x : Str} : getItem v x = .ok n ↔ ItemOf v x n := by
  constructor
  · intro h
    unfold getItem at h
    cases v with
    | list ns s e w =>
      simp only [PNode.list?] at h
      cases hi : (parseUsize x).bind (fun i => ns[i]?) with
      | some m =>
        rw [hi] at h
        cases h
        obtain ⟨i, h1, h2⟩ := Option.bind_eq_some_iff.1 hi
        exact .index ns s e w i rfl (parseUsize_iff.1 h1) h2
      | none =>
        rw [hi] at h
        cases ha : findAttr x ns with
        | none => simp [ha] at h
        | some m =>
          simp only [ha] at h
          cases h
          refine .name ns s e w rfl (fun i hi' => ?_) (findAttr_iff.1 ha)
          rw [← parseUsize_iff] at hi'
          rw [hi'] at hi
          exact hi
    | _ => simp [PNode.list?] at h
  · intro h
    unfold getItem
    cases h with
    | index ns s e w i h1 h2 h3 =>
      subst h1
      simp only [PNode.list?, parseUsize_iff.2 h2, Option.bind_some, h3]
    | name ns s e w h1 h2 h3 =>
      subst h1
      have : (parseUsize x).bind (fun i => ns[i]?) = none := by
        cases hx : parseUsize x with
        | none => rfl
        | some i => exact h2 i (parseUsize_iff.1 hx)
      simp only [PNode.list?, this, findAttr_iff.2 h3]

theorem getPath_cases : ∀ (path : List Str) (v : PNode), (∃ n, getPath v path = .ok n) ∨ ∃ e, getPath v path = .err e
  | [], v => Or.inl ⟨v, rfl⟩
  | x :: xs, v => by
    unfold getPath
    rcases getItem_cases v x with ⟨n, h⟩ | ⟨e, h⟩ <;> rw [h]
    · exact getPath_cases xs n
    · exact Or.inr ⟨e, rfl⟩

theorem getPath_append (v : PNode) : ∀ (xs ys : List Str), getPath v (xs ++ ys) = (getPath v xs >>= fun m => getPath m ys)
  | [], ys => rfl
  | x :: xs, ys => by
    simp only [List.cons_append, getPath]
    rcases getItem_cases v x with ⟨n, h⟩ | ⟨e, h⟩ <;> rw [h]
    · exact getPath_append n xs ys
    · rfl

/-! ## Splitting -/

theorem splitLoop_skip (sep : Str) (acc : Str) : ∀ (x rest : Str), splitLoop sep x.length acc (x ++ rest) = splitLoop sep 0 acc rest
  | [], rest => rfl
  | c :: x, rest => by
    exact splitLoop_skip sep acc x rest

theorem splitLoop_step (sep acc : Str) (c : Char) (cs : Str) : splitLoop sep 0 acc (c :: cs) =
    if sep.isPrefixOf (c :: cs) then acc :: splitLoop sep (sep.length - 1) [] cs else splitLoop sep 0 (acc ++ [c]) cs := rfl

theorem splitLoop_none (sep : Str) (hs : sep ≠ []) : ∀ (p acc : Str), (∀ a b, p ≠ a ++ sep ++ b) →
    splitLoop sep 0 acc p = [acc ++ p]
  | [], acc, _ => by simp [splitLoop]
  | c :: cs, acc, h => by
    unfold splitLoop
    have h1 : ¬ sep.isPrefixOf (c :: cs) = true := by
      intro h2
      obtain ⟨r, hr⟩ := List.isPrefixOf_iff_prefix.1 h2
      exact h [] r (by simp [hr])
    rw [if_neg h1, splitLoop_none sep hs cs (acc ++ [c]) fun a b hab => h (c :: a) b (by simp [hab])]
    simp

theorem splitLoop_first (sep : Str) (hs : sep ≠ []) : ∀ (p q acc : Str),
    (∀ a b, p ++ sep ++ q = a ++ sep ++ b → p.length ≤ a.length) →
    splitLoop sep 0 acc (p ++ sep ++ q) = (acc ++ p) :: splitLoop sep 0 [] q
  | [], q, acc, _ => by
    cases sep with
    | nil => exact absurd rfl hs
    | cons c cs =>
      simp only [List.nil_append, List.cons_append]
      rw [splitLoop_step, if_pos (by rw [List.isPrefixOf_iff_prefix]; exact ⟨q, by simp⟩)]
      simp only [List.length_cons, Nat.add_sub_cancel, List.append_nil]
      rw [splitLoop_skip]
  | c :: cs, q, acc, h => by
    simp only [List.cons_append]
    have h1 : ¬ sep.isPrefixOf (c :: (cs ++ sep ++ q)) = true := by
      intro h2
      obtain ⟨r, hr⟩ := List.isPrefixOf_iff_prefix.1 h2
      have := h [] r (by simpa using hr.symm)
      simp at this
    rw [splitLoop_step, if_neg h1, splitLoop_first sep hs cs q (acc ++ [c]) fun a b hab => by
      have := h (c :: a) b (by simpa using hab)
      simpa using this]
    simp

theorem splitStr_none {sep p : Str} (hs : sep ≠ []) (h : ∀ a b, p ≠ a ++ sep ++ b) : splitStr p sep = [p] := by
  unfold splitStr
  rw [if_neg (by simp [hs]), splitLoop_none sep hs p [] h]
  rfl

theorem splitStr_first {sep p q : Str} (hs : sep ≠ []) (h : ∀ a b, p ++ sep ++ q = a ++ sep ++ b → p.length ≤ a.length) :
    splitStr (p ++ sep ++ q) sep = p :: splitStr q sep := by
  unfold splitStr
  rw [if_neg (by simp [hs]), if_neg (by simp [hs]), splitLoop_first sep hs p q [] h]
  rfl

/-- Every text has no separator or a first one. -/
theorem first_sep (sep : Str) : ∀ (p : Str), (∀ a b, p ≠ a ++ sep ++ b) ∨
    ∃ x y, p = x ++ sep ++ y ∧ ∀ a b, p = a ++ sep ++ b → x.length ≤ a.length
  | [] => by
    cases sep with
    | nil => exact Or.inr ⟨[], [], rfl, by simp⟩
    | cons c cs => exact Or.inl (by simp)
  | c :: cs => by
    by_cases h : sep <+: c :: cs
    · obtain ⟨r, hr⟩ := h
      exact Or.inr ⟨[], r, by simp [hr], by simp⟩
    · have hno : ∀ a b, c :: cs = a ++ sep ++ b → ∃ a', a = c :: a' ∧ cs = a' ++ sep ++ b := by
        intro a b hab
        cases a with
        | nil => exact absurd ⟨b, by simpa using hab.symm⟩ h
        | cons d a =>
          simp only [List.cons_append, List.cons.injEq] at hab
          exact ⟨a, by rw [hab.1], hab.2⟩
      rcases first_sep sep cs with h1 | ⟨x, y, h1, h2⟩
      · refine Or.inl fun a b hab => ?_
        obtain ⟨a', _, h2⟩ := hno a b hab
        exact h1 _ _ h2
      · refine Or.inr ⟨c :: x, y, by simp [h1], fun a b hab => ?_⟩
        obtain ⟨a', rfl, h3⟩ := hno a b hab
        have := h2 _ _ h3
        simpa using this

theorem gets_getPath {sep p : Str} {v n : PNode} (hs : sep ≠ []) (h : Gets sep p v n) : getPath v (splitStr p sep) = .ok n := by
  induction h with
  | last p v n h1 h2 =>
    rw [splitStr_none hs h1]
    unfold getPath
    rw [getItem_iff.2 h2]
    rfl
  | step p q v m n h1 h2 _ ih =>
    rw [splitStr_first hs h1]
    unfold getPath
    rw [getItem_iff.2 h2]
    exact ih

theorem getPath_gets {sep : Str} (hs : sep ≠ []) {n : PNode} : ∀ (k : Nat) (p : Str) (v : PNode), p.length < k →
    getPath v (splitStr p sep) = .ok n → Gets sep p v n
  | 0, p, v, h, _ => absurd h (Nat.not_lt_zero _)
  | k + 1, p, v, hk, h => by
    rcases first_sep sep p with h1 | ⟨x, y, rfl, h2⟩
    · rw [splitStr_none hs h1] at h
      refine .last p v n h1 (getItem_iff.1 ?_)
      unfold getPath at h
      rcases getItem_cases v p with ⟨m, hm⟩ | ⟨e, he⟩
      · rw [hm] at h ⊢; exact h
      · rw [he] at h; cases h
    · rw [splitStr_first hs h2] at h
      unfold getPath at h
      rcases getItem_cases v x with ⟨m, hm⟩ | ⟨e, he⟩
      · rw [hm] at h
        refine .step x y v m n h2 (getItem_iff.1 hm) (getPath_gets hs k y m ?_ h)
        have : 0 < sep.length := List.length_pos_iff.2 hs
        simp only [List.length_append] at hk
        omega
      · rw [he] at h; cases h

theorem gets_iff {sep p : Str} {v n : PNode} (hs : sep ≠ []) : Gets sep p v n ↔ getPath v (splitStr p sep) = .ok n :=
  ⟨gets_getPath hs, getPath_gets hs _ p v (Nat.lt_succ_self _)⟩

/-- Separators of one character. -/
theorem splitStr_char (d : Char) : ∀ (p q : Str), splitStr (p ++ [d] ++ q) [d] = splitStr p [d] ++ splitStr q [d] := by
  have key : ∀ (p q acc : Str), splitLoop [d] 0 acc (p ++ [d] ++ q) = splitLoop [d] 0 acc p ++ splitLoop [d] 0 [] q := by
    intro p
    induction p with
    | nil =>
      intro q acc
      show splitLoop [d] 0 acc (d :: q) = [acc] ++ _
      rw [splitLoop_step, if_pos (by simp)]
      rfl
    | cons c cs ih =>
      intro q acc
      simp only [List.cons_append]
      rw [splitLoop_step, splitLoop_step]
      by_cases h : d = c
      · subst h
        rw [if_pos (by simp), if_pos (by simp)]
        simpa using ih q []
      · rw [if_neg (by simpa using h), if_neg (by simpa using h), ih]
  intro p q
  exact key p q []

/-! ## The macro -/

def getKey : List (Str × ArgType) := [(str! "separator", .literal [])]
theorem get_mem : (str! "get", schemaEntries [.literal [], .any []] getKey, none) ∈ eagerMacros := by
  simp [eagerMacros, schemaEntries, getKey]

theorem get_runs {ext : Ext} {args vs : List PNode} {c pn v : PNode} {a : Node} {o : Option Node}
    (hc : IsCall (str! "get") args c) {s u : St} (ha : Evals ext args s (.ok vs) u)
    (hp : positional vs = [pn, v]) (hl : Literal pn a)
    (hn : NamedArgs (fun k v => k = str! "separator" ∧ ∃ a, Literal v a) vs)
    (ho : Given (str! "separator") vs o) {r : Res (List PNode)} {t : St} :
    Evals ext [c] s r t ↔ r = (getPath v (splitStr a.value ((o.map (·.value)).getD ['/'])) >>= fun n => .ok [n]) ∧ t = u := by
  obtain ⟨p, hp', h⟩ := eager_extract hc (b := .get) rfl get_mem (H := fun vs p _ => do
      let path ← M.lift (p.posNode c 1)
      let node ← M.lift (p.pos c 2)
      let sep ← M.lift (p.opt (str! "separator"))
      let n ← M.lift (getPath node (splitStr path.value (sepOf sep)))
      pure [n]) (fun _ => rfl) (fun _ _ => Mon.const _)
    ha (front := [pn, v]) (back := []) hp (.cons _ _ _ _ (hasType_literal_iff.2 ⟨a, hl⟩) (.cons _ _ _ _ (hasType_any _) .nil)) (by simp)
    (fun k v s w hm => by
      obtain ⟨rfl, h⟩ := hn k v s w hm
      refine ⟨fun t ht => ?_, fun h => absurd (by simp [getKey]) (h (.literal []))⟩
      simp only [getKey, List.mem_singleton, Prod.mk.injEq, true_and] at ht
      subst ht
      exact hasType_literal_iff.2 h)
  rw [h]
  have h1 : p.posNode c 1 = .ok a := extracted_node hp' (i := 0) (by simp) (by rw [hp]; rfl) hl c
  have h2 : p.pos c 2 = .ok v := hp'.pos 1 _ c (by simp) (by rw [hp]; rfl)
  have h3 : p.opt (str! "separator") = .ok o := given_opt hp' ⟨_, by simp [getKey]; rfl⟩ ho
  rw [h1, h2, h3]
  have hsep : sepOf o = (o.map (·.value)).getD ['/'] := by cases o <;> rfl
  rw [← hsep, runs_const]
  have key : ∀ q : Res PNode, (q ≠ .diverge) → (r ≠ .diverge ∧ (M.lift q >>= fun n => pure [n] : M (List PNode)) u = (r, t) ↔
      r = (q >>= fun n => .ok [n]) ∧ t = u) := by
    intro q hq
    cases q with
    | diverge => exact absurd rfl hq
    | ok n =>
      constructor
      · rintro ⟨_, h⟩
        have h : (Res.ok [n], u) = (r, t) := h
        cases h; exact ⟨rfl, rfl⟩
      · rintro ⟨rfl, rfl⟩; exact ⟨nofun, rfl⟩
    | err n =>
      constructor
      · rintro ⟨_, h⟩
        have h : (Res.err n, u) = (r, t) := h
        cases h; exact ⟨rfl, rfl⟩
      · rintro ⟨rfl, rfl⟩; exact ⟨nofun, rfl⟩
    | panic =>
      constructor
      · rintro ⟨_, h⟩
        have h : (Res.panic, u) = (r, t) := h
        cases h; exact ⟨rfl, rfl⟩
      · rintro ⟨rfl, rfl⟩; exact ⟨nofun, rfl⟩
  refine key _ ?_
  rcases getPath_cases (splitStr a.value (sepOf o)) v with ⟨n, h⟩ | ⟨e, h⟩ <;> rw [h] <;> simp

theorem get_rejects {ext : Ext} {args vs : List PNode} {c : PNode} (hc : IsCall (str! "get") args c) {s u : St}
    (ha : Evals ext args s (.ok vs) u)
    (hn : ¬ ((∃ p v a, positional vs = [p, v] ∧ Literal p a) ∧ NamedArgs (fun k v => k = str! "separator" ∧ ∃ a, Literal v a) vs)) :
    ∃ e, Evals ext [c] s (.err e) u := by
  refine eager_rejects get_mem hc ha fun hacc => hn ?_
  obtain ⟨front, back, h1, h2, h3, h4⟩ := (accepts_schema (eager_wellDeclared _ get_mem)).1 hacc
  cases h2 with
  | cons _ p _ _ h5 h6 =>
    cases h6 with
    | cons _ v _ _ _ h6 =>
      cases h6
      obtain ⟨a, ha⟩ := hasType_literal_iff.1 h5
      refine ⟨⟨p, v, a, ?_, ha⟩, fun k v s w hm => ?_⟩
      · cases back with
        | nil => exact h1
        | cons b _ => obtain ⟨t, ht, _⟩ := h3 b (by simp); cases ht
      · obtain ⟨h5, h6⟩ := h4 k v s w hm
        by_cases hk : k = str! "separator"
        · subst hk
          exact ⟨rfl, hasType_literal_iff.1 (h5 _ (by simp [getKey]))⟩
        · obtain ⟨t, ht, hty⟩ := h6 (by simp [getKey, hk])
          cases ht

theorem get_two {ext : Ext} {c x v : PNode} {a : Node} (hc : IsCall (str! "get") [.string a, x] c) {s u : St}
    (hx : Evals ext [x] s (.ok [v]) u) (hv : ∀ k n si w, v ≠ .attr k n si w) {r : Res (List PNode)} {t : St} :
    Evals ext [c] s r t ↔ r = (getPath v (splitStr a.value ['/']) >>= fun n => .ok [n]) ∧ t = u := by
  have h := (evals_string ext a s).cons hx
  have hn : NoNamed ([.string a] ++ [v]) := by
    intro w hw
    simp only [List.cons_append, List.nil_append, List.mem_cons, List.not_mem_nil, or_false] at hw
    rcases hw with rfl | rfl
    · rfl
    · cases w with
      | attr k n si w => exact absurd rfl (hv k n si w)
      | _ => rfl
  have hnn := positional_noNamed hn
  have := get_runs (r := r) (t := t) hc h hnn.1 (.string a)
    (fun k v' si w hm => by have := hn _ hm; cases this) (o := none) (.absent (hnn.2 _))
  exact this

theorem splitLoop_ne_nil (sep : Str) : ∀ (p : Str) (k : Nat) (acc : Str), splitLoop sep k acc p ≠ []
  | [], 0, acc => by simp [splitLoop]
  | [], k + 1, acc => by simp [splitLoop]
  | c :: cs, 0, acc => by
    rw [splitLoop_step]
    split
    · simp
    · exact splitLoop_ne_nil sep cs _ _
  | c :: cs, k + 1, acc => by
    have := splitLoop_ne_nil sep cs k acc
    simpa [splitLoop] using this

theorem splitStr_ne_nil (p sep : Str) : splitStr p sep ≠ [] := by
  unfold splitStr
  split
  · simp
  · exact splitLoop_ne_nil _ _ _ _

theorem getPath_attr {k : Str} {m n : PNode} {si : Site} {w : Str} {path : List Str} (h : path ≠ []) :
    getPath (.attr k m si w) path ≠ .ok n := by
  cases path with
  | nil => exact absurd rfl h
  | cons x xs => exact nofun

theorem Spec.Evals.cons_fail {ext : Ext} {n : PNode} {ms as : List PNode} {s t u : St} {r : Res (List PNode)}
    (h : Evals ext [n] s (.ok as) t) (h' : Evals ext ms t r u) (hr : ∀ a, r ≠ .ok a) : Evals ext (n :: ms) s r u := by
  refine .of_ev h'.1 ((h.ev.and h'.ev).mono fun f hf => ?_)
  have := expandNodes_append (run ext f) [n] ms
  rw [List.singleton_append] at this
  rw [this, M.bind_ok hf.1, M.bind_def, hf.2]
  cases r with
  | ok a => exact absurd rfl (hr a)
  | _ => rfl

end Seam
