import Verif.Lemmas.Builtins

/-! `%reverse`, `%join`, `%concat`, `%string`, `%raw`, `%list`, `%splat`, `%strip`. -/

namespace Seam
open Spec

theorem bare_setLw (w : Str) (n : PNode) : bare (n.setLw w) = bare n := by cases n <;> rfl
theorem setLw_lw (w : Str) (n : PNode) : (n.setLw w).lw = w := by cases n <;> rfl
theorem bare_eq_iff {n m : PNode} (h : bare n = bare m) (hl : n.lw = m.lw) : n = m := by
  have key : ∀ n : PNode, n = (bare n).setLw n.lw := fun n => by cases n <;> rfl
  rw [key n, key m, h, hl]

theorem setLw_self (n : PNode) : n.setLw n.lw = n := by cases n <;> rfl

/-- Nodes are determined by their layout and the rest. -/
theorem nodes_eq : ∀ {ns ms : List PNode}, ns.map bare = ms.map bare → ns.map (·.lw) = ms.map (·.lw) → ns = ms
  | [], ms, h, _ => by simpa [eq_comm] using h
  | n :: ns, [], h, _ => by simp at h
  | n :: ns, m :: ms, h, h' => by
    simp only [List.map_cons, List.cons.injEq] at h h'
    rw [bare_eq_iff h.1 h'.1, nodes_eq h.2 h'.2]

theorem layoutOf_bare : ∀ {layout items : List PNode}, items.length = layout.length →
    (layoutOf layout items).map bare = items.map bare
  | [], items, h => by
    have : items = [] := List.length_eq_zero_iff.1 (by simpa using h)
    simp [this, layoutOf]
  | l :: ls, [], h => by simp at h
  | l :: ls, i :: is, h => by
    have ih := layoutOf_bare (layout := ls) (items := is) (by simpa using h)
    simp only [layoutOf] at ih
    simp [layoutOf, bare_setLw, ih]

theorem layoutOf_lw : ∀ {layout items : List PNode}, items.length = layout.length →
    (layoutOf layout items).map (·.lw) = layout.map (·.lw)
  | [], items, h => by simp [layoutOf]
  | l :: ls, [], h => by simp at h
  | l :: ls, i :: is, h => by
    have ih := layoutOf_lw (layout := ls) (items := is) (by simpa using h)
    simp only [layoutOf] at ih
    simp [layoutOf, setLw_lw, ih]

/-! ## `%reverse` -/

def reverseEntries : List Entry := [req 1 (.list [])]
theorem reverse_mem : (str! "reverse", reverseEntries, none) ∈ eagerMacros := by simp [eagerMacros, reverseEntries]

theorem noNamed_of {vs : List PNode} (h : ∀ k v s w, PNode.attr k v s w ∉ vs) : NoNamed vs := by
  intro v hv
  cases v with
  | attr k x s w => exact absurd hv (h k x s w)
  | _ => rfl

theorem reverse_accepts {vs : List PNode} : Accepts reverseEntries none vs ↔ ∃ ns si e w, vs = [.list ns si e w] := by
  rw [accepts_iff (eager_wellDeclared _ reverse_mem)]
  constructor
  · rintro ⟨h1, h2, h3⟩
    have hno : NoNamed vs := noNamed_of fun k v s w hm => by
      obtain ⟨t, ht, _⟩ := (h2 k v s w hm).2 (by simp [reverseEntries, req])
      cases ht
    rw [(positional_noNamed hno).1] at h1 h3
    have hl := h3 (req 1 (.list [])) (by simp [reverseEntries]) rfl 0 rfl
    cases vs with
    | nil => simp at hl
    | cons v vs =>
      obtain ⟨ns, s, e, w, rfl⟩ := hasType_list_iff.1 ((h1 0 v rfl).1 (req 1 (.list [])) (by simp [reverseEntries]) rfl)
      cases vs with
      | nil => exact ⟨ns, s, e, w, rfl⟩
      | cons v' vs =>
        obtain ⟨t, ht, _⟩ := (h1 1 v' rfl).2 (by simp [reverseEntries, req])
        cases ht
  · rintro ⟨ns, si, e, w, rfl⟩
    refine ⟨?_, by simp, ?_⟩
    · intro i v hv
      simp only [positional] at hv
      cases i with
      | succ i => simp at hv
      | zero =>
        simp at hv
        subst hv
        exact ⟨fun e he _ => by simp [reverseEntries] at he; subst he; exact .anyList _ _ _ _,
          fun h => absurd rfl (h (req 1 (.list [])) (by simp [reverseEntries]))⟩
    · intro e he hm i hi
      simp [reverseEntries] at he
      subst he
      simp [req] at hi
      subst hi
      simp [positional]

theorem evals_reverse {ext : Ext} {args ns : List PNode} {c : PNode} (hc : IsCall (str! "reverse") args c) {s u : St}
    {si : Site} {e : Token} {w : Str} (ha : Evals ext args s (.ok [.list ns si e w]) u) :
    Evals ext [c] s (.ok [.list (layoutOf ns ns.reverse) si e w]) u := by
  obtain ⟨p, hp, h⟩ := eager_accepts hc (b := .reverse) rfl (eager_wellDeclared _ reverse_mem) (H := fun vs p _ => do
      let list ← M.lift (p.posList c 1)
      match vs with
      | .list _ s e w :: _ => pure [.list (layoutOf list list.reverse) s e w]
      | _ => M.panic) (fun _ => rfl) (fun _ _ => Mon.const _) ha (reverse_accepts.2 ⟨ns, si, e, w, rfl⟩)
  refine (h _ _).2 (runs_const.2 ⟨by simp, ?_⟩)
  have : p.posList c 1 = .ok ns := by
    unfold ArgParser.posList ArgParser.pos
    rw [parsed_pos hp (e := req 1 (.list [])) (by simp [reverseEntries]) (i := 0) rfl]
    rfl
  rw [this]
  rfl

/-! ## `%join`, `%concat` -/

theorem values_nodes : ∀ {ns : List PNode} {xs : List Str}, Values ns xs → ∃ as, toNodeList ns = .ok as ∧ as.map (·.value) = xs
  | _, _, .nil => ⟨[], rfl, rfl⟩
  | _, _, .cons ⟨a, h1, h2⟩ h => by
    obtain ⟨as, h3, h4⟩ := values_nodes h
    refine ⟨a :: as, ?_, by simp [h2, h4]⟩
    unfold toNodeList
    rw [show toNode _ = .ok a by unfold toNode; rw [literal_atomic h1], h3]
    rfl

theorem values_of : ∀ {ns : List PNode}, (∀ n ∈ ns, ∃ a, Literal n a) → ∃ xs, Values ns xs
  | [], _ => ⟨[], .nil⟩
  | n :: ns, h => by
    obtain ⟨a, ha⟩ := h n (by simp)
    obtain ⟨xs, hxs⟩ := values_of fun n hn => h n (List.mem_cons_of_mem _ hn)
    exact ⟨a.value :: xs, .cons ⟨a, ha, rfl⟩ hxs⟩

theorem values_literal : ∀ {ns : List PNode} {xs : List Str}, Values ns xs → ∀ n ∈ ns, ∃ a, Literal n a
  | _, _, .nil, n, h => by simp at h
  | _, _, .cons ⟨a, h1, _⟩ h, n, hn => by
    rcases List.mem_cons.1 hn with rfl | hn
    · exact ⟨a, h1⟩
    · exact values_literal h n hn

theorem joinStr_eq (sep : Str) : ∀ (xs : List Str), joinStr sep xs = List.intercalate sep xs
  | [] => rfl
  | [x] => by simp [joinStr, List.intercalate]
  | x :: y :: xs => by
    have := joinStr_eq sep (y :: xs)
    rw [joinStr, this]
    simp [List.intercalate, List.intersperse]

theorem concat_fold : ∀ (as : List Node) (acc : Str), as.foldl (fun acc x => acc ++ x.value) acc = acc ++ (as.map (·.value)).flatten
  | [], acc => by simp
  | a :: as, acc => by simp [concat_fold as]

def trailingKey : List (Str × ArgType) := [(str! "trailing", oneOf [str! "true", str! "false"])]
theorem join_mem : (str! "join", schemaEntries [.literal []] trailingKey, some (.literal [])) ∈ eagerMacros := by
  simp [eagerMacros, schemaEntries, trailingKey]

theorem hasType_oneOf {vs : List Str} (hv : vs ≠ []) {n : PNode} : HasType (oneOf vs) n ↔ ∃ a, Literal n a ∧ a.value ∈ vs :=
  hasType_literalOf hv

theorem evals_join {ext : Ext} {args vs items : List PNode} {c sep : PNode} {a : Node} {xs : List Str} {o : Option Node}
    (hc : IsCall (str! "join") args c) {s u : St} (ha : Evals ext args s (.ok vs) u)
    (hp : positional vs = sep :: items) (hs : Literal sep a) (hx : Values items xs)
    (hn : NamedArgs (fun k v => k = str! "trailing" ∧ LiteralIn [str! "true", str! "false"] v) vs)
    (ho : Given (str! "trailing") vs o) :
    Evals ext [c] s (.ok [stringAt c (List.intercalate a.value xs ++
      if o.map (·.value) = some (str! "true") then a.value else [])]) u := by
  obtain ⟨p, hp', h⟩ := eager_extract hc (b := .join) rfl join_mem (H := fun vs p _ => do
      let sep ← M.lift (p.posNode c 1)
      let trailing ← M.lift (p.opt (str! "trailing"))
      let items ← M.lift p.restNodes
      let tail := match trailing with
        | some t => if t.value = str! "true" then sep.value else []
        | none => []
      pure [.string (callNode c (joinStr sep.value (items.map (·.value)) ++ tail))]) (fun _ => rfl) (fun _ _ => Mon.const _)
    ha (front := [sep]) (back := items) hp (.cons _ _ _ _ (hasType_literal_iff.2 ⟨a, hs⟩) .nil)
    (fun v hv => ⟨_, rfl, hasType_literal_iff.2 (values_literal hx v hv)⟩)
    (fun k v s w hm => by
      obtain ⟨rfl, h⟩ := hn k v s w hm
      refine ⟨fun t ht => ?_, fun h => absurd (by simp [trailingKey]) (h (oneOf [str! "true", str! "false"]))⟩
      simp only [trailingKey, List.mem_singleton, Prod.mk.injEq, true_and] at ht
      subst ht
      exact (hasType_oneOf (by simp)).2 h)
  refine (h _ _).2 (runs_const.2 ⟨by simp, ?_⟩)
  have h1 : p.posNode c 1 = .ok a := extracted_node hp' (i := 0) (by simp) (by rw [hp]; rfl) hs c
  have h2 : p.opt (str! "trailing") = .ok o := given_opt hp' ⟨_, by simp [trailingKey]; rfl⟩ ho
  obtain ⟨as, h3, h4⟩ := values_nodes hx
  have h5 : p.restNodes = .ok as := by
    unfold ArgParser.restNodes
    rw [hp'.rest fun k v s w hm => by obtain ⟨rfl, _⟩ := hn k v s w hm; exact ⟨_, by simp [trailingKey]; rfl⟩, hp]
    exact h3
  rw [h1, h2, h5]
  cases o with
  | none =>
    show (Res.ok [PNode.string (callNode c (joinStr a.value (as.map (·.value)) ++ []))], u) = _
    rw [joinStr_eq, h4]
    rfl
  | some t =>
    show (Res.ok [PNode.string (callNode c (joinStr a.value (as.map (·.value)) ++ if t.value = str! "true" then a.value else []))], u) = _
    rw [joinStr_eq, h4]
    simp [stringAt, callNode]

theorem join_rejects {ext : Ext} {args vs : List PNode} {c : PNode}
    (hc : IsCall (str! "join") args c) {s u : St} (ha : Evals ext args s (.ok vs) u)
    (hn : ¬ ((∃ sep items, positional vs = sep :: items ∧ ∀ n ∈ sep :: items, ∃ a, Literal n a) ∧
      NamedArgs (fun k v => k = str! "trailing" ∧ LiteralIn [str! "true", str! "false"] v) vs)) :
    ∃ e, Evals ext [c] s (.err e) u := by
  refine eager_rejects join_mem hc ha fun hacc => hn ?_
  obtain ⟨front, back, h1, h2, h3, h4⟩ := (accepts_schema (eager_wellDeclared _ join_mem)).1 hacc
  cases h2 with
  | cons _ sep _ _ h5 h6 =>
    cases h6
    refine ⟨⟨sep, back, h1, fun n hn => ?_⟩, fun k v s w hm => ?_⟩
    · rcases List.mem_cons.1 hn with rfl | hn
      · exact hasType_literal_iff.1 h5
      · obtain ⟨t, ht, hty⟩ := h3 n hn
        cases ht
        exact hasType_literal_iff.1 hty
    · obtain ⟨h5, h6⟩ := h4 k v s w hm
      by_cases hk : k = str! "trailing"
      · subst hk
        exact ⟨rfl, (hasType_oneOf (by simp)).1 (h5 _ (by simp [trailingKey]))⟩
      · obtain ⟨t, ht, hty⟩ := h6 (by simp [trailingKey, hk])
        cases ht
        obtain ⟨a, ha⟩ := hasType_literal_iff.1 hty
        cases ha

theorem concat_mem : (str! "concat", schemaEntries [] [], some (.literal [])) ∈ eagerMacros := by
  simp [eagerMacros, schemaEntries]

theorem values_noNamed {vs : List PNode} {xs : List Str} (h : Values vs xs) : NoNamed vs := noNamed_of fun k v s w hm => by
  obtain ⟨a, ha⟩ := values_literal h _ hm
  cases ha

theorem evals_concat {ext : Ext} {args vs : List PNode} {c : PNode} {xs : List Str}
    (hc : IsCall (str! "concat") args c) {s u : St} (ha : Evals ext args s (.ok vs) u) (hx : Values vs xs) :
    Evals ext [c] s (.ok [stringAt c xs.flatten]) u := by
  have hno := values_noNamed hx
  have hnam : ∀ k v s w, PNode.attr k v s w ∉ vs := fun k v s w hm => by
    have := hno _ hm
    simp [PNode.attribute?] at this
  obtain ⟨p, hp', h⟩ := eager_extract hc (b := .concat) rfl concat_mem (H := fun vs p _ => do
      let items ← M.lift p.restNodes
      pure [.string (callNode c (items.foldl (fun acc x => acc ++ x.value) []))]) (fun _ => rfl) (fun _ _ => Mon.const _)
    ha (front := []) (back := vs) (positional_noNamed hno).1 .nil
    (fun v hv => ⟨_, rfl, hasType_literal_iff.2 (values_literal hx v hv)⟩)
    (fun k v s w hm => absurd hm (hnam k v s w))
  refine (h _ _).2 (runs_const.2 ⟨by simp, ?_⟩)
  obtain ⟨as, h3, h4⟩ := values_nodes hx
  have h5 : p.restNodes = .ok as := by
    unfold ArgParser.restNodes
    rw [hp'.rest fun k v s w hm => absurd hm (hnam k v s w), (positional_noNamed hno).1]
    exact h3
  rw [h5]
  show (Res.ok [PNode.string (callNode c (as.foldl (fun acc x => acc ++ x.value) []))], u) = _
  rw [concat_fold, h4]
  rfl

theorem rest_literals {vs : List PNode} (hacc : Accepts (schemaEntries [] []) (some (.literal [])) vs)
    (hw : WellDeclared (schemaEntries [] [])) : ∀ n ∈ vs, ∃ a, Literal n a := by
  obtain ⟨front, back, h1, h2, h3, h4⟩ := (accepts_schema hw).1 hacc
  have hno : NoNamed vs := noNamed_of fun k v s w hm => by
    obtain ⟨t, ht, hty⟩ := (h4 k v s w hm).2 (by simp)
    cases ht
    obtain ⟨a, ha⟩ := hasType_literal_iff.1 hty
    cases ha
  rw [(positional_noNamed hno).1] at h1
  subst h1
  cases h2
  intro n hn
  obtain ⟨t, ht, hty⟩ := h3 n hn
  cases ht
  exact hasType_literal_iff.1 hty

theorem concat_rejects {ext : Ext} {args vs : List PNode} {c : PNode}
    (hc : IsCall (str! "concat") args c) {s u : St} (ha : Evals ext args s (.ok vs) u)
    (hn : ¬ ∀ n ∈ vs, ∃ a, Literal n a) : ∃ e, Evals ext [c] s (.err e) u :=
  eager_rejects concat_mem hc ha fun hacc => hn (rest_literals hacc (eager_wellDeclared _ concat_mem))

/-! ## `%string` and `%raw` -/

theorem buildText_ok : ∀ {ns : List PNode} {as : List Node}, Pairs Literal ns as →
    buildText ns = .ok (as.flatMap fun a => a.lw ++ a.value)
  | _, _, .nil => rfl
  | _, _, .cons h1 h2 => by
    unfold buildText
    rw [literal_atomic h1, buildText_ok h2]
    simp

theorem buildText_err : ∀ {ns : List PNode}, (¬ ∀ n ∈ ns, ∃ a, Literal n a) → ∃ e, buildText ns = .err e
  | [], h => absurd (by simp) h
  | n :: ns, h => by
    unfold buildText
    cases hn : n.atomic? with
    | none => exact ⟨_, rfl⟩
    | some a =>
      obtain ⟨e, he⟩ := buildText_err (ns := ns) fun h' => h fun m hm => by
        rcases List.mem_cons.1 hm with rfl | hm
        · exact ⟨a, literal_of_atomic hn⟩
        · exact h' m hm
      rw [he]
      exact ⟨e, rfl⟩

theorem buildText_ne (ns : List PNode) : buildText ns ≠ .diverge := by
  induction ns with
  | nil => simp [buildText]
  | cons n ns ih =>
    unfold buildText
    split
    · simp
    · exact Res.bind_ne_diverge ih fun _ => by simp

theorem evals_string_macro {ext : Ext} {args : List PNode} {c : PNode} (hc : IsCall (str! "string") args c)
    {s t : St} {r : Res (List PNode)} : Evals ext [c] s r t ↔ ∃ r0, Evals ext args s r0 t ∧
      r = (r0 >>= fun vs => buildText vs >>= fun text => .ok [stringAt c text]) :=
  evals_macro hc (b := .string) rfl (fun as => Res.bind_ne_diverge (buildText_ne as) fun _ => by simp) fun rec => by
    show stringMacro rec c args = _
    unfold stringMacro
    congr 1
    funext as
    cases buildText as <;> rfl

theorem evals_raw_macro {ext : Ext} {args : List PNode} {c : PNode} (hc : IsCall (str! "raw") args c)
    {s t : St} {r : Res (List PNode)} : Evals ext [c] s r t ↔ ∃ r0, Evals ext args s r0 t ∧
      r = (r0 >>= fun vs => buildText vs >>= fun text => .ok [.raw ⟨text, c.site, c.lw⟩]) :=
  evals_macro hc (b := .raw) rfl (fun as => Res.bind_ne_diverge (buildText_ne as) fun _ => by simp) fun rec => by
    show rawMacro rec c args = _
    unfold rawMacro
    congr 1
    funext as
    cases buildText as <;> rfl

/-! ## `%list`, `%splat`, `%strip`, `%do` -/

theorem splat_eq : ∀ (vs : List PNode), splat vs = vs.flatMap spliced
  | [] => rfl
  | v :: vs => by
    cases v <;> simp [splat, spliced, splat_eq vs, withFirstLw_eq]

theorem evals_splat {ext : Ext} {args : List PNode} {c : PNode} (hc : IsCall (str! "splat") args c)
    {s t : St} {r : Res (List PNode)} : Evals ext [c] s r t ↔ ∃ r0, Evals ext args s r0 t ∧
      r = (r0 >>= fun vs => .ok (vs.flatMap spliced)) :=
  evals_macro hc (b := .splat) rfl (by simp) fun rec => by
    show splatMacro rec args = _
    unfold splatMacro
    simp only [splat_eq]
    rfl

theorem evals_list_macro {ext : Ext} {args ns : List PNode} {si : Site} {e : Token} {w : Str}
    (hc : IsCall (str! "list") args (.list ns si e w))
    {s t : St} {r : Res (List PNode)} : Evals ext [.list ns si e w] s r t ↔ ∃ r0, Evals ext args s r0 t ∧
      r = (r0 >>= fun vs => .ok [.list vs si e w]) :=
  evals_macro hc (b := .list) rfl (by simp) fun rec => rfl

theorem evals_strip {ext : Ext} {args : List PNode} {c : PNode} (hc : IsCall (str! "strip") args c)
    {s t : St} {r : Res (List PNode)} : Evals ext [c] s r t ↔ ∃ r0, Evals ext args s r0 t ∧
      r = (r0 >>= fun vs => .ok (firstSpaced [] vs)) :=
  evals_macro hc (b := .strip) rfl (by simp) fun rec => by
    show stripMacro rec args = _
    unfold stripMacro
    simp only [withFirstLw_eq]
    rfl

theorem evals_do {ext : Ext} {args : List PNode} {c : PNode} (hc : IsCall (str! "do") args c)
    {s t : St} {r : Res (List PNode)} : Evals ext [c] s r t ↔ Evals ext args s r t :=
  evals_as hc (b := .do_) rfl fun _ => rfl

end Seam
