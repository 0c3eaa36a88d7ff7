import Verif.Lemmas.Outside
import Verif.Lemmas.Lists
import Verif.Spec.Convert

/-! Helper lemmas: `%number`, `%symbol`, `%format`, errors in arguments. -/

namespace Seam
open Spec

theorem number_mem : (str! "number", schemaEntries [] [], some (.literal [])) ∈ eagerMacros := by
  simp [eagerMacros, schemaEntries]

theorem symbol_mem : (str! "symbol", schemaEntries [] [], some (.literal [])) ∈ eagerMacros := by
  simp [eagerMacros, schemaEntries]

theorem literals_values : ∀ {vs : List PNode} {as : List Node}, Pairs Literal vs as → Values vs (as.map (·.value))
  | _, _, .nil => .nil
  | _, _, .cons h hs => .cons ⟨_, h, rfl⟩ (literals_values hs)

theorem literals_nodes : ∀ {vs : List PNode} {as : List Node}, Pairs Literal vs as → toNodeList vs = .ok as
  | _, _, .nil => rfl
  | _, _, .cons h1 h => by
    unfold toNodeList
    rw [show toNode _ = .ok _ by unfold toNode; rw [literal_atomic h1], literals_nodes h]
    rfl

theorem rest_runs {ext : Ext} {name : Str} {b : Builtin} {args vs : List PNode} {c : PNode} {as : List Node} {F : Node → PNode}
    (hc : IsCall name args c) (hb : builtin? name = some b) (hm : (name, schemaEntries [] [], some (.literal [])) ∈ eagerMacros)
    (hrun : ∀ rec, runBuiltin ext rec b c args = expandNodes rec args >>= fun vs =>
      arguments (rulesOf (schemaEntries [] [])) (some (.literal [])) c vs >>= fun p =>
        M.lift p.restNodes >>= fun ns => pure (ns.map F))
    {s u : St} (ha : Evals ext args s (.ok vs) u) (hl : Pairs Literal vs as) :
    Evals ext [c] s (.ok (as.map F)) u := by
  have hx := literals_values hl
  have hno := values_noNamed hx
  have hnam : ∀ k v s w, PNode.attr k v s w ∉ vs := fun k v s w hm => by
    have := hno _ hm
    simp [PNode.attribute?] at this
  obtain ⟨p, hp', h⟩ := eager_extract hc hb hm (H := fun vs p _ => M.lift p.restNodes >>= fun ns => pure (ns.map F)) hrun
    (fun _ _ => Mon.const _)
    ha (front := []) (back := vs) (positional_noNamed hno).1 .nil
    (fun v hv => ⟨_, rfl, hasType_literal_iff.2 (values_literal hx v hv)⟩)
    (fun k v s w hm => absurd hm (hnam k v s w))
  refine (h _ _).2 (runs_const.2 ⟨by simp, ?_⟩)
  have h5 : p.restNodes = .ok as := by
    unfold ArgParser.restNodes
    rw [hp'.rest fun k v s w hm => absurd hm (hnam k v s w), (positional_noNamed hno).1]
    exact literals_nodes hl
  rw [h5]
  rfl

theorem evals_number_macro {ext : Ext} {args vs : List PNode} {c : PNode} {as : List Node}
    (hc : IsCall (str! "number") args c) {s u : St} (ha : Evals ext args s (.ok vs) u) (hl : Pairs Literal vs as) :
    Evals ext [c] s (.ok (as.map .number)) u := rest_runs hc (b := .number) rfl number_mem (fun _ => rfl) ha hl

theorem evals_symbol_macro {ext : Ext} {args vs : List PNode} {c : PNode} {as : List Node}
    (hc : IsCall (str! "symbol") args c) {s u : St} (ha : Evals ext args s (.ok vs) u) (hl : Pairs Literal vs as) :
    Evals ext [c] s (.ok (as.map .symbol)) u := rest_runs hc (b := .symbol) rfl symbol_mem (fun _ => rfl) ha hl

theorem formatArgs_cons {n : PNode} {x : Option Str × Str} (h : FormatArg n x) (ns : List PNode) :
    formatArgs (n :: ns) = formatArgs ns >>= fun r => .ok (x :: r) := by
  cases h with
  | plain n a h => cases h <;> rfl
  | named k v a s w h => rw [formatArgs]; simp only [literal_atomic h]

theorem formatArgs_ok {ns : List PNode} {xs : List (Option Str × Str)} (h : Pairs FormatArg ns xs) : formatArgs ns = .ok xs := by
  induction h with
  | nil => rfl
  | cons h _ ih => rw [formatArgs_cons h, ih]; rfl

theorem formatArgs_err {pre : List PNode} {n : PNode} {xs : List (Option Str × Str)} (h : Pairs FormatArg pre xs)
    (hn : ∀ x, ¬ FormatArg n x) (post : List PNode) :
    ∃ e, formatArgs (pre ++ n :: post) = .err e ∧ (e.site = n.site ∨ ∃ k v si w, n = .attr k v si w ∧ e.site = v.site) := by
  induction h with
  | nil =>
    cases n with
    | attr k v s w =>
      have : v.atomic? = none := by
        rcases h : v.atomic? with _ | a
        · rfl
        · exact absurd (.named k v a s w (atomic_literal h)) (hn _)
      refine ⟨expErr "In `%format', the compound type is not formattable." v.site, ?_, Or.inr ⟨k, v, s, w, rfl, rfl⟩⟩
      rw [List.nil_append, formatArgs]
      simp only [this]
    | list ks s e w => exact ⟨_, rfl, Or.inl rfl⟩
    | symbol a => exact absurd (.plain _ a (.symbol a)) (hn _)
    | number a => exact absurd (.plain _ a (.number a)) (hn _)
    | string a => exact absurd (.plain _ a (.string a)) (hn _)
    | raw a => exact absurd (.plain _ a (.raw a)) (hn _)
  | cons h _ ih =>
    obtain ⟨e, he, hs⟩ := ih
    exact ⟨e, by rw [List.cons_append, formatArgs_cons h, he]; rfl, hs⟩

theorem eager_pass {ext : Ext} {name : Str} {args : List PNode} {c : PNode} {b : Builtin} {K : Rec → List PNode → M (List PNode)}
    (hc : IsCall name args c) (hb : builtin? name = some b)
    (hK : ∀ rec, runBuiltin ext rec b c args = expandNodes rec args >>= K rec)
    {s u : St} {e : Err} (ha : Evals ext args s (.err e) u) : Evals ext [c] s (.err e) u := by
  rw [evals_builtin_iff hc hb]
  obtain ⟨_, f, hf⟩ := ha
  refine ⟨by simp, f, ?_⟩
  show runBuiltin ext (run ext f) b c args s = _
  rw [hK, M.bind_err hf]

theorem eager_error {ext : Ext} {name : Str} {args : List PNode} {c : PNode} (hn : name ∈ eager) (hc : IsCall name args c)
    {s u : St} {e : Err} (ha : Evals ext args s (.err e) u) : Evals ext [c] s (.err e) u := by
  simp only [eager, List.mem_cons, List.not_mem_nil, or_false] at hn
  rcases hn with rfl | rfl | rfl | rfl | rfl | rfl | rfl | rfl | rfl | rfl | rfl | rfl | rfl | rfl | rfl | rfl | rfl | rfl | rfl | rfl | rfl | rfl | rfl | rfl | rfl | rfl | rfl | rfl
  case inl => exact (evals_do hc).2 ha
  all_goals exact eager_pass hc rfl (fun _ => rfl) ha

theorem user_error {ext : Ext} {name : Str} {args : List PNode} {c : PNode} (hb : builtin? name = none) (hc : IsCall name args c)
    {s u : St} {e : Err} (ha : Evals ext args s (.err e) u) : Evals ext [c] s (.err e) u := by
  rw [evals_user_iff hc hb]
  obtain ⟨_, f, hf⟩ := ha
  refine ⟨by simp, f, ?_⟩
  show userMacro (run ext f) name c args s = _
  unfold userMacro
  rw [M.bind_err hf]

theorem list_error {ext : Ext} {ns : List PNode} (h : PlainHead ns) {s t : St} {e : Err} (hn : Evals ext ns s (.err e) t)
    (si : Site) (en : Token) (w : Str) : Evals ext [.list ns si en w] s (.err e) t := by
  refine evals_node (by simp) (hn.ev.mono fun f hf => ?_)
  rw [expandNode_list h, M.bind_err hf]

theorem attr_error {ext : Ext} {v : PNode} {s t : St} {e : Err}
    (hn : Evals ext [v] s (.err e) t) (k : Str) (si : Site) (w : Str) : Evals ext [.attr k v si w] s (.err e) t := by
  refine evals_node (by simp) (hn.ev.mono fun f hf => ?_)
  rw [expandNodes_one] at hf
  simp only [expandNode]
  rw [M.bind_err hf]

theorem define_error {ext : Ext} {c : PNode} {v : Node} {body : List PNode} {s t : St} {e : Err}
    (hc : IsCall (str! "define") (.symbol v :: body) c) (hb : Evals ext body s (.err e) t) : Evals ext [c] s (.err e) t := by
  refine evals_builtin hc (b := .define) rfl (by simp) (hb.ev.mono fun f hf => ?_)
  show (expandNodes (run ext f) body >>= fun body => createMacro v.value [] body >>= fun _ => pure []) s = _
  rw [M.bind_err hf]

end Seam
