import Verif.Lemmas.Data
import Verif.Lemmas.Lists
import Verif.Lemmas.Keeps
import Verif.Lemmas.Runs

/-! Helper lemmas: `%markdown`, `%log`, `%os/env`. -/

namespace Seam
open Spec

/-! ## `%markdown` -/

def onlyKey : ArgType := literalOf [str! "frontmatter", str! "content"]

theorem markdown_mem : (str! "markdown", schemaEntries [.string []] [(str! "only", onlyKey), (str! "separator", .literal [])], none)
    ∈ eagerMacros := by
  simp [eagerMacros, schemaEntries, onlyKey, literalOf, oneOf]

/-- What `%markdown` does with its arguments. -/
def markdownBody (ext : Ext) (c : PNode) (a : Node) (only : Option Node) (sep : Str) : M (List PNode) :=
  let toHtml : M (List PNode) :=
    match ext.mdHtml a.value with
    | none => M.fail "Failed to render markdown." a.site
    | some html => pure [.raw (callNode c html)]
  let front := frontmatter ext a.value sep c a.site
  match only with
  | none => do
    ignoreErr front
    toHtml
  | some o =>
    if o.value = str! "frontmatter" then do
      front
      pure []
    else if o.value = str! "content" then toHtml
    else M.panic

theorem markdown_runs {ext : Ext} {args vs : List PNode} {c x : PNode} {a : Node} {only o : Option Node}
    (hc : IsCall (str! "markdown") args c) {s u : St} (ha : Evals ext args s (.ok vs) u)
    (hp : positional vs = [x]) (hl : x = .string a ∨ x = .raw a)
    (hn : NamedArgs (fun k v => (k = str! "only" ∧ LiteralIn [str! "frontmatter", str! "content"] v) ∨
      (k = str! "separator" ∧ ∃ a, Literal v a)) vs)
    (ho : Given (str! "only") vs only) (hs : Given (str! "separator") vs o) {r : Res (List PNode)} {t : St} :
    Evals ext [c] s r t ↔ r ≠ .diverge ∧ markdownBody ext c a only ((o.map (·.value)).getD ['/']) u = (r, t) := by
  have hlit : Literal x a := by
    rcases hl with rfl | rfl
    · exact .string a
    · exact .raw a
  obtain ⟨p, hp', h⟩ := eager_extract hc (b := .markdown) rfl markdown_mem (H := fun vs p _ =>
      M.lift (p.posNode c 1) >>= fun text => M.lift (p.opt (str! "only")) >>= fun only =>
      M.lift (p.opt (str! "separator")) >>= fun sep => markdownBody ext c text only (sepOf sep))
    (fun _ => rfl) (fun _ _ => Mon.const _)
    ha (front := [x]) (back := []) hp (.cons _ _ _ _ (hasType_string_iff.2 ⟨a, hl⟩) .nil) (by simp)
    (fun k v s w hm => by
      rcases hn k v s w hm with ⟨rfl, h⟩ | ⟨rfl, h⟩
      · refine ⟨fun t ht => ?_, fun h => absurd (by simp) (h onlyKey)⟩
        simp at ht
        subst ht
        exact (hasType_literalOf (by simp)).2 h
      · refine ⟨fun t ht => ?_, fun h => absurd (by simp) (h (.literal []))⟩
        simp at ht
        subst ht
        exact hasType_literal_iff.2 h)
  rw [h]
  have h1 : p.posNode c 1 = .ok a := extracted_node hp' (i := 0) (by simp) (by rw [hp]; rfl) hlit c
  have h2 : p.opt (str! "only") = .ok only := given_opt hp' ⟨_, by simp; rfl⟩ ho
  have h3 : p.opt (str! "separator") = .ok o := given_opt hp' ⟨_, by simp; rfl⟩ hs
  rw [h1, h2, h3]
  have hsep : sepOf o = (o.map (·.value)).getD ['/'] := by cases o <;> rfl
  rw [← hsep, runs_const]
  rfl

theorem frontData_run {ext : Ext} {text : Str} {d : Data} (h : FrontData ext text d) (sep : Str) (c : PNode) (site : Site) (u : St) :
    ∃ t, frontmatter ext text sep c site u = (.ok (), t) ∧ t = { u with scope := t.scope } ∧
      DefinesPaths c.site sep d u.scope t.scope := by
  cases h with
  | toml x table h1 h2 h3 =>
    subst h3
    refine ⟨u.defs (defsIn tomlVl c.site sep [] (tomlData (.tab table))), ?_, St.defs_only _ _, defs_definesPaths _ _ _ _ _⟩
    unfold frontmatter
    rw [h1]
    simp only
    rw [M.bind_ok (expandToml_run ext _ _ c.site table u h2)]
    rfl
  | yaml y es h1 h2 h3 =>
    refine ⟨u.defs (defsIn yamlVl c.site sep [] d), ?_, St.defs_only _ _, defs_definesPaths _ _ _ _ _⟩
    unfold frontmatter
    rw [h1]
    simp only
    rw [M.bind_ok (expandYaml_run ext _ _ c.site d es u h2 h3)]
    rfl

/-- A macro that expands its arguments and then calls no other macro. -/
theorem eager_const {ext : Ext} {name : Str} {args vs : List PNode} {c : PNode} {b : Builtin} {K : List PNode → M (List PNode)}
    (hc : IsCall name args c) (hb : builtin? name = some b)
    (hK : ∀ rec, runBuiltin ext rec b c args = expandNodes rec args >>= K)
    {s u t : St} {r : Res (List PNode)} (ha : Evals ext args s (.ok vs) u) (hr : r ≠ .diverge) (h : K vs u = (r, t)) :
    Evals ext [c] s r t := by
  rw [evals_builtin_iff hc hb]
  obtain ⟨_, f, hf⟩ := ha
  refine ⟨hr, f, ?_⟩
  show runBuiltin ext (run ext f) b c args s = _
  rw [hK, M.bind_ok hf, h]

/-! ## `%log` -/

theorem atomic_literal {n : PNode} {a : Node} (h : n.atomic? = some a) : Literal n a := by
  cases n <;> simp [PNode.atomic?] at h <;> subst h <;> constructor

theorem atomicValues_iff : ∀ {ns : List PNode} {xs : List Str}, atomicValues ns = some xs ↔ Values ns xs
  | [], xs => by
    constructor
    · intro h
      simp only [atomicValues, Option.some.injEq] at h
      subst h; exact .nil
    · intro h; cases h; rfl
  | n :: ns, xs => by
    constructor
    · intro h
      unfold atomicValues at h
      rcases ha : n.atomic? with _ | a
      · simp [ha] at h
      · rcases hv : atomicValues ns with _ | ys
        · simp [ha, hv] at h
        · simp only [ha, hv, Option.some.injEq] at h
          subst h
          exact .cons ⟨a, atomic_literal ha, rfl⟩ (atomicValues_iff.1 hv)
    · intro h
      cases h with
      | cons h1 h2 =>
        obtain ⟨a, h1, rfl⟩ := h1
        unfold atomicValues
        simp only [literal_atomic h1, atomicValues_iff.2 h2]

end Seam
