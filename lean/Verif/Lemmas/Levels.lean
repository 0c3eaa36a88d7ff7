import Verif.Spec.Levels
import Verif.Lemmas.Machine
import Verif.Lemmas.Apply
import Verif.Lemmas.Control

/-! Expansion on a bounded stack. -/

namespace Seam
open Spec

theorem levels_one {ext : Ext} {n : Nat} {c : PNode} {s t : St} {out : List PNode} :
    InLevels ext n [c] s out t ↔ run ext n (.node c) s = (.ok out, t) := by
  unfold InLevels
  rw [expandNodes_one]

/-- A call. -/
theorem levels_call {ext : Ext} {n : Nat} {name : Str} {args : List PNode} {c : PNode} (hc : IsCall name args c) {s t : St} {out : List PNode} :
    InLevels ext (n + 2) [c] s out t ↔ expandInvocation ext (run ext n) name c args s = (.ok out, t) := by
  rw [levels_one, run_call hc]
  exact Iff.rfl

theorem levels_append {ext : Ext} {n : Nat} {as bs : List PNode} {s t : St} {out : List PNode} :
    InLevels ext n (as ++ bs) s out t ↔ ∃ o1 u o2, InLevels ext n as s o1 u ∧ InLevels ext n bs u o2 t ∧ out = o1 ++ o2 := by
  unfold InLevels
  rw [expandNodes_append]
  constructor
  · intro h
    obtain ⟨o1, u, h1, h2⟩ := M.bind_eq_ok h
    obtain ⟨o2, v, h3, h4⟩ := M.bind_eq_ok h2
    cases h4
    exact ⟨o1, u, o2, h1, h3, rfl⟩
  · rintro ⟨o1, u, o2, h1, h2, rfl⟩
    rw [M.bind_ok h1, M.bind_ok h2]
    rfl

theorem inner_ok {α : Type} {m : M α} {s t : St} {a : α} : M.inner m s = (.ok a, t) ↔ ∃ t', m s = (.ok a, t') ∧ t = { t' with scope := s.scope } := by
  rw [M.inner_def]
  constructor
  · intro h
    rw [Prod.mk.injEq] at h
    exact ⟨(m s).2, Prod.ext h.1 rfl, h.2.symm⟩
  · rintro ⟨t', h, rfl⟩
    rw [h]

theorem levels_user {ext : Ext} {n : Nat} {name : Str} {args : List PNode} {c : PNode} (hc : IsCall name args c) (hb : builtin? name = none)
    {s t : St} {out : List PNode} : InLevels ext (n + 2) [c] s out t ↔
      ∃ vs u m v t', InLevels ext n args s vs u ∧ u.scope name = some m ∧ bindList c m.params vs u = (.ok (), v) ∧
        InLevels ext n m.body v out t' ∧ t = { t' with scope := u.scope } := by
  rw [levels_call hc]
  simp only [expandInvocation, hb]
  constructor
  · intro h
    obtain ⟨vs, u, h1, h2⟩ := M.bind_eq_ok h
    rw [M.bind_ok (M.lookup_def name u)] at h2
    cases hm : u.scope name with
    | none => rw [hm] at h2; cases h2
    | some m =>
      rw [hm] at h2
      obtain ⟨t', h3, h4⟩ := inner_ok.1 h2
      obtain ⟨_, v, h5, h6⟩ := M.bind_eq_ok h3
      exact ⟨vs, u, m, v, t', h1, hm, h5, h6, h4⟩
  · rintro ⟨vs, u, m, v, t', h1, hm, h5, h6, h4⟩
    rw [userMacro_eq _ _ _ _ _ _ _ _ h1 hm]
    exact inner_ok.2 ⟨t', by rw [M.bind_ok h5]; exact h6, h4⟩

theorem forLoop_rounds {ext : Ext} {n : Nat} {it : PNode} {body : List PNode} : ∀ {xs : List PNode} {s t : St} {out : List PNode},
    forLoop (run ext n) it body xs s = (.ok out, t) ↔ Rounds ext n it body xs s out t
  | [], s, t, out => by
    constructor
    · intro h
      cases h
      exact .done s
    · intro h
      cases h
      rfl
  | x :: xs, s, t, out => by
    constructor
    · intro h
      obtain ⟨_, u, h1, h2⟩ := M.bind_eq_ok h
      obtain ⟨as, v, h3, h4⟩ := M.bind_eq_ok h2
      obtain ⟨bs, w, h5, h6⟩ := M.bind_eq_ok h4
      cases h6
      exact .item _ _ _ _ _ _ _ _ h1 h3 (forLoop_rounds.1 h5)
    · intro h
      cases h with
      | item _ _ as bs _ u v _ h1 h3 h5 =>
        rw [forLoop, M.bind_ok h1, M.bind_ok h3, M.bind_ok (forLoop_rounds.2 h5)]
        rfl

theorem levels_for {ext : Ext} {n : Nat} {args : List PNode} {c it : PNode} {b : Node} {xs rest : List PNode} {si : Site} {e : Token} {w : Str}
    (hc : IsCall (str! "for") args c) (hp : positional args = it :: .symbol b :: .list xs si e w :: rest) (hb : b.value = str! "in")
    {s t : St} {out : List PNode} : InLevels ext (n + 2) [c] s out t ↔
      ∃ ys u t', InLevels ext n xs s ys u ∧ Rounds ext n it (dropPositional 3 args) ys u out t' ∧ t = { t' with scope := u.scope } := by
  rw [levels_call hc]
  obtain ⟨p, h1, h2, h3, h4, h5⟩ := for_parsed (call := c) hp hb
  have : expandInvocation ext (run ext n) (str! "for") c args s = (expandNodes (run ext n) xs >>= fun ys =>
      M.inner (forLoop (run ext n) it (dropPositional 3 args) ys)) s := by
    show (arguments forSchema (some (.any [])) c args >>= fun p => _) s = _
    rw [M.bind_ok (show arguments forSchema (some (.any [])) c args s = (.ok p, s) by rw [arguments, h1]; rfl),
      M.bind_ok (show M.lift (p.pos c 1) s = (.ok it, s) by rw [h2]; rfl),
      M.bind_ok (show M.lift (p.posNode c 2) s = (.ok b, s) by rw [h3]; rfl),
      M.bind_ok (show M.lift (p.posList c 3) s = (.ok xs, s) by rw [h4]; rfl), h5]
  rw [this]
  constructor
  · intro h
    obtain ⟨ys, u, h6, h7⟩ := M.bind_eq_ok h
    obtain ⟨t', h8, h9⟩ := inner_ok.1 h7
    exact ⟨ys, u, t', h6, forLoop_rounds.1 h8, h9⟩
  · rintro ⟨ys, u, t', h6, h8, h9⟩
    rw [M.bind_ok h6]
    exact inner_ok.2 ⟨t', forLoop_rounds.2 h8, h9⟩

theorem mapLoop_turns {ext : Ext} {n : Nat} {f : Str} {c : PNode} : ∀ {xs : List PNode} {s t : St} {out : List PNode},
    mapLoop (run ext n) c f xs s = (.ok out, t) ↔ ∃ rs, TurnsIn ext n f c xs s rs t ∧ out = rs.flatten
  | [], s, t, out => by
    constructor
    · intro h
      cases h
      exact ⟨[], .done s, rfl⟩
    · rintro ⟨rs, h, rfl⟩
      cases h
      rfl
  | x :: xs, s, t, out => by
    constructor
    · intro h
      obtain ⟨as, u, h1, h2⟩ := M.bind_eq_ok h
      obtain ⟨bs, v, h3, h4⟩ := M.bind_eq_ok h2
      cases h4
      obtain ⟨rs, h5, rfl⟩ := mapLoop_turns.1 h3
      exact ⟨as :: rs, .item _ _ _ _ _ _ _ h1 h5, by simp⟩
    · rintro ⟨rs, h, rfl⟩
      cases h with
      | item _ _ as rest _ u _ h1 h2 =>
        rw [mapLoop, M.bind_ok h1, M.bind_ok (mapLoop_turns.2 ⟨_, h2, rfl⟩)]
        simp [M.pure_def]

theorem filterLoop_turns {ext : Ext} {n : Nat} {f : Str} {c : PNode} : ∀ {xs : List PNode} {s t : St} {out : List PNode},
    filterLoop (run ext n) c f xs s = (.ok out, t) ↔ ∃ rs, TurnsIn ext n f c xs s rs t ∧ out = (rs.filter fun x => !emptyList x).flatten
  | [], s, t, out => by
    constructor
    · intro h
      cases h
      exact ⟨[], .done s, rfl⟩
    · rintro ⟨rs, h, rfl⟩
      cases h
      rfl
  | x :: xs, s, t, out => by
    constructor
    · intro h
      obtain ⟨as, u, h1, h2⟩ := M.bind_eq_ok h
      obtain ⟨bs, v, h3, h4⟩ := M.bind_eq_ok h2
      cases h4
      obtain ⟨rs, h5, rfl⟩ := filterLoop_turns.1 h3
      refine ⟨as :: rs, .item _ _ _ _ _ _ _ h1 h5, ?_⟩
      rw [isNull_eq]
      cases he : emptyList as <;> simp [he]
    · rintro ⟨rs, h, rfl⟩
      cases h with
      | item _ _ as rest _ u _ h1 h2 =>
        rw [filterLoop, M.bind_ok h1, M.bind_ok (filterLoop_turns.2 ⟨_, h2, rfl⟩), isNull_eq]
        cases he : emptyList as <;> simp [he, M.pure_def]

/-- The macros that take a function. -/
theorem levels_function {ext : Ext} {n : Nat} {name : Str} {args vs back : List PNode} {c : PNode} {f : Node} {b : Builtin}
    (hc : IsCall name args c) (hb : builtin? name = some b)
    (hm : (name, schemaEntries [.symbol []] [], some (.any [])) ∈ eagerMacros)
    (G : Str → List PNode → M (List PNode))
    (h : runBuiltin ext (run ext n) b c args =
      expandNodes (run ext n) args >>= fun vs => arguments (rulesOf (schemaEntries [.symbol []] [])) (some (.any [])) c vs >>= fun p =>
        M.lift (p.posNode c 1) >>= fun f => G f.value p.trailing)
    {s u : St} (ha : InLevels ext n args s vs u) (hp : positional vs = .symbol f :: back) {out : List PNode} {t : St} :
    InLevels ext (n + 2) [c] s out t ↔ G f.value (dropPositional 1 vs) u = (.ok out, t) := by
  rw [levels_call hc]
  simp only [expandInvocation, hb, h]
  rw [M.bind_ok ha]
  have hw := eager_wellDeclared _ hm
  have hacc : Accepts (schemaEntries [.symbol []] []) (some (.any [])) vs := (accepts_schema hw).2 ⟨[.symbol f], back, hp,
    .cons _ _ _ _ (hasType_symbol_iff.2 ⟨f, rfl, Or.inl rfl⟩) .nil, fun v hv => ⟨_, rfl, hasType_any _⟩,
    fun k v s w hm => ⟨fun t ht => by simp at ht, fun _ => ⟨_, rfl, hasType_any _⟩⟩⟩
  rcases arguments_cases hw (some (.any [])) c vs with ⟨p, h1, h2, _⟩ | ⟨e, _, h2⟩
  · have hp' := parsed_extracted h2
    have h3 : p.posNode c 1 = .ok f := extracted_node hp' (i := 0) (by simp) (by rw [hp]; rfl) (.symbol f) c
    have h4 : p.trailing = dropPositional 1 vs := hp'.all rfl
    rw [h1]
    show (M.lift (p.posNode c 1) >>= fun f => G f.value p.trailing) u = _ ↔ _
    rw [M.bind_ok (show M.lift (p.posNode c 1) u = (.ok f, u) by rw [h3]; rfl), h4]
  · exact absurd hacc h2

/-- A machine that makes many steps needs many levels. -/
theorem walks_levels {ext : Ext} {p : List Instr} : ∀ {m : Nat} {d : Config}, Walks p m d → ∀ {c : PNode} {s : St} {g : Nat}, Standing ext p d c s →
    outcome ext c s g ≠ .diverge → m < g
  | _, _, .start d, c, s, 0, _, hg => absurd rfl hg
  | _, _, .start d, c, s, g + 1, _, hg => by omega
  | _, _, .step m d d' i hi hn h, c, s, g, hs, hg => by
    obtain ⟨c', s', h1, h2⟩ := hs.step hi hn
    obtain ⟨k, hk, e⟩ := h2.back g hg
    have := walks_levels h h1 (g := k) (by rw [e]; exact hg)
    omega

/-- The definitions and the call of a program for a machine. -/
theorem machine_split (ext : Ext) (order : Order) (path : Str) (p : List Instr) (a b : Nat) :
    ∃ ds c s, parse ext.unescape { path := path, id := 1, code := machineProgram p a b } = .ok (ds ++ [c]) ∧
      Standing ext p ⟨0, a, b⟩ c s ∧ Evals ext ds (St.init order) (.ok []) s := by
  obtain ⟨tree, h1, h2⟩ := C14_sexp_reads_back ext.unescape id _ (machine_printable ext.unescape id a b p 0) path 1
  rw [machine_text] at h1
  obtain ⟨ds, cs, rfl, hd, hc⟩ := sameNodes_split _ _ _ h2
  match cs, hc with
  | [c], hc =>
    obtain ⟨s, e1, e2, e3⟩ := defs_evals ext p 0 ds hd (St.init order)
    refine ⟨_, c, s, h1, ⟨⟨fun k i hk => by simpa using e2 k i hk, fun k hk => ?_⟩, ?_⟩, e1⟩
    · rw [e3]
      · rfl
      · intro j hj e
        have := stateName_inj e
        simp at hk
        omega
    · obtain ⟨x, y, hx, hy, hcall⟩ := call_same (name := stateName 0) hc.1 (numNode_lw _ _)
      have hX := (numNode_same _ _ _ hx).setLw []
      have hY := numNode_same _ _ _ hy
      exact ⟨_, _, _, hcall, (hX.evals ext s).cons (hY.evals ext s), hX, hY⟩

theorem machine_levels (ext : Ext) (order : Order) (path : Str) (p : List Instr) (a b m : Nat) (h : Walks p m ⟨0, a, b⟩) :
    ∃ tree, parse ext.unescape { path := path, id := 1, code := machineProgram p a b } = .ok tree ∧
      (expandNodes (run ext m) tree (St.init order)).1 = .diverge := by
  obtain ⟨ds, c, s, h1, h2, h3⟩ := machine_split ext order path p a b
  refine ⟨_, h1, ?_⟩
  rw [expandNodes_append]
  rcases known_or_diverges h3 m with h4 | h4
  · exact bind_diverges h4
  · rw [M.bind_ok h4]
    refine bind_diverges ?_
    rw [expandNodes_one]
    cases hr : (run ext m (.node c) s).1 with
    | diverge => rfl
    | _ =>
      have := walks_levels h h2 (g := m) (by unfold outcome; rw [hr]; simp)
      omega

end Seam
