import Verif.Spec.Blow
import Verif.Lemmas.Machine

/-! Short programs for long documents. -/

namespace Seam
open Spec

/-- The node is the element of `bush`. -/
inductive Bush : Nat → PNode → Prop
  | leaf (a : Node) : a.value = str! "a" → Bush 0 (.symbol a)
  | node (d : Nat) (b : Node) (l r : PNode) (s : Site) (e : Token) (w : Str) : b.value = str! "b" → b.lw = [] → e.lw = [] → l.lw = [' '] →
      r.lw = [' '] → Bush d l → Bush d r → Bush (d + 1) (.list [.symbol b, l, r] s e w)

theorem Bush.free : ∀ {d : Nat} {x : PNode}, Bush d x → MacroFree x
  | _, _, .leaf a h => by
    refine .symbol a ?_
    rw [h]
    intro r hr
    cases hr
  | _, _, .node _ b _ _ _ _ _ hb _ _ _ _ hl hr => by
    refine .list _ _ _ _ (.cons _ _ (.symbol b ?_) (.cons _ _ hl.free (.cons _ _ hr.free .nil)))
    rw [hb]
    intro r hr
    cases hr

theorem Bush.setLw {d : Nat} {x : PNode} (h : Bush d x) (w : Str) : Bush d (x.setLw w) := by
  cases h with
  | leaf a h => exact .leaf _ h
  | node d b l r s e w' h1 h2 h3 h4 h5 h6 h7 => exact .node _ _ _ _ _ _ _ h1 h2 h3 h4 h5 h6 h7

theorem Bush.noAttr {d : Nat} {x : PNode} (h : Bush d x) : x.isAttr = false := by
  cases h <;> rfl

theorem Bush.html (dbg : Str → Str) : ∀ {d : Nat} {x : PNode}, Bush d x → ∀ lw, htmlNode dbg lw x = .ok (lw ++ bush d)
  | _, _, .leaf a h, lw => by
    simp only [htmlNode, h]
    rfl
  | _, _, .node d ⟨_, bs, _⟩ l r s e w rfl rfl he hl hr h1 h2, lw => by
    have e1 := h1.html dbg []
    have e2 := h2.html dbg [' ']
    have n1 := h1.noAttr
    have a1 : htmlAttrs [l, r] = .ok [] := by cases h1 <;> rfl
    have a2 : kids [l, r] = [l, r] := by simp [kids, n1]
    have a3 : firstLw [' '] = [] := rfl
    have a4 : firstOnNextLine [l, r] = false := by simp [firstOnNextLine, hl]
    have a5 : htmlKids dbg .lead [l, r] = .ok (bush d ++ ' ' :: bush d) := by
      simp only [htmlKids, n1, hl, a3, e1, hr, e2]
      simp
    have b1 : lower (str! "b") = str! "b" := rfl
    have b2 : binarySearch voidElements (str! "b") = false := by decide +kernel
    have b3 : htmlSpecial (str! "b") = false := rfl
    rw [htmlNode]
    simp only [b1, b2, b3, a1, a2, a4, a5, closeWs, he, bush]
    simp

theorem Bush.xml : ∀ {d : Nat} {x : PNode}, Bush d x → ∀ lw, xmlNode lw x = .ok (lw ++ bush d)
  | _, _, .leaf a h, lw => by
    simp only [xmlNode, h]
    rfl
  | _, _, .node d ⟨_, bs, _⟩ l r s e w rfl rfl he hl hr h1 h2, lw => by
    have e1 := h1.xml []
    have e2 := h2.xml [' ']
    have n1 := h1.noAttr
    have a1 : xmlAttrs [l, r] = .ok [] := by cases h1 <;> rfl
    have a2 : kids [l, r] = [l, r] := by simp [kids, n1]
    have a3 : firstLw [' '] = [] := rfl
    have a4 : firstOnNextLine [l, r] = false := by simp [firstOnNextLine, hl]
    have a5 : xmlKids .lead [l, r] = .ok (bush d ++ ' ' :: bush d) := by
      simp only [xmlKids, n1, hl, a3, e1, hr, e2]
      simp
    rw [xmlNode]
    simp only [a1, a2, a4, a5, closeWs, he, bush]
    simp

theorem Bush.expr (dbg : Str → Str) : ∀ {d : Nat} {x : PNode}, Bush d x → sexpNode dbg x = x.lw ++ bushExpr d ∧ textNode x = x.lw ++ bushExpr d
  | _, _, .leaf a h => by
    simp [sexpNode, textNode, h, bushExpr, PNode.lw]
  | _, _, .node d ⟨_, bs, _⟩ l r s e w rfl rfl he hl hr h1 h2 => by
    obtain ⟨e1, f1⟩ := h1.expr dbg
    obtain ⟨e2, f2⟩ := h2.expr dbg
    rw [hl] at e1 f1
    rw [hr] at e2 f2
    simp [sexpNode, textNode, sexpNodes, textNodes, he, bushExpr, PNode.lw, e1, e2, f1, f2]

/-! ## The nodes of the program -/

/-- The body of the macro with the number `n`. -/
def doubleBody : Nat → PNode
  | 0 => li [sy (str! "b") [], sy (str! "%x") [' '], sy (str! "%x") [' ']] []
  | n + 1 => li [sy ('%' :: stateName n) [], li [sy ('%' :: stateName n) [], sy (str! "%x") [' ']] [' ']] []

def doubleNode (n : Nat) : PNode :=
  li [sy (str! "%define") [], li [sy (stateName n) [], sy (str! "x") [' ']] [' '], doubleBody n] []

def doubleNodes : Nat → List PNode
  | 0 => [doubleNode 0]
  | n + 1 => doubleNodes n ++ [doubleNode (n + 1)]

def blowCall (n : Nat) : PNode := li [sy ('%' :: stateName n) [], sy (str! "a") [' ']] []

theorem doubleNodes_text (dbg : Str → Str) : ∀ n, sexpNodes dbg (doubleNodes n) = doublers n
  | 0 => by simp [doubleNodes, doubleNode, doubleBody, li, sy, sexpNode, sexpNodes, doublers, close, stateName]
  | n + 1 => by
    simp [doubleNodes, sexpNodes_app, doubleNodes_text dbg n, doubleNode, doubleBody, li, sy, sexpNode, sexpNodes, doublers, close]

theorem blow_text (dbg : Str → Str) (n : Nat) : sexpNodes dbg (doubleNodes n ++ [blowCall n]) = blowProgram n := by
  rw [sexpNodes_app, doubleNodes_text]
  simp [blowProgram, blowCall, li, sy, sexpNode, sexpNodes, close]

theorem doubleNode_printable (u : Unescape) (dbg : Str → Str) (n : Nat) : Printable u dbg (doubleNode n) := by
  have x1 : Printable u dbg (sy (str! "%x") [' ']) := sy_printable _ _ _ _ blanks_one (word_of _ rfl rfl)
  have hb : Printable u dbg (doubleBody n) := by
    cases n with
    | zero => exact li_printable _ _ _ _ blanks_nil (printables_three (sy_printable _ _ _ _ blanks_nil (word_of _ rfl rfl)) x1 x1 rfl rfl)
    | succ n =>
      exact li_printable _ _ _ _ blanks_nil (printables_two (sy_printable _ _ _ _ blanks_nil (call_word n))
        (li_printable _ _ _ _ blanks_one (printables_two (sy_printable _ _ _ _ blanks_nil (call_word n)) x1 rfl)) rfl)
  refine li_printable _ _ _ _ blanks_nil (.cons _ _ _ (sy_printable _ _ _ _ blanks_nil (word_of _ rfl rfl)) (spaced_apart _ _ rfl)
    (.cons _ _ _ (li_printable _ _ _ _ blanks_one (printables_two (sy_printable _ _ _ _ blanks_nil (state_word n))
      (sy_printable _ _ _ _ blanks_one (word_of _ rfl rfl)) rfl)) ?_ (.one _ hb)))
  cases n <;> exact lists_apart _ _ _ _ _ rfl

theorem blow_printable (u : Unescape) (dbg : Str → Str) : ∀ (n : Nat) (x : PNode) (xs : List PNode), Printables u dbg (x :: xs) →
    (∃ bs w, x = li bs w) → Printables u dbg (doubleNodes n ++ x :: xs)
  | 0, x, xs, h, ⟨bs, w, hx⟩ => .cons _ _ _ (doubleNode_printable u dbg 0) (lists_apart _ _ _ _ _ hx) h
  | n + 1, x, xs, h, ⟨bs, w, hx⟩ => by
    rw [doubleNodes, List.append_assoc]
    exact blow_printable u dbg n _ _ (.cons _ _ _ (doubleNode_printable u dbg (n + 1)) (lists_apart _ _ _ _ _ hx) h) ⟨_, _, rfl⟩

theorem blowCall_printable (u : Unescape) (dbg : Str → Str) (n : Nat) : Printable u dbg (blowCall n) :=
  li_printable _ _ _ _ blanks_nil (printables_two (sy_printable _ _ _ _ blanks_nil (call_word n))
    (sy_printable _ _ _ _ blanks_one (word_of _ rfl rfl)) rfl)

/-! ## Running it -/

/-- The macros up to the one with the number `n` are there. -/
def Doubles (n : Nat) (s : St) : Prop :=
  ∀ k, k ≤ n → ∃ m, s.scope (stateName k) = some m ∧ SameNodes [sy (str! "x") [' ']] m.params ∧ SameNodes [doubleBody k] m.body

def doubleState (s : St) (A : PNode) : St := { s with scope := s.scope.insert (str! "x") (Macro.var [A]) }

theorem Doubles.bound {n : Nat} {s : St} (h : Doubles n s) (A : PNode) : Doubles n (doubleState s A) := by
  intro k hk
  obtain ⟨m, h1, h2⟩ := h k hk
  refine ⟨m, ?_, h2⟩
  rw [← h1]
  simp [doubleState, Scope.insert, stateName]

theorem bind_double (c : PNode) {x : Node} (hx : x.value = str! "x") {d : Nat} {A : PNode} (hA : Bush d A) (s : St) :
    bindList c [.symbol x] [A] s = (.ok (), doubleState s A) := by
  have hx' : x = ⟨str! "x", x.site, x.lw⟩ := by rw [← hx]
  rw [hx']
  cases hA <;> rfl

theorem bush_var {ext : Ext} {w : Str} {x : PNode} (h : SameNode (sy (str! "%x") w) x) {s : St} {d : Nat} {A : PNode} (hA : Bush d A) :
    ∃ v, Evals ext [x] (doubleState s A) (.ok [v]) (doubleState s A) ∧ Bush d v ∧ v.lw = w := by
  match x, h with
  | .symbol a, h =>
    refine ⟨A.setLw a.lw, evals_var (name := str! "x") h.1.symm (by simp [doubleState, Scope.insert]) (macroFree_evals ext A hA.free _), hA.setLw _, ?_⟩
    rw [setLw_lw]
    exact h.2.symm

theorem call_one {name w : Str} {X n : PNode} (h : SameNode (li [sy ('%' :: name) [], X] w) n) (hX : X.lw = [' ']) :
    ∃ x, SameNode X x ∧ IsCall name [x.setLw []] n := by
  match n, h with
  | .list [.symbol f, x] si e w', h =>
    obtain ⟨⟨⟨hf, -⟩, hx, -⟩, -, -⟩ := h
    refine ⟨x, hx, .mk f [x] si e w' hf.symm ?_⟩
    have : x.lw = [' '] := by rw [← sameNode_lw hx, hX]
    simp [dropFirstBlank, this]

theorem doubles_call (ext : Ext) {n : Nat} : ∀ (k : Nat), k ≤ n → ∀ {c : PNode} {args : List PNode} {A : PNode} {s : St} {d : Nat},
    Doubles n s → IsCall (stateName k) args c → Evals ext args s (.ok [A]) s → Bush d A →
    ∃ v, Evals ext [c] s (.ok [v]) s ∧ Bush (d + 2 ^ k) v ∧ v.lw = []
  | 0, hk, c, args, A, s, d, hs, hc, ha, hA => by
    obtain ⟨m, hm, hp, hb⟩ := hs 0 hk
    match hmp : m.params, hp with
    | [.symbol x], hp =>
      match hmb : m.body, hb with
      | [body], hb =>
        obtain ⟨ms, si, e, rfl, h1⟩ := same_list hb.1
        have he : e.lw = [] := hb.1.2.1.symm
        match ms, h1 with
        | [.symbol b, y, z], h1 =>
          obtain ⟨⟨h2, h2'⟩, h3, h4, -⟩ := h1
          obtain ⟨l, l1, l2, l3⟩ := bush_var (ext := ext) (s := s) h3 hA
          obtain ⟨r, r1, r2, r3⟩ := bush_var (ext := ext) (s := s) h4 hA
          have eb : Evals ext [.symbol b] (doubleState s A) (.ok [.symbol b]) (doubleState s A) := by
            refine macroFree_evals ext _ (.symbol b ?_) _
            rw [show b.value = str! "b" from h2.symm]
            intro r hr
            cases hr
          have el := evals_list (ext := ext) (ns := [.symbol b, y, z]) (by
            intro a t name ht
            cases ht
            rw [show b.value = str! "b" from h2.symm]
            intro hr
            cases hr) (eb.cons (l1.cons r1)) si e []
          have hbd : bindList c m.params [A] s = (.ok (), doubleState s A) := by rw [hmp]; exact bind_double c hp.1.1.symm hA s
          have eu := evals_user_ok hc (builtin_state _) ha hm hbd (hmb ▸ el)
          refine ⟨_, eu, ?_, rfl⟩
          · exact .node _ _ _ _ _ _ _ h2.symm h2'.symm he l3 r3 l2 r2
  | k + 1, hk, c, args, A, s, d, hs, hc, ha, hA => by
    obtain ⟨m, hm, hp, hb⟩ := hs (k + 1) hk
    match hmp : m.params, hp with
    | [.symbol x], hp =>
      match hmb : m.body, hb with
      | [body], hb =>
        have hs' := hs.bound A
        obtain ⟨i, hi, c1⟩ := call_one hb.1 rfl
        obtain ⟨y, hy, c2⟩ := call_one (setLw_same (v := []) hi) rfl
        obtain ⟨l, l1, l2, l3⟩ := bush_var (ext := ext) (s := s) (sy_setLw_same (v := []) hy) hA
        obtain ⟨v1, e1, b1, -⟩ := doubles_call ext k (by omega) hs' c2 l1 l2
        obtain ⟨v2, e2, b2, w2⟩ := doubles_call ext k (by omega) hs' c1 e1 b1
        have hbd : bindList c m.params [A] s = (.ok (), doubleState s A) := by rw [hmp]; exact bind_double c hp.1.1.symm hA s
        have eu := evals_user_ok hc (builtin_state _) ha hm hbd (hmb ▸ e2)
        refine ⟨v2, eu, ?_, w2⟩
        · rw [show d + 2 ^ (k + 1) = d + 2 ^ k + 2 ^ k by rw [Nat.pow_succ]; omega]
          exact b2

theorem double_evals (ext : Ext) {k : Nat} {n : PNode} (h : SameNode (doubleNode k) n) (s : St) :
    ∃ m, Evals ext [n] s (.ok []) { s with scope := s.scope.insert (stateName k) m } ∧
      SameNodes [sy (str! "x") [' ']] m.params ∧ SameNodes [doubleBody k] m.body := by
  obtain ⟨ms, si, e, rfl, hm⟩ := same_list h
  match ms, hm with
  | [.symbol a, hd, b], hm =>
    obtain ⟨⟨ha, -⟩, hh, hb, -⟩ := hm
    obtain ⟨ms, s1, e1, rfl, hm⟩ := same_list hh
    match ms, hm with
    | [.symbol f, .symbol x], hm =>
      obtain ⟨⟨hf, -⟩, hx, -⟩ := hm
      have hcall : IsCall (str! "define") [.list (.symbol f :: [.symbol x]) s1 e1 [], b]
          (.list [.symbol a, .list [.symbol f, .symbol x] s1 e1 [' '], b] si e []) := .mk a _ _ _ _ ha.symm rfl
      refine ⟨{ params := [.symbol x], body := [b] }, (evals_define_function (ext := ext) hcall).2 ⟨by simp, ?_⟩, ⟨hx, trivial⟩, hb, trivial⟩
      rw [← hf]
      have hx' : x = ⟨str! "x", x.site, x.lw⟩ := by
        have : x.value = str! "x" := hx.1.symm
        rw [← this]
      rw [hx']
      rfl

theorem doubles_evals (ext : Ext) (s : St) : ∀ (n : Nat) (ns : List PNode), SameNodes (doubleNodes n) ns →
    ∃ t, Evals ext ns s (.ok []) t ∧ Doubles n t
  | 0, ns, h => by
    match ns, h with
    | [n], h =>
      obtain ⟨m, h1, h2⟩ := double_evals ext h.1 s
      refine ⟨_, h1, fun k hk => ⟨m, ?_, ?_⟩⟩
      · obtain rfl : k = 0 := by omega
        simp [Scope.insert]
      · obtain rfl : k = 0 := by omega
        exact h2
  | n + 1, ns, h => by
    obtain ⟨as, bs, rfl, h1, h2⟩ := sameNodes_split _ _ _ h
    obtain ⟨t, e1, d1⟩ := doubles_evals ext s n as h1
    match bs, h2 with
    | [b], h2 =>
      obtain ⟨m, h3, h4⟩ := double_evals ext h2.1 t
      refine ⟨_, e1.append h3, fun k hk => ?_⟩
      by_cases hk' : k = n + 1
      · subst hk'
        exact ⟨m, by simp [Scope.insert], h4⟩
      · obtain ⟨m', h5, h6⟩ := d1 k (by omega)
        refine ⟨m', ?_, h6⟩
        have : (stateName k == stateName (n + 1)) = false := by
          rw [beq_eq_false_iff_ne]
          exact fun e => hk' (stateName_inj e)
        simp [Scope.insert, h5]
        intro e
        exact absurd (stateName_inj e) hk'

/-- What the program gives. -/
theorem blow_expands (ext : Ext) (order : Order) (path : Str) (n : Nat) :
    ∃ x, ExpandsTo ext order path (blowProgram n) (.ok [x]) ∧ Bush (2 ^ n) x ∧ x.lw = [] := by
  obtain ⟨tree, h1, h2⟩ := C14_sexp_reads_back ext.unescape id _
    (blow_printable ext.unescape id n _ [] (.one _ (blowCall_printable ext.unescape id n)) ⟨_, _, rfl⟩) path 1
  rw [blow_text] at h1
  obtain ⟨ds, cs, rfl, hd, hc⟩ := sameNodes_split _ _ _ h2
  match cs, hc with
  | [c], hc =>
    obtain ⟨s, e1, d1⟩ := doubles_evals ext { scope := Scope.empty, fresh := 2, log := [], hashes := 0, order := order } n ds hd
    obtain ⟨x, hx, hcall⟩ := call_one (name := stateName n) hc.1 rfl
    have hx' : Bush 0 (x.setLw []) := by
      match x, hx with
      | .symbol a, hx => exact .leaf _ hx.1.symm
    obtain ⟨v, e2, b2, w2⟩ := doubles_call ext n (Nat.le_refl n) d1 hcall (macroFree_evals ext _ hx'.free s) hx'
    rw [Nat.zero_add] at b2
    exact ⟨v, .inl ⟨_, s, h1, e1.append e2⟩, b2, w2⟩

/-! ## It is a program without recursion -/

/-- The macro with the number `n` has the rank `n + 1`. -/
def doubleRank : Str → Nat := fun name => if name = str! "x" then 0 else name.length

theorem doubleRank_state (k : Nat) : doubleRank (stateName k) = k + 1 := by
  simp [doubleRank, stateName]

theorem word_same {t w : Str} {x : PNode} (h : SameNode (sy t w) x) (ht : ∀ name, t ≠ '%' :: name) (ext : Ext) (k : Nat) :
    Tame ext doubleRank k x ∧ MacroFree x ∧ ∃ a, x = .symbol a ∧ ∀ name, a.value ≠ '%' :: name := by
  match x, h with
  | .symbol a, h =>
    have : ∀ name, a.value ≠ '%' :: name := by
      rw [show a.value = t from h.1.symm]
      exact ht
    exact ⟨.word _ _ this, .symbol _ this, a, rfl, this⟩

theorem var_same {w : Str} {x : PNode} (h : SameNode (sy (str! "%x") w) x) (ext : Ext) (k : Nat) : Tame ext doubleRank (k + 1) x := by
  match x, h with
  | .symbol a, h => exact .variable _ _ (str! "x") h.1.symm (by simp [doubleRank])

theorem double_body_tame {k : Nat} {b : PNode} (h : SameNode (doubleBody k) b) (ext : Ext) : Tame ext doubleRank (k + 1) b := by
  match k, h with
  | 0, h =>
    obtain ⟨ms, si, e, rfl, h1⟩ := same_list h
    match ms, h1 with
    | [x, y, z], h1 =>
      obtain ⟨hx, hy, hz, -⟩ := h1
      obtain ⟨t1, -, a, rfl, ha⟩ := word_same hx (by simp) ext 1
      refine .list _ _ _ _ _ (fun a' t e => by cases e; exact ha) (.cons _ _ _ t1 (.cons _ _ _ (var_same hy ext 0) (.cons _ _ _ (var_same hz ext 0) (.nil _))))
  | k + 1, h =>
    obtain ⟨i, hi, c1⟩ := call_one h rfl
    obtain ⟨y, hy, c2⟩ := call_one (setLw_same (v := []) hi) rfl
    have hc : Callable doubleRank (k + 1 + 1) (stateName k) := .inl ⟨builtin_state _, by rw [doubleRank_state]; omega⟩
    exact .call _ _ _ _ c1 hc (.cons _ _ _ (.call _ _ _ _ c2 hc (.cons _ _ _ (var_same (sy_setLw_same (v := []) hy) ext _) (.nil _))) (.nil _))

theorem double_tame {k : Nat} {n : PNode} (h : SameNode (doubleNode k) n) (ext : Ext) (j : Nat) : Tame ext doubleRank j n := by
  obtain ⟨ms, si, e, rfl, hm⟩ := same_list h
  match ms, hm with
  | [.symbol a, hd, b], hm =>
    obtain ⟨⟨ha, -⟩, hh, hb, -⟩ := hm
    obtain ⟨ms, s1, e1, rfl, hm⟩ := same_list hh
    match ms, hm with
    | [.symbol f, x], hm =>
      obtain ⟨⟨hf, -⟩, hx, -⟩ := hm
      have hcall : IsCall (str! "define") [.list (.symbol f :: [x]) s1 e1 [], b]
          (.list [.symbol a, .list [.symbol f, x] s1 e1 [' '], b] si e []) := .mk a _ _ _ _ ha.symm rfl
      refine .function _ _ f _ _ _ _ _ hcall (.cons _ _ (word_same hx (by simp) ext 0).2.1 .nil) (.cons _ _ _ ?_ (.nil _))
      rw [← hf, doubleRank_state]
      exact double_body_tame hb ext

theorem tames_app {ext : Ext} {rank : Str → Nat} {k : Nat} : ∀ {as bs : List PNode}, Tames ext rank k as → Tames ext rank k bs → Tames ext rank k (as ++ bs)
  | [], _, _, h => h
  | _ :: _, _, .cons _ _ _ h1 h2, h => .cons _ _ _ h1 (tames_app h2 h)

theorem doubles_tame (ext : Ext) (j : Nat) : ∀ (n : Nat) (ns : List PNode), SameNodes (doubleNodes n) ns → Tames ext doubleRank j ns
  | 0, ns, h => by
    match ns, h with
    | [n], h => exact .cons _ _ _ (double_tame h.1 ext j) (.nil _)
  | n + 1, ns, h => by
    obtain ⟨as, bs, rfl, h1, h2⟩ := sameNodes_split _ _ _ h
    match bs, h2 with
    | [b], h2 => exact tames_app (doubles_tame ext j n as h1) (.cons _ _ _ (double_tame h2.1 ext j) (.nil _))

theorem blow_tame (ext : Ext) (path : Str) (n : Nat) (tree : List PNode)
    (hp : parse ext.unescape { path := path, id := 1, code := blowProgram n } = .ok tree) : Tames ext doubleRank (n + 2) tree := by
  obtain ⟨tree', h1, h2⟩ := C14_sexp_reads_back ext.unescape id _
    (blow_printable ext.unescape id n _ [] (.one _ (blowCall_printable ext.unescape id n)) ⟨_, _, rfl⟩) path 1
  rw [blow_text, hp] at h1
  cases h1
  obtain ⟨ds, cs, rfl, hd, hc⟩ := sameNodes_split _ _ _ h2
  match cs, hc with
  | [c], hc =>
    obtain ⟨x, hx, hcall⟩ := call_one (name := stateName n) hc.1 rfl
    refine tames_app (doubles_tame ext _ n ds hd) (.cons _ _ _ (.call _ _ _ _ hcall
      (.inl ⟨builtin_state _, by rw [doubleRank_state]; omega⟩) (.cons _ _ _ ?_ (.nil _))) (.nil _))
    exact (word_same (sy_setLw_same (v := []) hx) (by simp) ext _).1

theorem bush_length : ∀ d, 2 ^ d ≤ (bush d).length ∧ 2 ^ d ≤ (bushExpr d).length
  | 0 => by simp [bush, bushExpr]
  | d + 1 => by
    have := bush_length d
    simp only [bush, bushExpr, List.length_append, Nat.pow_succ]
    omega

theorem doublers_length : ∀ n, (doublers n).length ≤ 30 * (n + 1) * (n + 1)
  | 0 => by simp [doublers]
  | n + 1 => by
    have := doublers_length n
    simp only [doublers, List.length_append, stateName, List.length_cons, List.length_replicate, List.length_nil]
    have e : 30 * (n + 1 + 1) * (n + 1 + 1) = 30 * (n + 1) * (n + 1) + 60 * (n + 1) + 30 := by
      simp only [Nat.mul_add, Nat.add_mul, Nat.mul_one]
      omega
    omega

end Seam
