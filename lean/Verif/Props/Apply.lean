import Verif.Lemmas.Cases
import Verif.Lemmas.Apply
import Verif.Props.Lists

/-!
# Properties of `%apply`, `%map`, `%filter` and `%lambda` (C50)

`vs` are the expanded arguments of the call `c`; `u` is the state after their expansion.
`dropPositional 1 vs` are the arguments without the first one that is not named.
-/

namespace Seam
open Spec

/-- C50: `%apply` calls the macro that the first argument names with the values of the
other arguments, positional and named. Missing: the values are expanded again by the call, so that
this differs from calling the macro with the arguments as they are written, see `C50_apply_false`. -/
theorem C50_apply_partial (ext : Ext) (c : PNode) (args vs back : List PNode) (f : Node) (s u t : St) (r : Res (List PNode))
    (hc : IsCall (str! "apply") args c) (ha : Evals ext args s (.ok vs) u) (hp : positional vs = .symbol f :: back) :
    Evals ext [c] s r t ↔ Invokes ext f.value c (dropPositional 1 vs) u r t := evals_apply hc ha hp

/-- C50: in particular `(%apply f ws...)` has the same outcome as `(%f ws...)` written in the same
place, for all values `ws`. -/
theorem C50_apply_direct (ext : Ext) (args ws ns ns' : List PNode) (f : Node) (si : Site) (e : Token) (w : Str) (s u t : St)
    (r : Res (List PNode)) (hc : IsCall (str! "apply") args (.list ns si e w))
    (hc' : IsCall f.value ws (.list ns' si e w)) (ha : Evals ext args s (.ok (.symbol f :: ws)) u) :
    Evals ext [.list ns si e w] s r t ↔ Evals ext [.list ns' si e w] u r t := by
  rw [evals_apply hc ha (f := f) (back := positional ws) rfl, evals_call hc', invokes_call (ns' := ns'), dropPositional_symbol]

/-- C50, without macros in the arguments: `(%apply f ws...)` is `(%f ws...)`. -/
theorem C50_apply_plain (ext : Ext) (ws ns ns' : List PNode) (f : Node) (si : Site) (e : Token) (w : Str) (s t : St)
    (r : Res (List PNode)) (hc : IsCall (str! "apply") (.symbol f :: ws) (.list ns si e w))
    (hc' : IsCall f.value ws (.list ns' si e w)) (hf : ∀ name, f.value ≠ '%' :: name) (hw : MacrosFree ws) :
    Evals ext [.list ns si e w] s r t ↔ Evals ext [.list ns' si e w] s r t :=
  C50_apply_direct ext _ ws ns ns' f si e w s s t r hc hc' (macrosFree_evals ext _ (.cons _ _ (.symbol f hf) hw) s)

/-- C50 is false for arguments whose values contain macros: with `(%define (f a) b)`,
`(%apply f (%symbol "%y"))` is an error and `(%f (%symbol "%y"))` is `b`. -/
theorem C50_apply_false : ∃ (ext : Ext) (ws ns ns' : List PNode) (f : Node) (si : Site) (e : Token) (w : Str) (s t t' : St) (er : Err),
    IsCall (str! "apply") (.symbol f :: ws) (.list ns si e w) ∧ IsCall f.value ws (.list ns' si e w) ∧
    Evals ext [.list ns si e w] s (.err er) t ∧ Evals ext [.list ns' si e w] s (.ok [exSym ['b']]) t' := by
  let arg := exList [exSym (str! "%symbol"), exStr (str! "%y")]
  let s : St := { exSt with scope := exSt.scope.insert ['f'] { params := [exSym ['a']], body := [exSym ['b']] } }
  obtain ⟨er, t, h, _⟩ : ∃ e t, Evals exExt [exList [exSym (str! "%apply"), exSym ['f'], arg]] s (.err e) t ∧ true = true :=
    evals_err_of 10 (fun _ => true) (by decide +kernel)
  obtain ⟨t', h', _⟩ : ∃ t, Evals exExt [exList [exSym (str! "%f"), arg]] s (.ok [exSym ['b']]) t ∧ true = true :=
    evals_ok_of 10 (fun _ => true) (by decide +kernel)
  exact ⟨_, [arg], _, _, _, _, _, _, _, _, _, er, .mk _ _ _ _ _ rfl rfl, .mk _ _ _ _ _ rfl rfl, h, h'⟩

/-- C50: `%map` calls the macro on each of the other arguments, in order, and puts the
results one after the other; it stops at the first failure. -/
theorem C50_map (ext : Ext) (c : PNode) (args vs back : List PNode) (f : Node) (s u t : St) (r : Res (List PNode))
    (hc : IsCall (str! "map") args c) (ha : Evals ext args s (.ok vs) u) (hp : positional vs = .symbol f :: back) :
    Evals ext [c] s r t ↔ ∃ r', Calls ext f.value c (dropPositional 1 vs) u r' t ∧ r = mapRes List.flatten r' :=
  evals_map hc ha hp

/-- C50: `%filter` does the same and leaves out results that are just the empty list. -/
theorem C50_filter (ext : Ext) (c : PNode) (args vs back : List PNode) (f : Node) (s u t : St) (r : Res (List PNode))
    (hc : IsCall (str! "filter") args c) (ha : Evals ext args s (.ok vs) u) (hp : positional vs = .symbol f :: back) :
    Evals ext [c] s r t ↔ ∃ r', Calls ext f.value c (dropPositional 1 vs) u r' t ∧
      r = mapRes (fun rs => (rs.filter fun x => !emptyList x).flatten) r' := evals_filter hc ha hp

/-- C50: calling the macro on an element is expanding the direct call. -/
theorem C50_element (ext : Ext) (n : PNode) (ns ns' : List PNode) (f : Str) (si : Site) (e : Token) (w : Str) (s t : St)
    (r : Res (List PNode)) (hc : IsCall f [n] (.list ns' si e w)) :
    Invokes ext f (.list ns si e w) [n] s r t ↔ Evals ext [.list ns' si e w] s r t := by
  rw [evals_call hc, invokes_call (ns' := ns')]

/-- C50: there is one result for each element. -/
theorem C50_map_length (ext : Ext) (c : PNode) (f : Str) (ns : List PNode) (rs : List (List PNode)) (s t : St)
    (h : Calls ext f c ns s (.ok rs) t) : rs.length = ns.length := calls_length h rs rfl

/-- C50: without the name of a macro as the first positional argument they are errors. -/
theorem C50_rejects (ext : Ext) (name : Str) (hn : name ∈ [str! "apply", str! "map", str! "filter"]) (c : PNode)
    (args vs : List PNode) (s u : St) (hc : IsCall name args c) (ha : Evals ext args s (.ok vs) u)
    (hp : ¬ ∃ f back, positional vs = .symbol f :: back) : ∃ e, Evals ext [c] s (.err e) u := by
  simp only [List.mem_cons, List.not_mem_nil, or_false] at hn
  rcases hn with rfl | rfl | rfl
  · exact function_rejects hc apply_mem ha hp
  · exact function_rejects hc map_mem ha hp
  · exact function_rejects hc filter_mem ha hp

/-- C50: `(%lambda params body...)` defines a macro with the given parameters and body, which
is not expanded, and yields its name. -/
theorem C50_lambda (ext : Ext) (c head : PNode) (args back ps : List PNode) (s : St)
    (hc : IsCall (str! "lambda") args c) (hp : positional args = head :: back) (hh : LambdaParams head ps)
    (h1 : (restNames ps).length ≤ 1) (h2 : (kwRestNames ps).length ≤ 1) :
    ∃ a t, Evals ext [c] s (.ok [.symbol a]) t ∧ t.scope a.value = some { params := ps, body := dropPositional 1 args } ∧
      builtin? a.value = none ∧ a.value = str! "__lambda" ++ ext.uuid c.site ∧ a.lw = c.lw ∧
      (∀ y, y ≠ a.value → t.scope y = s.scope y) ∧ t = { s with scope := t.scope } :=
  ⟨_, _, lambda_ok hc hp hh h1 h2 s, by simp [Scope.insert], builtin?_lambda _, rfl, rfl,
    fun y hy => if_neg (by simpa using hy), rfl⟩

/-- C50: anything but a symbol or a list as the first argument of `%lambda`, or two `&` or two
`&&` parameters, is an error, and nothing is defined. -/
theorem C50_lambda_rejects (ext : Ext) (c : PNode) (args : List PNode) (s : St) (hc : IsCall (str! "lambda") args c)
    (h : ¬ ∃ head back ps, positional args = head :: back ∧ LambdaParams head ps ∧ (restNames ps).length ≤ 1 ∧
      (kwRestNames ps).length ≤ 1) : ∃ e, Evals ext [c] s (.err e) s := by
  cases hp : positional args with
  | nil => exact lambda_none hc hp s
  | cons head back => exact lambda_err hc hp (fun ⟨ps, h1⟩ => h ⟨head, back, ps, hp, h1⟩) s

/-- C50: `(%define (f params...) body...)` does the same for the name `f`. -/
theorem C50_define_function (ext : Ext) (c : PNode) (f : Node) (ps body : List PNode) (si : Site) (e : Token) (w : Str) (s : St)
    (hc : IsCall (str! "define") (.list (.symbol f :: ps) si e w :: body) c) :
    ((restNames ps).length ≤ 1 ∧ (kwRestNames ps).length ≤ 1 →
      Evals ext [c] s (.ok []) { s with scope := s.scope.insert f.value { params := ps, body := body } }) ∧
    (¬ ((restNames ps).length ≤ 1 ∧ (kwRestNames ps).length ≤ 1) → ∃ er, Evals ext [c] s (.err er) s) := by
  constructor
  · rintro ⟨h1, h2⟩
    exact (evals_define_function hc).2 ⟨by simp, M.bind_ok (createMacro_ok h1 h2 _ _ s)⟩
  · intro h
    obtain ⟨er, he⟩ := createMacro_err h f.value body s
    exact ⟨er, (evals_define_function hc).2 ⟨by simp, M.bind_err he⟩⟩

/-- C50: applying the name that `%lambda` yielded to values without macros that match the parameters
expands the body with the parameters bound. -/
theorem C50_apply_lambda (ext : Ext) (c : PNode) (args vs ps body : List PNode) (x : Str) (a : Node) (s u : St)
    (hc : IsCall (str! "apply") args c) (ha : Evals ext args s (.ok (.symbol a :: vs)) u) (hv : MacrosFree vs)
    (hx : a.value = str! "__lambda" ++ x) (hm : u.scope a.value = some { params := ps, body := body }) (hf : Fair s.order) :
    (∀ sc, MatchesList ps vs u.scope sc → ∃ v, MatchesList ps vs u.scope v.scope ∧ SameEffects u v ∧
      ∀ r t, Evals ext [c] s r t ↔ ∃ t', Evals ext body v r t' ∧ t = { t' with scope := u.scope }) ∧
    ((∀ sc, ¬ MatchesList ps vs u.scope sc) → ∃ e t, Evals ext [c] s (.err e) t ∧ t.scope = u.scope ∧ SameEffects u t) := by
  have hb : builtin? a.value = none := hx ▸ builtin?_lambda x
  have key := fun r t => evals_apply (r := r) (t := t) hc ha (f := a) (back := positional vs) rfl
  have hvs : Evals ext (dropPositional 1 (.symbol a :: vs)) u (.ok vs) u := by
    rw [dropPositional_symbol]
    exact macrosFree_evals ext vs hv u
  constructor
  · intro sc hs
    rcases bindList_cases c ps vs u (evals_fair ha hf) with ⟨v, h1, h2, h3⟩ | ⟨e, v, _, h2, _⟩
    · refine ⟨v, h2, h3, fun r t => ?_⟩
      rw [key, invokes_user_ok hb hvs hm h1]
    · exact absurd hs (h2 sc)
  · intro hs
    rcases bindList_cases c ps vs u (evals_fair ha hf) with ⟨v, _, h2, _⟩ | ⟨e, v, h1, _, h3⟩
    · exact absurd h2 (hs _)
    · exact ⟨e, _, (key _ _).2 (invokes_user_err hb hvs hm h1), rfl, h3⟩

/-! ## Examples -/

/-- `(%define (f a) (%a "."))(%map f x y)`, and `%apply`, `%filter`. -/
def exDefG : PNode := exList [exSym (str! "%define"), exList [exSym ['g'], exSym ['a']], exList [exSym ['p'], exSym (str! "%a")]]
example : ∃ t, Evals exExt [exDefG, exList [exSym (str! "%map"), exSym ['g'], exSym ['x'], exSym ['y']]] exSt
    (.ok [exList [exSym ['p'], exSym ['x']], exList [exSym ['p'], exSym ['y']]]) t :=
  evals_ok_at 10 (by decide +kernel)
example : ∃ t, Evals exExt [exDefG, exList [exSym (str! "%apply"), exSym ['g'], exSym ['x']]] exSt
    (.ok [exList [exSym ['p'], exSym ['x']]]) t :=
  evals_ok_at 10 (by decide +kernel)
example : ∃ t, Evals exExt [exList [exSym (str! "%filter"), exSym (str! "do"), exList [], exSym ['y'], exList [exSym ['z']]]] exSt
    (.ok [exSym ['y'], exList [exSym ['z']]]) t :=
  evals_ok_at 10 (by decide +kernel)
/-- `(%apply (%lambda (a &b) %b %a) 1 2 3)`. -/
example : ∃ t, Evals exExt [exList [exSym (str! "%apply"),
    exList [exSym (str! "%lambda"), exList [exSym ['a'], exSym (str! "&b")], exSym (str! "%b"), exSym (str! "%a")],
    exNum ['1'], exNum ['2'], exNum ['3']]] exSt (.ok [exNum ['2'], exNum ['3'], exNum ['1']]) t :=
  evals_ok_at 10 (by decide +kernel)
example : IsCall (str! "apply") [exSym ['g'], exSym ['x']] (exList [exSym (str! "%apply"), exSym ['g'], exSym ['x']]) ∧
    IsCall ['g'] [exSym ['x']] (exList [exSym (str! "%g"), exSym ['x']]) ∧ MacrosFree [exSym ['x']] :=
  ⟨.mk _ _ _ _ _ rfl rfl, .mk _ _ _ _ _ rfl rfl, .cons _ _ (.symbol _ (fun _ => by simp)) .nil⟩
example : LambdaParams (exList [exSym ['a'], exSym (str! "&b")]) [exSym ['a'], exSym (str! "&b")] ∧
    (restNames [exSym ['a'], exSym (str! "&b")]).length ≤ 1 ∧ (kwRestNames [exSym ['a'], exSym (str! "&b")]).length ≤ 1 :=
  ⟨.list _ _ _ _, by decide, by decide⟩
example : ¬ (restNames [exSym (str! "&a"), exSym (str! "&b")]).length ≤ 1 := by decide

/-- The theorems on `(%apply g x)`, `(%map g x y)`, `(%filter g x y)`, `(%apply "g")`, and `(%lambda (a &b) %b)`. -/
example (s t : St) (r : Res (List PNode)) := C50_apply_partial exExt (exList [exSym (str! "%apply"), exSym ['g'], exSym ['x']])
  _ _ _ _ s s t r (.mk _ _ _ _ _ rfl rfl) (plain_evals _ [exSym ['g'], exSym ['x']] _ rfl) rfl
example (s t : St) (r : Res (List PNode)) := C50_apply_direct exExt _ [exSym ['x']]
  [exSym (str! "%apply"), exSym ['g'], exSym ['x']] [exSym (str! "%g"), exSym ['x']] ⟨['g'], default, []⟩ default default [] s s t r
  (.mk _ _ _ _ _ rfl rfl) (.mk _ _ _ _ _ rfl rfl) (plain_evals _ _ _ rfl)
example (s t : St) (r : Res (List PNode)) := C50_apply_plain exExt [exSym ['x']]
  [exSym (str! "%apply"), exSym ['g'], exSym ['x']] [exSym (str! "%g"), exSym ['x']] ⟨['g'], default, []⟩ default default [] s t r
  (.mk _ _ _ _ _ rfl rfl) (.mk _ _ _ _ _ rfl rfl) (by simp) (freeNodes_sound _ rfl)
example (s t : St) (r : Res (List PNode)) := C50_map exExt (exList [exSym (str! "%map"), exSym ['g'], exSym ['x'], exSym ['y']])
  _ _ _ _ s s t r (.mk _ _ _ _ _ rfl rfl) (plain_evals _ [exSym ['g'], exSym ['x'], exSym ['y']] _ rfl) rfl
example (s t : St) (r : Res (List PNode)) := C50_filter exExt (exList [exSym (str! "%filter"), exSym ['g'], exSym ['x'], exSym ['y']])
  _ _ _ _ s s t r (.mk _ _ _ _ _ rfl rfl) (plain_evals _ [exSym ['g'], exSym ['x'], exSym ['y']] _ rfl) rfl
example (s t : St) (r : Res (List PNode)) := C50_element exExt (exSym ['x']) [exSym (str! "%map"), exSym ['g'], exSym ['x']]
  [exSym (str! "%g"), exSym ['x']] ['g'] default default [] s t r (.mk _ _ _ _ _ rfl rfl)
example := C50_rejects exExt (str! "apply") (by simp) (exList [exSym (str! "%apply"), exStr ['g']]) _ [exStr ['g']] exSt exSt
  (.mk _ _ _ _ _ rfl rfl) (plain_evals _ _ _ rfl) (by simp [positional, exStr])
example (s : St) := C50_lambda exExt (exList [exSym (str! "%lambda"), exList [exSym ['a'], exSym (str! "&b")], exSym (str! "%b")])
  (exList [exSym ['a'], exSym (str! "&b")]) _ _ _ s (.mk _ _ _ _ _ rfl rfl) rfl (.list _ _ _ _) (by decide) (by decide)
example (s : St) := C50_lambda_rejects exExt (exList [exSym (str! "%lambda"), exStr ['a']]) [exStr ['a']] s (.mk _ _ _ _ _ rfl rfl)
  (by
    rintro ⟨head, back, ps, h, hl, _⟩
    simp [positional, exStr] at h
    rw [← h.1] at hl
    cases hl)
example (s : St) := C50_define_function exExt exDefG _ _ _ _ _ _ s (.mk _ _ _ _ _ rfl rfl)
/-- The theorem on `(%apply __lambda1 x)` where `__lambda1` is `(%lambda a (p %a))`. -/
example := C50_apply_lambda exExt (exList [exSym (str! "%apply"), exSym (str! "__lambda1"), exSym ['x']]) _ [exSym ['x']]
  [exSym ['a']] [exList [exSym ['p'], exSym (str! "%a")]] ['1'] ⟨str! "__lambda1", default, []⟩
  { exSt with scope := fun x => if x = str! "__lambda1" then some ⟨[exSym ['a']], [exList [exSym ['p'], exSym (str! "%a")]]⟩ else none }
  _ (.mk _ _ _ _ _ rfl rfl) (plain_evals _ _ _ rfl) (freeNodes_sound _ rfl) rfl rfl exSt_fair

end Seam
