import Verif.Lemmas.Fill
import Verif.Lemmas.Matched
import Verif.Props.Apply
import Verif.Props.Bind
import Verif.Props.Scope

/-!
# Macro calls are filled templates (C85)
-/

namespace Seam
open Spec

/-- C85: a template in a document is filled with the values of the variables. -/
theorem C85_template (ext : Ext) (ns out : List PNode) (s : St) (h : FillsAll (Stands s.scope) ns out) :
    Evals ext ns s (.ok out) s := fillsAll_evals ext (fun _ _ h => h) h

/-- C85: a call of a macro whose parameters are names and whose body is a template gives the
template filled with the arguments; nothing else happens. -/
theorem C85_call (ext : Ext) (c : PNode) (vs out : List PNode) (xs : List Str) (s u : St) (m : Macro)
    (hc : UserCall ext c s vs u m) (hf : Fair s.order) (hp : NameParams m.params xs) (hx : xs.Nodup)
    (hn : NoNamed vs) (hl : vs.length = xs.length) (hv : MacrosFree vs) (hb : FillsAll (GivenArgs u.scope xs vs) m.body out) :
    ∃ t, Evals ext [c] s (.ok out) t ∧ t.scope = u.scope ∧ SameEffects u t := by
  obtain ⟨v, h1, h2, h3, h4⟩ := C38_call_ok ext c vs xs s u m hc hf hp hx hn hl
  refine ⟨_, (h4 _ _).2 ⟨v, fillsAll_evals ext ?_ hb, rfl⟩, rfl, h3⟩
  rintro x as (⟨i, a, h5, h6, rfl⟩ | ⟨h5, h6, h7⟩)
  · exact ⟨h1 i x a h5 h6, .cons _ _ (macrosFree_mem hv (List.mem_of_getElem? h6)) .nil⟩
  · exact ⟨(h2 x h5).trans h6, h7⟩

/-- C85: the same with a `&` parameter for the arguments left over. -/
theorem C85_call_rest (ext : Ext) (c : PNode) (vs out ps : List PNode) (xs : List Str) (a : Node) (r : Str) (s u : St) (m : Macro)
    (hc : UserCall ext c s vs u m) (hf : Fair s.order) (hm : m.params = ps ++ [.symbol a]) (hp : NameParams ps xs)
    (hx : (xs ++ [r]).Nodup) (ha : a.value = '&' :: r) (hr : ∀ r', r ≠ '&' :: r') (hn : NoNamed vs)
    (hl : xs.length ≤ vs.length) (hv : MacrosFree vs) (hb : FillsAll (GivenRest u.scope xs r vs) m.body out) :
    ∃ t, Evals ext [c] s (.ok out) t ∧ t.scope = u.scope ∧ SameEffects u t := by
  obtain ⟨v, h1, h1', h2, h3, h4⟩ := C39_names_rest ext c vs ps xs a r s u m hc hf hm hp hx ha hr hn hl
  refine ⟨_, (h4 _ _).2 ⟨v, fillsAll_evals ext ?_ hb, rfl⟩, rfl, h3⟩
  rintro x as (⟨i, b, h5, h6, rfl⟩ | ⟨rfl, rfl⟩ | ⟨h5, h6, h7, h8⟩)
  · exact ⟨h1 i x b h5 h6, .cons _ _ (macrosFree_mem hv (List.mem_of_getElem? h6)) .nil⟩
  · exact ⟨h1', macrosFree_drop _ hv⟩
  · exact ⟨(h2 x h5 h6).trans h7, h8⟩

/-- C85: for parameters of every kind (patterns, named ones with defaults, `&` and `&&`): if the arguments match
them, the call gives the template filled with the definitions that result from the matching.  With a `&&`
parameter there can be more than one, as the order of its values is not fixed; then the template must not
depend on it. -/
theorem C85_call_matching (ext : Ext) (c : PNode) (vs out : List PNode) (s u : St) (m : Macro)
    (hc : UserCall ext c s vs u m) (hf : Fair s.order) (hm : ∃ sc, MatchesList m.params vs u.scope sc)
    (hb : ∀ sc, MatchesList m.params vs u.scope sc → FillsAll (Stands sc) m.body out) :
    ∃ t, Evals ext [c] s (.ok out) t ∧ t.scope = u.scope ∧ SameEffects u t := by
  obtain ⟨sc, hm⟩ := hm
  obtain ⟨v, h1, h2, h3⟩ := C38_call_matching ext c vs s u m hc hf sc hm
  exact ⟨_, (h3 _ _).2 ⟨v, fillsAll_evals ext (fun _ _ h => h) (hb _ h1), rfl⟩, rfl, h2⟩

/-- C85: without `&&` there is only one way to match. -/
theorem C85_call_patterns (ext : Ext) (c : PNode) (vs out : List PNode) (s u : St) (m : Macro) (sc : Scope)
    (hc : UserCall ext c s vs u m) (hf : Fair s.order) (hk : NoKwRests m.params) (hm : MatchesList m.params vs u.scope sc)
    (hb : FillsAll (Stands sc) m.body out) :
    ∃ t, Evals ext [c] s (.ok out) t ∧ t.scope = u.scope ∧ SameEffects u t :=
  C85_call_matching ext c vs out s u m hc hf ⟨sc, hm⟩ fun _ h => matchesList_unique hk hm h ▸ hb

/-- C85: the same for the first clause of `%match` whose pattern matches. -/
theorem C85_match (ext : Ext) (c x e p : PNode) (before body later out : List PNode) (si : Site) (en : Token) (w : Str)
    (s u : St) (sc : Scope)
    (hc : IsCall (str! "match") (x :: (before ++ .list (p :: body) si en w :: later)) c) (hf : Fair s.order)
    (hx : Evals ext [x] s (.ok [e]) u)
    (hb : ∀ cl ∈ before, ∃ q b si' en' w', cl = .list (q :: b) si' en' w' ∧ MacroFree q ∧ ∀ sc', ¬ Matches q e u.scope sc')
    (hp : MacroFree p) (hk : NoKwRest p) (hm : Matches p e u.scope sc) (ho : FillsAll (Stands sc) body out) :
    ∃ t, Evals ext [c] s (.ok out) t ∧ t.scope = u.scope ∧ SameEffects u t := by
  obtain ⟨v, h1, h2, h3⟩ := C41_first ext c x e p before body later si en w s u sc hc hf hx hb hp hm
  exact ⟨_, (h3 _ _).2 ⟨v, fillsAll_evals ext (fun _ _ h => h) (matches_unique hk hm h1 ▸ ho), rfl⟩, rfl, h2⟩

/-- C85: in a document: the definition of a macro, and a call with as many arguments as
parameters. -/
theorem C85_document (ext : Ext) (d c : PNode) (f : Node) (ps body args out : List PNode) (xs : List Str) (si : Site)
    (e : Token) (w : Str) (s : St) (hd : IsCall (str! "define") (.list (.symbol f :: ps) si e w :: body) d)
    (hc : IsCall f.value args c) (hb : builtin? f.value = none) (hf : Fair s.order) (hp : NameParams ps xs) (hx : xs.Nodup)
    (hn : NoNamed args) (hl : args.length = xs.length) (ha : MacrosFree args)
    (ho : FillsAll (GivenArgs (s.scope.insert f.value { params := ps, body := body }) xs args) body out) :
    ∃ t, Evals ext [d, c] s (.ok out) t ∧ t.scope f.value = some { params := ps, body := body } ∧
      (∀ y, y ≠ f.value → t.scope y = s.scope y) ∧ SameEffects s t := by
  have hr := nameParams_plain hp
  have h1 := (C50_define_function ext d f ps body si e w s hd).1 ⟨by simp [hr.2.1], by simp [hr.2.2.1]⟩
  let s' : St := { s with scope := s.scope.insert f.value { params := ps, body := body } }
  have hs : s'.scope f.value = some { params := ps, body := body } := by simp [s', Scope.insert]
  obtain ⟨t, h2, h3, h4⟩ := C85_call ext c args out xs s' s' _ (.mk f.value args hc hb (macrosFree_evals ext args ha s') hs)
    hf hp hx hn hl ha ho
  refine ⟨t, h1.cons h2, h3 ▸ hs, fun y hy => ?_, h4⟩
  rw [h3]
  exact if_neg (by simpa using hy)

/-- C85: `(%for x in (items...) template...)` is the template filled with each of the
items, one after the other. -/
theorem C85_for (ext : Ext) (c : PNode) (a b : Node) (args ys rest : List PNode) (chunks : List (List PNode)) (si : Site)
    (e : Token) (w : Str) (s : St) (hc : IsCall (str! "for") args c) (hf : Fair s.order)
    (hp : positional args = .symbol a :: .symbol b :: .list ys si e w :: rest) (hb : b.value = str! "in") (hy : MacrosFree ys)
    (ho : Pairs (fun y chunk => FillsAll (GivenArgs s.scope [a.value] [y]) (dropPositional 3 args) chunk) ys chunks) :
    ∃ t, Evals ext [c] s (.ok chunks.flatten) t ∧ t.scope = s.scope ∧ SameEffects s t := by
  obtain ⟨t, h1, h2⟩ := fills_loops ext (a := a) (sc := s.scope) s hy (fun _ _ => rfl) ho
  exact ⟨_, (C43_exact ext c _ b args ys rest si e w s _ _ hc hf hp hb).2
    (.inl ⟨ys, s, t, macrosFree_evals ext ys hy s, h1, rfl⟩), rfl, h2⟩

/-! ## Examples -/

/-- `(%define (card t b) (div :id %t (p %b)))` and `(%card x "y")`. -/
def exCardBody : PNode := exList [exSym (str! "div"), exAttr (str! "id") (exSym (str! "%t")), exList [exSym ['p'], exSym (str! "%b") [' ']]]
def exCard : PNode := exList [exSym (str! "%define"), exList [exSym (str! "card"), exSym ['t'], exSym ['b']], exCardBody]
def exCardCall : PNode := exList [exSym (str! "%card"), exSym ['x'], exStr ['y']]

example : IsCall (str! "define") [exList [exSym (str! "card"), exSym ['t'], exSym ['b']], exCardBody] exCard ∧
    IsCall (str! "card") [exSym ['x'], exStr ['y']] exCardCall ∧ builtin? (str! "card") = none ∧
    NameParams [exSym ['t'], exSym ['b']] [['t'], ['b']] ∧ NoNamed [exSym ['x'], exStr ['y']] ∧ MacrosFree [exSym ['x'], exStr ['y']] :=
  ⟨.mk _ _ _ _ _ rfl rfl, .mk _ _ _ _ _ rfl rfl, rfl,
    .cons _ _ _ (fun _ => by simp) (.cons _ _ _ (fun _ => by simp) .nil),
    fun v hv => by simp at hv; rcases hv with rfl | rfl <;> rfl,
    .cons _ _ (.symbol _ (fun _ => by simp)) (.cons _ _ (.string _) .nil)⟩
example (sc : Scope) : FillsAll (GivenArgs sc [['t'], ['b']] [exSym ['x'], exStr ['y']]) [exCardBody]
    [exList [exSym (str! "div"), exAttr (str! "id") (exSym ['x']), exList [exSym ['p'], exStr ['y'] [' ']]]] :=
  .cons _ _ [_] _ (.list _ _ _ _ _ (fun a t x h => by cases h; simp)
    (.cons _ _ [_] _ (.symbol _ (fun _ => by simp))
      (.cons _ _ [_] _ (.attr _ _ _ _ _ _ (.var _ ['t'] [exSym ['x']] rfl (.inl ⟨0, _, rfl, rfl, rfl⟩)))
        (.cons _ _ [_] _ (.list _ _ _ _ _ (fun a t x h => by cases h; simp)
          (.cons _ _ [_] _ (.symbol _ (fun _ => by simp))
            (.cons _ _ [_] _ (.var _ ['b'] [exStr ['y']] rfl (.inl ⟨1, _, rfl, rfl, rfl⟩)) .nil))) .nil)))) .nil
/-- `(%for x in (a b) (li %x))`. -/
example : Pairs (fun y chunk => FillsAll (GivenArgs Scope.empty [['x']] [y]) [exList [exSym (str! "li"), exSym (str! "%x") [' ']]] chunk)
    [exSym ['a'], exSym ['b']] [[exList [exSym (str! "li"), exSym ['a'] [' ']]], [exList [exSym (str! "li"), exSym ['b'] [' ']]]] :=
  .cons (.cons _ _ [_] _ (.list _ _ _ _ _ (fun a t x h => by cases h; simp)
      (.cons _ _ [_] _ (.symbol _ (fun _ => by simp)) (.cons _ _ [_] _ (.var _ ['x'] [exSym ['a']] rfl (.inl ⟨0, _, rfl, rfl, rfl⟩)) .nil))) .nil)
    (.cons (.cons _ _ [_] _ (.list _ _ _ _ _ (fun a t x h => by cases h; simp)
      (.cons _ _ [_] _ (.symbol _ (fun _ => by simp)) (.cons _ _ [_] _ (.var _ ['x'] [exSym ['b']] rfl (.inl ⟨0, _, rfl, rfl, rfl⟩)) .nil))) .nil) .nil)

/-- `(%define (f (a b) :k z) (p %b %k))`, called as `(%f (x y) :k w)`. -/
def exPairMacro : Macro := ⟨[exList [exSym ['a'], exSym ['b']], exAttr ['k'] (exSym ['z'])], [exList [exSym ['p'], exSym (str! "%b"), exSym (str! "%k")]]⟩
def exPairArgs : List PNode := [exList [exSym ['x'], exSym ['y']], exAttr ['k'] (exSym ['w'])]
def exPairScope (sc : Scope) : Scope := bound (bound (bound sc ['a'] [exSym ['x']]) ['b'] [exSym ['y']]) ['k'] [exSym ['w']]

theorem exPair_noKw : NoKwRests exPairMacro.params :=
  .cons _ _ (.list _ _ _ _ (.cons _ _ (.symbol _ (fun _ => by simp)) (.cons _ _ (.symbol _ (fun _ => by simp)) .nil)))
    (.cons _ _ (.attr _ _ _ _ (.symbol _ (fun _ => by simp))) .nil)
theorem exPair_inner (sc : Scope) : Matches (exList [exSym ['a'], exSym ['b']]) (exList [exSym ['x'], exSym ['y']]) sc
    (bound (bound sc ['a'] [exSym ['x']]) ['b'] [exSym ['y']]) :=
  .list _ _ _ _ _ _ _ _ _ _ (.mk _ _ [exSym ['x'], exSym ['y']] [] _ _ _ _ _ rfl
    (.cons _ _ _ _ _ _ _ (.symbol _ _ _) (.cons _ _ _ _ _ _ _ (.symbol _ _ _) (.nil _))) (.inl ⟨rfl, rfl, rfl⟩) (fun _ => rfl)
    (.inl ⟨rfl, fun _ _ => rfl, rfl⟩))
theorem exPair_matches (sc : Scope) : MatchesList exPairMacro.params exPairArgs sc (exPairScope sc) :=
  .mk _ _ [exList [exSym ['x'], exSym ['y']]] [] _ _ _ _ _ rfl
    (.cons _ _ _ _ _ _ _ (exPair_inner sc) (.nil _)) (.inl ⟨rfl, rfl, rfl⟩)
    (fun x => by
      by_cases h : x = ['k']
      · subst h; rfl
      · have h' : ¬ ['k'] = x := fun e => h e.symm
        simp [exPairScope, exPairMacro, exAttr, exList, lastNamed, bound, h, h'])
    (.inl ⟨rfl, fun k h => by
      by_cases h' : ['k'] = k
      · simp [exPairMacro, exAttr, exList, lastNamed, h'] at h
      · simp [exPairArgs, exAttr, exList, lastNamed, h'], rfl⟩)
theorem exPair_fills (sc : Scope) : FillsAll (Stands (exPairScope sc)) exPairMacro.body [exList [exSym ['p'], exSym ['y'], exSym ['w']]] :=
  .cons _ _ [_] _ (.list _ _ _ _ _ (fun a t x h => by cases h; simp)
    (.cons _ _ [_] _ (.symbol _ (fun _ => by simp))
      (.cons _ _ [_] _ (.var _ ['b'] [exSym ['y']] rfl ⟨rfl, .cons _ _ (.symbol _ (fun _ => by simp)) .nil⟩)
        (.cons _ _ [_] _ (.var _ ['k'] [exSym ['w']] rfl ⟨rfl, .cons _ _ (.symbol _ (fun _ => by simp)) .nil⟩) .nil)))) .nil
theorem exPair_user (s : St) (h : s.scope ['f'] = some exPairMacro) :
    UserCall exExt (exList (exSym (str! "%f") :: exPairArgs)) s exPairArgs s exPairMacro :=
  .mk ['f'] _ (.mk _ _ _ _ _ rfl rfl) rfl (plain_evals _ _ _ rfl) h
example (s : St) (h : s.scope ['f'] = some exPairMacro) (hf : Fair s.order) :=
  C85_call_patterns exExt _ _ _ s s exPairMacro _ (exPair_user s h) hf exPair_noKw (exPair_matches _) (exPair_fills _)
example (s : St) (h : s.scope ['f'] = some exPairMacro) (hf : Fair s.order) :=
  C85_call_matching exExt _ _ [exList [exSym ['p'], exSym ['y'], exSym ['w']]] s s exPairMacro (exPair_user s h) hf ⟨_, exPair_matches _⟩
    fun _ h => matchesList_unique exPair_noKw (exPair_matches _) h ▸ exPair_fills _
/-- `(%match (x y) ((a b) (p %b)))`. -/
example (s : St) (hf : Fair s.order) : ∃ t, Evals exExt [exList [exSym (str! "%match"), exList [exSym ['x'], exSym ['y']],
    exList [exList [exSym ['a'], exSym ['b']], exList [exSym ['p'], exSym (str! "%b")]]]] s (.ok [exList [exSym ['p'], exSym ['y']]]) t ∧
    t.scope = s.scope ∧ SameEffects s t :=
  C85_match exExt _ (exList [exSym ['x'], exSym ['y']]) _ (exList [exSym ['a'], exSym ['b']]) [] _ [] _ default default [] s s _
    (.mk _ _ _ _ _ rfl rfl) hf (plain_evals _ _ _ rfl) (fun _ h => by cases h)
    (.list _ _ _ _ (.cons _ _ (.symbol _ (fun _ => by simp)) (.cons _ _ (.symbol _ (fun _ => by simp)) .nil)))
    (.list _ _ _ _ (.cons _ _ (.symbol _ (fun _ => by simp)) (.cons _ _ (.symbol _ (fun _ => by simp)) .nil)))
    (exPair_inner _)
    (.cons _ _ [_] _ (.list _ _ _ _ _ (fun a t x h => by cases h; simp)
      (.cons _ _ [_] _ (.symbol _ (fun _ => by simp))
        (.cons _ _ [_] _ (.var _ ['b'] [exSym ['y']] rfl ⟨rfl, .cons _ _ (.symbol _ (fun _ => by simp)) .nil⟩) .nil))) .nil)

end Seam
