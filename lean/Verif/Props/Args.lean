import Verif.Lemmas.Cases
import Verif.Lemmas.Builtins
import Verif.Props.Lists

/-!
# Properties of argument checking (C53)

`Accepts es tr vs` (Spec/Args) says that the arguments `vs` fit the declarations `es`,
and that further arguments have the type `tr`.
-/

namespace Seam
open Spec

/-- C53: for declarations in which no position is declared twice and only positional arguments
are mandatory, checking succeeds exactly if the arguments fit, and is an error otherwise;
afterwards a declared position has the argument at this position, a declared keyword has the last
argument given under it, and the others are the trailing arguments, in order.
Missing: mandatory named arguments, see `C53_mandatory_keyword_false`. -/
theorem C53_check_partial (es : List Entry) (tr : Option ArgType) (call : PNode) (vs : List PNode) (hw : WellDeclared es) :
    (∃ p, ArgParser.new { patterns := rulesOf es, trailing := tr } call vs = .ok p ∧ Accepts es tr vs ∧
      (∀ e ∈ es, ∀ i, e.pos = .int (i + 1) → amGet (i + 1) p.positional = (positional vs)[i]?) ∧
      (∀ e ∈ es, ∀ k, e.pos = .str k → amGet k p.named = lastNamed k vs) ∧
      p.trailing = undeclared es vs) ∨
    (∃ e, ArgParser.new { patterns := rulesOf es, trailing := tr } call vs = .err e ∧ ¬ Accepts es tr vs) := by
  rcases argParser_new hw tr call vs with ⟨p, h1, h2, h3⟩ | h
  · refine Or.inl ⟨p, h1, h3, fun e he i hi => ?_, fun e he k hk => ?_, h2.trailing⟩
    · rw [h2.pos, if_pos ⟨List.any_eq_true.2 ⟨e, he, by simp [hi]⟩, by omega⟩]
      rfl
    · have hd : declaredAt es (.str k) = true := List.any_eq_true.2 ⟨e, he, by simp [hk]⟩
      rw [h2.named, if_pos hd]
  · exact Or.inr h

/-- C53: after the check, extracting a mandatory argument does not fail: it is there and has
its type. -/
theorem C53_mandatory_partial (es : List Entry) (tr : Option ArgType) (call : PNode) (vs : List PNode) (p : ArgParser)
    (hw : WellDeclared es) (hp : ArgParser.new { patterns := rulesOf es, trailing := tr } call vs = .ok p)
    (e : Entry) (he : e ∈ es) (hm : e.mandatory = true) :
    ∃ i v, e.pos = .int (i + 1) ∧ (positional vs)[i]? = some v ∧ HasType e.type v ∧ p.pos call (i + 1) = .ok v ∧
      (isAtomType e.type = true → ∃ a, Literal v a ∧ p.posNode call (i + 1) = .ok a) ∧
      (isListType e.type = true → ∃ ns s t w, v = .list ns s t w ∧ p.posList call (i + 1) = .ok ns) := by
  rcases C53_check_partial es tr call vs hw with ⟨p', h1, h2, h3, _, _⟩ | ⟨er, h1, _⟩
  · obtain rfl := Res.ok.inj (h1.symm.trans hp)
    obtain ⟨j, hj⟩ := hw.mandatory e he hm
    have h0 : j ≠ 0 := by rintro rfl; exact hw.positive e he hj
    obtain ⟨i, rfl⟩ : ∃ i, j = i + 1 := ⟨j - 1, by omega⟩
    have hacc := (accepts_iff hw).1 h2
    have hlen := hacc.2.2 e he hm i hj
    have hg : (positional vs)[i]? = some (positional vs)[i] := List.getElem?_eq_getElem hlen
    have hty := (hacc.1 i _ hg).1 e he hj
    have hpos : p'.pos call (i + 1) = .ok (positional vs)[i] := by
      unfold ArgParser.pos
      rw [h3 e he i hj, hg]
    refine ⟨i, _, hj, hg, hty, hpos, fun h => ?_, fun h => ?_⟩
    · obtain ⟨a, ha⟩ := atomType_literal h hty
      refine ⟨a, ha, ?_⟩
      unfold ArgParser.posNode
      rw [hpos]
      exact toNode_literal ha
    · obtain ⟨ns, s, t, w, hv⟩ := listType_list h hty
      refine ⟨ns, s, t, w, hv, ?_⟩
      unfold ArgParser.posList
      rw [hpos, hv]
      rfl
  · rw [hp] at h1; cases h1

/-- C53: after the check, extracting an optional argument does not fail either: it has its type
if it is given. -/
theorem C53_optional_partial (es : List Entry) (tr : Option ArgType) (call : PNode) (vs : List PNode) (p : ArgParser)
    (hw : WellDeclared es) (hp : ArgParser.new { patterns := rulesOf es, trailing := tr } call vs = .ok p)
    (e : Entry) (he : e ∈ es) (ht : isAtomType e.type = true) :
    (∀ k, e.pos = .str k → ∃ o, Given k vs o ∧ p.opt k = .ok o) ∧
    (∀ i, e.pos = .int (i + 1) → ((positional vs)[i]? = none ∧ p.posOpt (i + 1) = .ok none) ∨
      ∃ v a, (positional vs)[i]? = some v ∧ HasType e.type v ∧ Literal v a ∧ p.posOpt (i + 1) = .ok (some a)) := by
  rcases C53_check_partial es tr call vs hw with ⟨p', h1, h2, h3, h4, _⟩ | ⟨er, h1, _⟩
  · obtain rfl := Res.ok.inj (h1.symm.trans hp)
    have hacc := (accepts_iff hw).1 h2
    constructor
    · intro k hk
      unfold ArgParser.opt
      rw [h4 e he k hk]
      cases hl : lastNamed k vs with
      | none => exact ⟨none, .absent hl, rfl⟩
      | some v =>
        obtain ⟨s, w, hm⟩ := lastNamed_mem hl
        obtain ⟨a, ha⟩ := atomType_literal ht ((hacc.2.1 k v s w hm).1 e he hk)
        refine ⟨some a, .literal v a hl ha, ?_⟩
        show (toNode v >>= fun a => .ok (some a)) = _
        rw [toNode_literal ha]
        rfl
    · intro i hi
      unfold ArgParser.posOpt
      rw [h3 e he i hi]
      cases hg : (positional vs)[i]? with
      | none => exact Or.inl ⟨rfl, rfl⟩
      | some v =>
        have hty := (hacc.1 i v hg).1 e he hi
        obtain ⟨a, ha⟩ := atomType_literal ht hty
        refine Or.inr ⟨v, a, rfl, hty, ha, ?_⟩
        show (toNode v >>= fun a => .ok (some a)) = _
        rw [toNode_literal ha]
        rfl
  · rw [hp] at h1; cases h1

/-- C53: extracting an optional positional argument that was not given as if it were mandatory is an error at the call, not a crash. -/
theorem C53_absent (es : List Entry) (tr : Option ArgType) (call : PNode) (vs : List PNode) (p : ArgParser)
    (hw : WellDeclared es) (hp : ArgParser.new { patterns := rulesOf es, trailing := tr } call vs = .ok p)
    (e : Entry) (he : e ∈ es) (i : Nat) (hi : e.pos = .int (i + 1)) (hv : (positional vs)[i]? = none) :
    (∃ er, p.pos call (i + 1) = .err er ∧ er.site = call.site) ∧ (∃ er, p.posNode call (i + 1) = .err er ∧ er.site = call.site) ∧
      ∃ er, p.posList call (i + 1) = .err er ∧ er.site = call.site := by
  rcases C53_check_partial es tr call vs hw with ⟨p', h1, _, h3, _, _⟩ | ⟨er, h1, _⟩
  · obtain rfl := Res.ok.inj (h1.symm.trans hp)
    have h4 : p'.pos call (i + 1) = .err (expErr "Argument not given." call.site) := by
      unfold ArgParser.pos
      rw [h3 e he i hi, hv]
    refine ⟨⟨_, h4, rfl⟩, ?_, ?_⟩
    · unfold ArgParser.posNode
      rw [h4]
      exact ⟨_, rfl, rfl⟩
    · unfold ArgParser.posList
      rw [h4]
      exact ⟨_, rfl, rfl⟩
  · rw [hp] at h1; cases h1

/-- C53: after the check, extracting the trailing arguments does not fail either. -/
theorem C53_trailing_partial (es : List Entry) (t : ArgType) (call : PNode) (vs : List PNode) (p : ArgParser)
    (hw : WellDeclared es) (hp : ArgParser.new { patterns := rulesOf es, trailing := some t } call vs = .ok p)
    (ht : isAtomType t = true) :
    ∃ as, p.restNodes = .ok as ∧ Pairs (fun v a => HasType t v ∧ Literal v a) (undeclared es vs) as := by
  rcases C53_check_partial es (some t) call vs hw with ⟨p', h1, h2, _, _, h5⟩ | ⟨er, h1, _⟩
  · obtain rfl := Res.ok.inj (h1.symm.trans hp)
    unfold ArgParser.restNodes
    rw [h5]
    refine toNodeList_ok ht fun v hv => ?_
    unfold undeclared at hv
    obtain ⟨x, hx, rfl⟩ := List.mem_map.1 hv
    obtain ⟨hx, hn⟩ := List.mem_filter.1 hx
    obtain ⟨t', h6, h7⟩ := h2.others x hx (fun e he hp => by
      have : (es.any fun e => e.pos == x.1) = true := List.any_eq_true.2 ⟨e, he, by simp [hp]⟩
      rw [this] at hn
      cases hn)
    cases h6
    exact h7
  · rw [hp] at h1; cases h1

/-- C53 is false if named arguments are declared mandatory: an argument given twice hides a missing
one, and extracting that one fails although the check succeeded. -/
theorem C53_mandatory_keyword_false : ∃ (es : List Entry) (vs : List PNode) (call : PNode) (p : ArgParser),
    ArgParser.new { patterns := rulesOf es, trailing := none } call vs = .ok p ∧
    (∃ e ∈ es, e.mandatory = true ∧ e.pos = .str ['b']) ∧ amGet ['b'] p.named = none :=
  ⟨[⟨.str ['a'], true, .any []⟩, ⟨.str ['b'], true, .any []⟩], [exAttr ['a'] (exStr ['1']), exAttr ['a'] (exStr ['2'])],
    exStr [], _, rfl, ⟨⟨.str ['b'], true, .any []⟩, by simp, rfl, rfl⟩, rfl⟩

/-- C53: the declarations of the macros that check their arguments are of the kind for which
this holds. -/
theorem C53_macros (x : Str × List Entry × Option ArgType) (hx : x ∈ eagerMacros) : WellDeclared x.2.1 :=
  eager_wellDeclared x hx

/-- C53: a call of one of these macros with arguments that do not fit is an error, and has no
effect besides those of expanding the arguments. -/
theorem C53_rejects (x : Str × List Entry × Option ArgType) (hx : x ∈ eagerMacros) (ext : Ext) (c : PNode) (args vs : List PNode)
    (s u : St) (hc : IsCall x.1 args c) (ha : Evals ext args s (.ok vs) u) (hn : ¬ Accepts x.2.1 x.2.2 vs) :
    ∃ e, Evals ext [c] s (.err e) u := eager_rejects hx hc ha hn

/-- C53: if the arguments cannot be expanded, the call fails in the same way. -/
theorem C53_fails (x : Str × List Entry × Option ArgType) (hx : x ∈ eagerMacros) (ext : Ext) (c : PNode) (args : List PNode)
    (s u : St) (r : Res (List PNode)) (hc : IsCall x.1 args c) (ha : Evals ext args s r u) (hr : ∀ vs, r ≠ .ok vs) :
    Evals ext [c] s r u := eager_fails hx hc ha hr

/-- `(%date "%Y")`, where the second argument is optional. -/
example : ∃ p, (∃ er, ArgParser.pos p (exStr []) 2 = .err er ∧ er.site = (exStr []).site) :=
  ⟨_, (C53_absent [req 1 (.literal []), optAt 2 (.number []), named (str! "timezone") (.number [])] none (exStr []) [exStr (str! "%Y")] _
    (C53_macros (str! "date", _, none) (by simp [eagerMacros])) rfl (optAt 2 (.number [])) (by simp) 1 rfl rfl).1⟩

/-- `(%get "b" (x) :separator ".")`. -/
example : Accepts [req 1 (.literal []), req 2 (.any []), named (str! "separator") (.literal [])] none
    [exStr ['b'], exList [exSym ['x']], exAttr (str! "separator") (exStr ['.'])] := by
  have hw : WellDeclared [req 1 (.literal []), req 2 (.any []), named (str! "separator") (.literal [])] :=
    C53_macros (str! "get", _, none) (by simp [eagerMacros])
  obtain ⟨p, hp⟩ : ∃ p, ArgParser.new { patterns := rulesOf [req 1 (.literal []), req 2 (.any []),
      named (str! "separator") (.literal [])], trailing := none } (exStr [])
      [exStr ['b'], exList [exSym ['x']], exAttr (str! "separator") (exStr ['.'])] = .ok p := ⟨_, rfl⟩
  rcases C53_check_partial _ none (exStr []) _ hw with ⟨_, _, h, _⟩ | ⟨e, h, _⟩
  · exact h
  · rw [hp] at h; cases h
/-- `(%reverse "x")` is rejected. -/
example : ¬ Accepts [req 1 (.list [])] none [exStr ['x']] := by
  intro h
  have := h.declared (.int 1, exStr ['x'], exStr ['x']) (by simp [Spec.places, exStr]) (req 1 (.list [])) (by simp) rfl
  cases this

/-- The arguments `"b" (x) :separator "."` checked against the declaration of `%get`, and `a b` against that of `%concat`. -/
def exGetDecl : List Entry := [req 1 (.literal []), req 2 (.any []), named (str! "separator") (.literal [])]
def exGetArgs : List PNode := [exStr ['b'], exList [exSym ['x']], exAttr (str! "separator") (exStr ['.'])]
theorem exGetDecl_well : WellDeclared exGetDecl := C53_macros (str! "get", _, none) (by simp [eagerMacros])

example : ∃ p, ArgParser.new { patterns := rulesOf exGetDecl, trailing := none } (exStr []) exGetArgs = .ok p := ⟨_, rfl⟩
example (p : ArgParser) (h : ArgParser.new { patterns := rulesOf exGetDecl, trailing := none } (exStr []) exGetArgs = .ok p) :=
  C53_mandatory_partial exGetDecl none (exStr []) exGetArgs p exGetDecl_well h (req 1 (.literal [])) (by simp [exGetDecl]) rfl
example (p : ArgParser) (h : ArgParser.new { patterns := rulesOf exGetDecl, trailing := none } (exStr []) exGetArgs = .ok p) :=
  C53_optional_partial exGetDecl none (exStr []) exGetArgs p exGetDecl_well h (named (str! "separator") (.literal []))
    (by simp [exGetDecl]) rfl
example : ∃ p, ArgParser.new { patterns := rulesOf [], trailing := some (.literal []) } (exStr []) [exSym ['a'], exSym ['b']] = .ok p :=
  ⟨_, rfl⟩
example (p : ArgParser)
    (h : ArgParser.new { patterns := rulesOf [], trailing := some (.literal []) } (exStr []) [exSym ['a'], exSym ['b']] = .ok p) :=
  C53_trailing_partial [] (.literal []) (exStr []) [exSym ['a'], exSym ['b']] p
    (C53_macros (str! "concat", _, some (.literal [])) (by simp [eagerMacros])) h rfl
/-- The theorems on `(%reverse "x")` and `(%reverse %y)`. -/
example (s : St) := C53_rejects (str! "reverse", [req 1 (.list [])], none) (by simp [eagerMacros]) exExt
  (exList [exSym (str! "%reverse"), exStr ['x']]) _ [exStr ['x']] s s (.mk _ _ _ _ _ rfl rfl) (plain_evals _ _ _ rfl) (by
    intro h
    have := h.declared (.int 1, exStr ['x'], exStr ['x']) (by simp [Spec.places, exStr]) (req 1 (.list [])) (by simp) rfl
    cases this)
example (e : Err) (h : Evals exExt [exSym (str! "%y")] exSt (.err e) exSt) :=
  C53_fails (str! "reverse", [req 1 (.list [])], none) (by simp [eagerMacros]) exExt
    (exList [exSym (str! "%reverse"), exSym (str! "%y")]) _ exSt exSt _ (.mk _ _ _ _ _ rfl rfl) h nofun

end Seam
