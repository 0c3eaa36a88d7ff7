import Verif.Lemmas.Paste
import Verif.Props.Solo

/-!
# Including a file and pasting its text (C100)

`Pasted` (Spec/Paste) relates a program to one with the contents of files in place of calls of
`%include`.
-/

namespace Seam
open Spec

/-- C100: a program with the contents of files in place of calls of `%include` has the same
outcome as the program with these calls, up to blanks: the same trees, definitions and log, or the
same error, at the corresponding places, if the macros that look at the layout are not called.
`S` relates the places of the two programs. -/
theorem C100_trees (ext : Ext) (S : Site → Site → Prop) (hS : ∀ p q, Reread p q → S p q) (ns ms : List PNode) (s t s' : St)
    (r : Res (List PNode)) (h : Pasted ext S ns ms) (hst : LaidSt S BothBlank s t) (hk : ByKeys s.order)
    (hr : BlindEvals ext ns s r s') :
    ∃ r' t', Evals ext ms t r' t' ∧ LaidRes S BothBlank r r' ∧ LaidSt S BothBlank s' t' :=
  pasted_evals hS h hst hk hr

/-- C100: and the other way around. -/
theorem C100_back (ext : Ext) (S : Site → Site → Prop) (hS : ∀ p q, Reread p q → S p q) (ns ms : List PNode) (s t s' : St)
    (r : Res (List PNode)) (h : Pasted ext S ns ms) (hst : LaidSt (fun q p => S p q) BothBlank s t) (hk : ByKeys s.order)
    (hr : BlindEvals ext ms s r s') :
    ∃ r' t', Evals ext ns t r' t' ∧ LaidRes (fun q p => S p q) BothBlank r r' ∧ LaidSt (fun q p => S p q) BothBlank s' t' :=
  included_evals hS h hst hk hr

/-- C100: so it does not matter whether between two texts `a` and `b` there is a line with a call
of `%include`, or the contents of the file: both texts are read, and the second has the outcome of
the first. -/
theorem C100_texts (ext : Ext) (order : Order) (hk : ByKeys order) (a b file call paste incl : Buf)
    (ns bs tree : List PNode) (c n : PNode) (l : Node)
    (hpaste : paste.code = a.code ++ '\n' :: (file.code ++ '\n' :: b.code))
    (hincl : incl.code = a.code ++ '\n' :: (call.code ++ '\n' :: b.code))
    (ha : parse ext.unescape a = .ok ns) (hb : parse ext.unescape b = .ok bs) (hf : parse ext.unescape file = .ok tree)
    (hcall : parse ext.unescape call = .ok [c]) (hc : IsCall (str! "include") [n] c) (hl : Literal n l)
    (hm : MacroFree n) (hfile : FirstRead ext (includeFiles ext l.value) file.path file.code) :
    ∃ all all', parse ext.unescape paste = .ok all ∧ parse ext.unescape incl = .ok all' ∧
      (∀ r s, BlindEvals ext all (St.init order) r s → ∃ r' t, Evals ext all' (St.init order) r' t ∧
        LaidRes (PastedAt paste incl file.path a.code file.code call.code) BothBlank r r' ∧
        LaidSt (PastedAt paste incl file.path a.code file.code call.code) BothBlank s t) ∧
      ∀ r t, BlindEvals ext all' (St.init order) r t → ∃ r' s, Evals ext all (St.init order) r' s ∧
        LaidRes (fun q p => PastedAt paste incl file.path a.code file.code call.code p q) BothBlank r r' ∧
        LaidSt (fun q p => PastedAt paste incl file.path a.code file.code call.code p q) BothBlank t s := by
  obtain ⟨all, all', h1, h2, h3⟩ := texts_pasted a b file call paste incl hpaste hincl ha hb hf hcall hc hl hm hfile
  exact ⟨all, all', h1, h2, fun r s h => pasted_evals (fun p q => .other p q) h3 (laidSt_init order) hk h,
    fun r t h => included_evals (fun p q => .other p q) h3 (laidSt_init order) hk h⟩

/-- C100: and the output is the same in every format, up to blanks (in HTML, without `pre`
elements). -/
theorem C100_output (ext : Ext) (order : Order) (hk : ByKeys order) (quote : Str → Str) (a b file call paste incl : Buf)
    (ns bs tree : List PNode) (c n : PNode) (l : Node)
    (hpaste : paste.code = a.code ++ '\n' :: (file.code ++ '\n' :: b.code))
    (hincl : incl.code = a.code ++ '\n' :: (call.code ++ '\n' :: b.code))
    (ha : parse ext.unescape a = .ok ns) (hb : parse ext.unescape b = .ok bs) (hf : parse ext.unescape file = .ok tree)
    (hcall : parse ext.unescape call = .ok [c]) (hc : IsCall (str! "include") [n] c) (hl : Literal n l)
    (hm : MacroFree n) (hfile : FirstRead ext (includeFiles ext l.value) file.path file.code) :
    ∃ all all', parse ext.unescape paste = .ok all ∧ parse ext.unescape incl = .ok all' ∧
      ∀ out s, BlindEvals ext all (St.init order) (.ok out) s → ∃ out' t, Evals ext all' (St.init order) (.ok out') t ∧
        SameOutput (cssGenerate quote out) (cssGenerate quote out') ∧ SameOutput (xmlGenerate out) (xmlGenerate out') ∧
        squeezed (textNodes out) = squeezed (textNodes out') ∧ squeezed (sexpNodes quote out) = squeezed (sexpNodes quote out') ∧
        ((∀ h rest p e w, InLists (.list (.symbol h :: rest) p e w) out → h.value.map lowerChar ≠ str! "pre") →
          SameOutput (htmlGenerate quote out) (htmlGenerate quote out')) := by
  obtain ⟨all, all', h1, h2, h3, _⟩ := C100_texts ext order hk a b file call paste incl ns bs tree c n l hpaste hincl ha hb hf hcall hc
    hl hm hfile
  refine ⟨all, all', h1, h2, fun out s h => ?_⟩
  obtain ⟨r', t, g1, g2, _⟩ := h3 _ _ h
  cases g2 with
  | ok _ out' g2 => exact ⟨out', t, g1, C86_written _ quote _ _ g2⟩

/-- Two texts, a file, a call that includes it, and the programs made of them.  The second text uses
what the file defines. -/
def exBefore : Buf := { path := ['p'], id := 1, code := str! "(b 1) ; one" }
def exAfter : Buf := { path := ['p'], id := 1, code := str! "%x" }
def exFile : Buf := { path := str! "./v.sex", id := 2, code := str! "(%define x\n(p a))q" }
def exCallV : Buf := { path := ['p'], id := 1, code := str! "(%include v)" }
def exPaste : Buf := { path := ['p'], id := 1, code := str! "(b 1) ; one\n(%define x\n(p a))q\n%x" }
def exIncl : Buf := { path := ['p'], id := 1, code := str! "(b 1) ; one\n(%include v)\n%x" }
/-- A world with that file. -/
def exExtV : Ext := { exExt with readFile := fun p => if p = str! "./v.sex" then some exFile.code else none }

/-- They meet the hypotheses of `C100_output`. -/
example : ByKeys (fun _ l => l) ∧ exPaste.code = exBefore.code ++ '\n' :: (exFile.code ++ '\n' :: exAfter.code) ∧
    exIncl.code = exBefore.code ++ '\n' :: (exCallV.code ++ '\n' :: exAfter.code) ∧
    (∃ ns, parse exExtV.unescape exBefore = .ok ns) ∧ (∃ bs, parse exExtV.unescape exAfter = .ok bs) ∧
    (∃ tree, parse exExtV.unescape exFile = .ok tree) ∧
    (∃ c n l, parse exExtV.unescape exCallV = .ok [c] ∧ IsCall (str! "include") [n] c ∧ Literal n l ∧ MacroFree n ∧
      FirstRead exExtV (includeFiles exExtV l.value) exFile.path exFile.code) ∧
    ∃ all, parse exExtV.unescape exPaste = .ok all ∧ ∃ out s, BlindEvals exExtV all exSt (.ok out) s ∧
      decide (xmlGenerate out = .ok (str! "<b>1</b>q\n<p>a</p>")) = true := by
  refine ⟨byKeys_id, by decide, by decide, ?_, ?_, ?_, ?_, ?_⟩
  · exact (Res.okP_elim (p := fun _ => true) (by decide +kernel)).imp fun _ h => h.1
  · exact (Res.okP_elim (p := fun _ => true) (by decide +kernel)).imp fun _ h => h.1
  · exact (Res.okP_elim (p := fun _ => true) (by decide +kernel)).imp fun _ h => h.1
  · have h : (parse exExtV.unescape exCallV).okP (fun ns => match ns with
        | [.list [.symbol h, .symbol a] _ _ _] => decide (h.value = str! "%include" ∧ a.value = ['v'] ∧ a.lw = [' '])
        | _ => false) = true := by decide +kernel
    obtain ⟨ns, h1, h2⟩ := Res.okP_elim h
    split at h2
    · rename_i h a s e w
      simp only [decide_eq_true_eq] at h2
      obtain ⟨e1, e2, e3⟩ := h2
      refine ⟨_, _, { a with lw := [] }, h1, .mk _ _ _ _ _ e1 ?_, .symbol _, .symbol _ ?_, ?_⟩
      · simp [dropFirstBlank, PNode.lw, e3, PNode.setLw]
      · simp [e2]
      · refine ⟨[str! "./v"], [], ?_, ?_, rfl⟩
        · simp only [e2]; rfl
        · intro q hq
          simp only [List.mem_singleton] at hq
          subst hq
          decide
    · cases h2
  · have h : (parse exExtV.unescape exPaste).okP (fun ns => (expandNodes (blindRun exExtV 9) ns exSt).1.okP fun out =>
        decide (xmlGenerate out = .ok (str! "<b>1</b>q\n<p>a</p>"))) = true := by
      decide +kernel
    obtain ⟨ns, h1, h2⟩ := Res.okP_elim h
    exact ⟨ns, h1, blind_ok_of 9 (fun out _ => decide (xmlGenerate out = .ok (str! "<b>1</b>q\n<p>a</p>"))) h2⟩

/-- A file included in an element, and its contents in the element. -/
example : ∃ tree, parse exExt.unescape { path := str! "./f.sex", id := 1, code := str! "(p a)" } = .ok tree ∧
    Pasted exExt (fun _ _ => True) [exList (exSym (str! "div") :: tree)]
      [exList [exSym (str! "div"), exList [exSym (str! "%include"), exSym ['f']] [' ']]] := by
  obtain ⟨tree, h, _⟩ := Res.okP_elim (r := parse exExt.unescape { path := str! "./f.sex", id := 1, code := str! "(p a)" })
    (p := fun _ => true) (by decide +kernel)
  refine ⟨tree, h, .list _ _ _ _ _ _ _ _ (.append [_] [_] _ _ (.same _ _ ?_) ?_) ?_ ?_ trivial ?_ trivial ?_⟩
  · exact .cons _ _ _ _ (.symbol _ _ ⟨rfl, ⟨by simp [Blanks], by simp [Blanks]⟩, trivial⟩) .nil
  · obtain ⟨t, ht⟩ := Classical.axiomOfChoice fun i => parse_inFile exExt.unescape _ i h
    refine .file _ _ _ (str! "./f.sex") (str! "(p a)") t tree (.mk _ _ _ _ _ rfl rfl) (.symbol _) (.symbol _ (by simp)) ?_
      ⟨[str! "./f"], [], rfl, ?_, rfl⟩ (fun i => (ht i).1) fun i => .same _ _ ((ht i).2.mono fun _ _ _ => trivial)
    · intro c hc
      have hc : c ∈ [' '] := hc
      simp only [List.mem_singleton] at hc
      subst hc
      rfl
    · intro q hq
      simp only [List.mem_singleton] at hq
      subst hq
      decide
  · intro a t name h
    cases h
    simp
  · intro a t name h
    cases h
    simp
  · exact ⟨fun c hc => absurd (show c ∈ ([] : Str) from hc) (by simp), fun c hc => absurd (show c ∈ ([] : Str) from hc) (by simp)⟩
  · exact ⟨by simp [Blanks], by simp [Blanks]⟩

/-- A world with a file that contains the arguments of a macro. -/
def exExtArgs : Ext := { exExt with readFile := fun p => if p = str! "./v.sex" then some (str! "x a b") else none }

/-- C100 is false in the arguments of a macro: `(%ifdef x a b)` is `b`, but `(%ifdef (%include v))`
is an error if `x a b` is in the file. -/
theorem C100_argument_false : FirstRead exExtArgs (includeFiles exExtArgs ['v']) (str! "./v.sex") (str! "x a b") ∧
    (∃ ns, parse exExtArgs.unescape { exCallV with code := str! "(%ifdef x a b)" } = .ok ns ∧
      ∃ out t, Evals exExtArgs ns exSt (.ok out) t ∧ textNodes out = ['b']) ∧
    ∃ ms, parse exExtArgs.unescape { exCallV with code := str! "(%ifdef (%include v))" } = .ok ms ∧
      ∃ x t, Evals exExtArgs ms exSt (.err x) t := by
  refine ⟨⟨[str! "./v"], [], rfl, ?_, rfl⟩, ?_, ?_⟩
  · intro q hq
    simp only [List.mem_singleton] at hq
    subst hq
    decide
  · have h : (parse exExtArgs.unescape { exCallV with code := str! "(%ifdef x a b)" }).okP (fun ns =>
        (expandNodes (run exExtArgs 9) ns exSt).1.okP fun out => decide (textNodes out = ['b'])) = true := by decide +kernel
    obtain ⟨ns, h1, h2⟩ := Res.okP_elim h
    obtain ⟨out, h3, h4⟩ := Res.okP_elim h2
    exact ⟨ns, h1, out, _, ⟨by simp, 9, Prod.ext h3 rfl⟩, by simpa using h4⟩
  · have h : (parse exExtArgs.unescape { exCallV with code := str! "(%ifdef (%include v))" }).okP (fun ns =>
        (expandNodes (run exExtArgs 9) ns exSt).1.errP fun _ => true) = true := by decide +kernel
    obtain ⟨ns, h1, h2⟩ := Res.okP_elim h
    obtain ⟨x, h3, _⟩ := Res.errP_elim h2
    exact ⟨ns, h1, x, _, ⟨by simp, 9, Prod.ext h3 rfl⟩⟩

end Seam
