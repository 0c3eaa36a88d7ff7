import Verif.Lemmas.Size
import Verif.Spec.Size
import Verif.Lemmas.Laws
import Verif.Lemmas.Call
import Verif.Lemmas.StackRun
import Verif.Props.Bind
import Verif.Props.Tree

/-! # Lemmas: a short program with a long output -/

namespace Seam
open Spec

/-- A closing parenthesis. -/
def close : Token := { kind := .rparen, value := [')'], lw := [], site := default }

/-- `(%define (d x) (p %x %x))`. -/
def twice : PNode :=
  .list [.symbol ⟨str! "%define", default, []⟩,
    .list [.symbol ⟨str! "d", default, []⟩, .symbol ⟨str! "x", default, [' ']⟩] default close [' '],
    .list [.symbol ⟨str! "p", default, []⟩, .symbol ⟨str! "%x", default, [' ']⟩, .symbol ⟨str! "%x", default, [' ']⟩] default close [' ']]
    default close []

/-- `(%d (%d … (%d a)))`, with `n` calls and the whitespace `w` before it. -/
def calls : Nat → Str → PNode
  | 0, w => .symbol ⟨['a'], default, w⟩
  | n + 1, w => .list [.symbol ⟨str! "%d", default, []⟩, calls n [' ']] default close w

theorem blanks_one : Blanks [' '] := by intro c hc; simp at hc; subst hc; rfl

theorem word_of (w : Str) (h1 : w.all identChar = true) (h2 : Starts symbolStart w) : Word symbolStart w :=
  ⟨h2, fun c hc => List.all_eq_true.1 h1 c hc⟩

theorem spaced_apart {dbg : Str → Str} (a b : PNode) (h : b.lw = [' ']) : Apart dbg a b := fun h' => by rw [h] at h'; simp at h'

theorem calls_lw : ∀ n w, (calls n w).lw = w
  | 0, _ => rfl
  | _ + 1, _ => rfl

theorem calls_setLw (v : Str) : ∀ n w, (calls n w).setLw v = calls n v
  | 0, _ => rfl
  | _ + 1, _ => rfl

theorem sameNode_lw {a b : PNode} (h : SameNode a b) : a.lw = b.lw := by
  cases a <;> cases b <;> simp_all [SameNode, PNode.lw]

theorem sameNode_setLw {a b : PNode} (h : SameNode a b) (w : Str) : SameNode (a.setLw w) (b.setLw w) := by
  cases a <;> cases b <;> simp_all [SameNode, PNode.setLw]

theorem calls_printable (u : Unescape) (dbg : Str → Str) : ∀ n w, Blanks w → Printable u dbg (calls n w)
  | 0, _, hw => .symbol _ hw (word_of _ rfl rfl)
  | n + 1, _, hw => .list _ _ _ _ hw blanks_nil (.cons _ _ _ (.symbol _ blanks_nil (word_of _ rfl rfl))
      (spaced_apart _ _ (calls_lw n _)) (.one _ (calls_printable u dbg n _ blanks_one)))

theorem twice_printable (u : Unescape) (dbg : Str → Str) : Printable u dbg twice := by
  refine .list _ _ _ _ blanks_nil blanks_nil (.cons _ _ _ (.symbol _ blanks_nil (word_of _ rfl rfl)) (spaced_apart _ _ rfl) ?_)
  refine .cons _ _ _ (.list _ _ _ _ blanks_one blanks_nil ?_) (spaced_apart _ _ rfl) (.one _ (.list _ _ _ _ blanks_one blanks_nil ?_))
  · exact .cons _ _ _ (.symbol _ blanks_nil (word_of _ rfl rfl)) (spaced_apart _ _ rfl) (.one _ (.symbol _ blanks_one (word_of _ rfl rfl)))
  · exact .cons _ _ _ (.symbol _ blanks_nil (word_of _ rfl rfl)) (spaced_apart _ _ rfl)
      (.cons _ _ _ (.symbol _ blanks_one (word_of _ rfl rfl)) (spaced_apart _ _ rfl) (.one _ (.symbol _ blanks_one (word_of _ rfl rfl))))

/-- The program: the definition and, on the same line, the calls. -/
def doubling (n : Nat) : List PNode := [twice, calls n [' ']]

theorem doubling_printable (u : Unescape) (dbg : Str → Str) (n : Nat) : Printables u dbg (doubling n) :=
  .cons _ _ _ (twice_printable u dbg) (spaced_apart _ _ (calls_lw n _)) (.one _ (calls_printable u dbg n _ blanks_one))

theorem calls_text (dbg : Str → Str) : ∀ n w, sexpNode dbg (calls n w) =
    w ++ (List.replicate n (str! "(%d ")).flatten ++ 'a' :: List.replicate n ')'
  | 0, w => by simp [calls, sexpNode]
  | n + 1, w => by
    simp only [calls, sexpNode, sexpNodes, calls_text dbg n, close, List.replicate_succ, List.flatten_cons]
    rw [← List.replicate_succ, List.replicate_succ']
    simp

theorem doubling_text (dbg : Str → Str) (n : Nat) : sexpNodes dbg (doubling n) =
    str! "(%define (d x) (p %x %x)) " ++ (List.replicate n (str! "(%d ")).flatten ++ 'a' :: List.replicate n ')' := by
  simp only [doubling, sexpNodes, calls_text, List.append_nil]
  rfl

theorem text_setLw (n : PNode) (w : Str) : blen (textNode (n.setLw w)) + blen n.lw = blen (textNode n) + blen w := by
  cases n <;> simp only [PNode.setLw, textNode, PNode.lw, blen_append, blen_cons, List.append_assoc] <;> omega

/-- What is known of the outcome of the calls. -/
structure Big (n : Nat) (o : PNode) : Prop where
  free : MacroFree o
  plain : o.attribute? = none
  size : 2 ^ n + blen o.lw ≤ blen (textNode o)

theorem Big.setLw {n : Nat} {o : PNode} (h : Big n o) (w : Str) : Big n (o.setLw w) := by
  refine ⟨macroFree_setLw h.free, ?_, ?_⟩
  · have := h.plain
    cases o <;> simp_all [PNode.setLw, PNode.attribute?]
  · have := h.size
    have := text_setLw o w
    rw [setLw_lw]
    omega

theorem calls_evals (ext : Ext) (m : Macro) (hp : SameNodes [.symbol ⟨str! "x", default, [' ']⟩] m.params)
    (hb : SameNodes [.list [.symbol ⟨str! "p", default, []⟩, .symbol ⟨str! "%x", default, [' ']⟩, .symbol ⟨str! "%x", default, [' ']⟩]
      default close [' ']] m.body) : ∀ n w c, SameNode (calls n w) c → ∀ s : St, s.scope (str! "d") = some m → Fair s.order →
    ∃ o t, Evals ext [c] s (.ok [o]) t ∧ t.scope = s.scope ∧ Big n o
  | 0, w, c, hc, s, hs, hf => by
    cases c with
    | symbol a =>
      simp only [calls, SameNode] at hc
      have hfree : MacroFree (.symbol a) := .symbol _ (by rw [← hc.1]; simp)
      refine ⟨_, _, macroFree_evals ext _ hfree s, rfl, hfree, rfl, ?_⟩
      simp only [textNode, PNode.lw, blen_append, ← hc.1]
      show 1 + _ ≤ _ + 1
      omega
    | _ => simp [calls, SameNode] at hc
  | n + 1, w, c, hc, s, hs, hf => by
    cases c with
    | list cs si e w' =>
      simp only [calls, SameNode] at hc
      obtain ⟨hc, hl, rfl⟩ := hc
      match cs, hc with
      | [h, arg], hc =>
        obtain ⟨hh, ha, -⟩ := hc
        cases h with
        | symbol h =>
          obtain ⟨hv, hlw⟩ := hh
          have hcall : IsCall (str! "d") [arg.setLw []] (.list [.symbol h, arg] si e w) := by
            refine .mk h [arg] si e w hv.symm ?_
            have : arg.lw = [' '] := by rw [← sameNode_lw ha, calls_lw]
            simp [dropFirstBlank, this]
          have ha' : SameNode (calls n []) (arg.setLw []) := by
            have := sameNode_setLw ha []
            rw [calls_setLw] at this
            exact this
          obtain ⟨o, u, h1, h2, h3⟩ := calls_evals ext m hp hb n [] _ ha' s hs hf
          match hpar : m.params, hp with
          | [.symbol x], hp =>
            obtain ⟨⟨hx, -⟩, -⟩ := hp
            obtain ⟨v, k1, k2, k3, k4⟩ := C38_call_ok ext _ [o] [x.value] s u m
              (.mk (str! "d") [arg.setLw []] hcall rfl h1 (by rw [h2]; exact hs)) hf
              (by rw [hpar]; exact .cons x [] [] (by rw [← hx]; simp) .nil) (by simp)
              (by intro v hv; simp at hv; subst hv; exact h3.plain) rfl
            have hxv : v.scope (str! "x") = some (Macro.var [o]) := by
              have := k1 0 x.value o rfl rfl
              rw [← hx] at this
              exact this
            have ho := macrosFree_evals ext [o] (.cons _ _ h3.free .nil) v
            match hbod : m.body, hb with
            | [.list [.symbol p, .symbol y, .symbol z] bs be bw], hb =>
              obtain ⟨⟨⟨⟨hp1, -⟩, ⟨hy1, hy2⟩, ⟨hz1, hz2⟩, -⟩, -, hbw⟩, -⟩ := hb
              have e1 := evals_var (a := y) (name := str! "x") hy1.symm hxv ho
              have e2 := evals_var (a := z) (name := str! "x") hz1.symm hxv ho
              have hpf : MacroFree (.symbol p) := .symbol _ (by rw [← hp1]; simp)
              have e0 := macroFree_evals ext _ hpf v
              have e3 := e0.cons (e1.cons e2)
              have e4 := evals_list (si := bs) (e := be) (w := bw) (by
                intro a t name ha
                cases ha
                rw [← hp1]
                simp) e3
              refine ⟨_, { v with scope := u.scope }, (k4 _ _).2 ⟨_, by rw [hbod]; exact e4, rfl⟩, h2, ?_, rfl, ?_⟩
              · exact .list _ _ _ _ (.cons _ _ hpf (.cons _ _ (h3.setLw _).free (.cons _ _ (h3.setLw _).free .nil)))
              · have g1 := (h3.setLw y.lw).size
                have g2 := (h3.setLw z.lw).size
                simp only [List.cons_append, List.nil_append, firstSpaced, textNode, textNodes, PNode.lw, blen_append, blen_cons, List.append_nil]
                rw [Nat.pow_succ]
                omega
        | _ => simp [SameNode] at hh
    | _ => simp [calls, SameNode] at hc

theorem doubling_evals (ext : Ext) (n : Nat) (ns : List PNode) (h : SameNodes (doubling n) ns) (s : St) (hf : Fair s.order) :
    ∃ o t, Evals ext ns s (.ok [o]) t ∧ Big n o := by
  match ns, h with
  | [d, c], h =>
    obtain ⟨hd, hc, -⟩ := h
    match d, hd with
    | .list [.symbol a, .list (.symbol f :: ps) si e w, b] si' e' w', hd =>
      obtain ⟨⟨⟨ha, -⟩, ⟨⟨⟨hf1, -⟩, hps⟩, -, hw⟩, hb, -⟩, -, -⟩ := hd
      have hcall : IsCall (str! "define") [.list (.symbol f :: ps) si e [], b] (.list [.symbol a, .list (.symbol f :: ps) si e w, b] si' e' w') := by
        refine .mk a _ _ _ _ ha.symm ?_
        subst hw
        rfl
      match ps, hps with
      | [.symbol x], hps =>
        obtain ⟨⟨hx, hxl⟩, -⟩ := hps
        have hd : (createMacro f.value [.symbol x] [b] >>= fun _ => (pure [] : M (List PNode))) s =
            (.ok [], { s with scope := s.scope.insert (str! "d") { params := [.symbol x], body := [b] } }) := by
          rw [← hf1]
          have hx' : x = ⟨str! "x", x.site, x.lw⟩ := by cases x; simp_all
          rw [hx']
          rfl
        have e1 := (evals_define_function (ext := ext) hcall).2 ⟨by simp, hd⟩
        obtain ⟨o, t, h1, h2, h3⟩ := calls_evals ext { params := [.symbol x], body := [b] } ⟨⟨hx, hxl⟩, trivial⟩ ⟨hb, trivial⟩ n [' '] c hc
          { s with scope := s.scope.insert (str! "d") { params := [.symbol x], body := [b] } } (by simp [Scope.insert]) hf
        exact ⟨o, t, e1.cons h1, h3⟩

/-! ## From sources to outputs -/

theorem sits_of_parse {u : Unescape} (hu : NoLonger u) {b : Buf} {ns : List PNode} (h : parse u b = .ok ns) :
    SitsAll 0 ns (blen b.code) := by
  obtain ⟨toks, h1, h2⟩ := parse_ok_tokens h
  have := exprs_sits hu h2 (tokens_run h1)
  simpa using this

theorem expand_free {ext : Ext} {order : Order} {path code : Str} {tree out : List PNode} {fuel : Nat} {st : St}
    (hp : parse ext.unescape { path := path, id := 1, code := code } = .ok tree) (hm : MacrosFree tree)
    (h : expand ext order fuel path code = (.ok out, st)) : out = tree := by
  unfold expand at h
  rw [hp] at h
  have h1 : Evals ext tree (St.init order) (.ok out) st := ⟨by simp, fuel, h⟩
  have := (h1.unique (macrosFree_evals ext tree hm _)).1
  cases this
  rfl

theorem popNewline_blen (s : Str) : blen (popNewline s) ≤ blen s := by
  unfold popNewline
  split
  · by_cases h : s = []
    · subst h; exact Nat.le_refl _
    · conv => rhs; rw [← List.dropLast_concat_getLast h]
      rw [blen_append]
      omega
  · exact Nat.le_refl _

/-- The size of what is put around the contents of an HTML document. -/
theorem wrap_blen (noDoctype noHtml noHead noBody : Bool) :
    blen (if noDoctype = true then
          str! "<!DOCTYPE html>\n" ++
            (if noHtml = true then
              str! "<html>\n" ++ (if noHead = true then str! "<head></head>\n" else [])
                ++ (if noBody = true then str! "<body>\n" else [])
            else [])
        else []) + blen ['\n'] +
      blen (if noDoctype = true then
          if noHtml = true then (if noBody = true then str! "</body>\n" else []) ++ str! "</html>\n" else []
        else []) ≤ 120 := by
  revert noDoctype noHtml noHead noBody
  decide +kernel

end Seam
