import Verif.Lemmas.Cases
import Verif.Lemmas.Convert
import Verif.Props.Lists
import Verif.Lemmas.Control

/-! # `%number`, `%symbol`, `%format`; errors in arguments (C70, C71, C72) -/

namespace Seam
open Spec

/-! ## C70 -/

/-- C70: `%number` and `%symbol` yield one number (symbol) for each argument, with the
text, the place and the leading blanks of the argument. -/
theorem C70_converts (ext : Ext) (c : PNode) (args vs : List PNode) (as : List Node) (s u : St)
    (ha : Evals ext args s (.ok vs) u) (hl : Pairs Literal vs as) :
    (IsCall (str! "number") args c → Evals ext [c] s (.ok (as.map .number)) u) ∧
    (IsCall (str! "symbol") args c → Evals ext [c] s (.ok (as.map .symbol)) u) :=
  ⟨fun hc => evals_number_macro hc ha hl, fun hc => evals_symbol_macro hc ha hl⟩

/-- C70: anything but literals is rejected. -/
theorem C70_rejects (ext : Ext) (c : PNode) (args vs : List PNode) (s u : St)
    (hc : IsCall (str! "number") args c ∨ IsCall (str! "symbol") args c)
    (ha : Evals ext args s (.ok vs) u) (hn : ¬ ∀ n ∈ vs, ∃ a, Literal n a) : ∃ e, Evals ext [c] s (.err e) u := by
  rcases hc with hc | hc
  · exact eager_rejects number_mem hc ha fun hacc => hn (rest_literals hacc (eager_wellDeclared _ number_mem))
  · exact eager_rejects symbol_mem hc ha fun hacc => hn (rest_literals hacc (eager_wellDeclared _ symbol_mem))

/-- C70: the text is not examined; `(%number abc)` is a number, and `(%symbol "%x")` is a
symbol that is not expanded any more. -/
example : ∃ t, Evals exExt [exList [exSym (str! "%number"), exSym (str! "abc")],
    exList [exSym (str! "%symbol"), exStr (str! "%x"), exNum ['1']]] exSt
    (.ok [exNum (str! "abc"), exSym (str! "%x"), exSym ['1']]) t :=
  evals_ok_at 9 (by decide +kernel)

/-- The theorems on `(%number "1" b)` and `(%symbol ())`. -/
example (s : St) : Evals exExt [exList [exSym (str! "%number"), exStr ['1'], exSym ['b'] [' ']]] s
    (.ok [exNum ['1'], exNum ['b'] [' ']]) s :=
  (C70_converts exExt _ [exStr ['1'], exSym ['b'] [' ']] _ _ s s (plain_evals _ _ _ rfl)
    (.cons (.string _) (.cons (.symbol _) .nil))).1 (.mk _ _ _ _ _ rfl rfl)
example (s : St) := C70_rejects exExt (exList [exSym (str! "%symbol"), exList []]) _ [exList []] s s (.inr (.mk _ _ _ _ _ rfl rfl))
  (plain_evals _ _ _ rfl) (by
    intro h
    obtain ⟨_, ha⟩ := h _ (List.mem_cons_self ..)
    cases ha)

/-! ## C71 -/

/-- C71: `%format` substitutes the values of its arguments, named ones by name and the
others in order; the result is a string in the place of the call. -/
theorem C71_format (ext : Ext) (c : PNode) (args vs : List PNode) (f : Node) (xs : List (Option Str × Str)) (text : Str) (s u : St)
    (hc : IsCall (str! "format") args c) (ha : Evals ext args s (.ok (.string f :: vs)) u) (hx : Pairs FormatArg vs xs)
    (hf : ext.formatOk f.value = true) (ht : ext.formatText f.value xs = some text) :
    Evals ext [c] s (.ok [stringAt c text]) u := by
  refine eager_const hc (b := .format) rfl (fun _ => rfl) ha (by simp) ?_
  simp only [hf, if_true, formatArgs_ok hx]
  show (match ext.formatText f.value xs with
    | some text => pure [PNode.string (callNode c text)]
    | none => M.fail "Failed to format string." f.site) u = _
  rw [ht]
  rfl

/-- C71: an invalid format string and a failed substitution (e.g. too few values) are errors
at the format string. -/
theorem C71_fails (ext : Ext) (c : PNode) (args vs : List PNode) (f : Node) (xs : List (Option Str × Str)) (s u : St)
    (hc : IsCall (str! "format") args c) (ha : Evals ext args s (.ok (.string f :: vs)) u)
    (hf : ext.formatOk f.value = false ∨ ext.formatOk f.value = true ∧ Pairs FormatArg vs xs ∧ ext.formatText f.value xs = none) :
    ∃ e, Evals ext [c] s (.err e) u ∧ e.site = f.site := by
  rcases hf with hf | ⟨hf, hx, ht⟩
  · refine ⟨expErr "Invalid format string." f.site, eager_const hc (b := .format) rfl (fun _ => rfl) ha (by simp) ?_, rfl⟩
    simp only [hf]
    rfl
  · refine ⟨expErr "Failed to format string." f.site, eager_const hc (b := .format) rfl (fun _ => rfl) ha (by simp) ?_, rfl⟩
    simp only [hf, if_true, formatArgs_ok hx]
    show (match ext.formatText f.value xs with
      | some text => pure [PNode.string (callNode c text)]
      | none => M.fail "Failed to format string." f.site) u = _
    rw [ht]
    rfl

/-- C71: the first argument that is no literal and no named literal is where the error is. -/
theorem C71_compound (ext : Ext) (c n : PNode) (args pre post : List PNode) (f : Node) (xs : List (Option Str × Str)) (s u : St)
    (hc : IsCall (str! "format") args c) (ha : Evals ext args s (.ok (.string f :: (pre ++ n :: post))) u)
    (hf : ext.formatOk f.value = true) (hx : Pairs FormatArg pre xs) (hn : ∀ x, ¬ FormatArg n x) :
    ∃ e, Evals ext [c] s (.err e) u ∧ (e.site = n.site ∨ ∃ k v si w, n = .attr k v si w ∧ e.site = v.site) := by
  obtain ⟨e, he, hs⟩ := formatArgs_err hx hn post
  refine ⟨e, eager_const hc (b := .format) rfl (fun _ => rfl) ha (by simp) ?_, hs⟩
  simp only [hf, if_true, he]
  rfl

/-- C71: without a format string there is an error, at the call or at the first argument. -/
theorem C71_no_string (ext : Ext) (c : PNode) (args vs : List PNode) (s u : St)
    (hc : IsCall (str! "format") args c) (ha : Evals ext args s (.ok vs) u) (hn : ∀ f rest, vs ≠ .string f :: rest) :
    ∃ e, Evals ext [c] s (.err e) u ∧ (vs = [] ∧ e.site = c.site ∨ ∃ n rest, vs = n :: rest ∧ e.site = n.site) := by
  cases vs with
  | nil =>
    exact ⟨expErr "`%format' expects at a format-string." c.site,
      eager_const hc (b := .format) rfl (fun _ => rfl) ha (by simp) rfl, Or.inl ⟨rfl, rfl⟩⟩
  | cons n rest =>
    refine ⟨expErr "First argument to `%format' must be a string." n.site,
      eager_const hc (b := .format) rfl (fun _ => rfl) ha (by simp) ?_, Or.inr ⟨n, rest, rfl, rfl⟩⟩
    cases n with
    | string f => exact absurd rfl (hn f rest)
    | _ => rfl

/-- `(%format "…" "Sam" :age 9)`: the substitution gets `Sam` and `9` under the name `age`. -/
example : IsCall (str! "format") [exStr (str! "{} {age}"), exStr (str! "Sam"), exAttr (str! "age") (exNum ['9'])]
    (exList [exSym (str! "%format"), exStr (str! "{} {age}"), exStr (str! "Sam"), exAttr (str! "age") (exNum ['9'])]) ∧
    Pairs FormatArg [exStr (str! "Sam"), exAttr (str! "age") (exNum ['9'])] [(none, str! "Sam"), (some (str! "age"), ['9'])] :=
  ⟨.mk _ _ _ _ _ rfl rfl, .cons (.plain _ _ (.string _)) (.cons (.named _ _ _ _ _ (.number _)) .nil)⟩

example : ∃ t, Evals { exExt with formatOk := fun _ => true, formatText := fun f as => some (f ++ (as.flatMap (·.2))) }
    [exList [exSym (str! "%format"), exStr ['f'], exStr (str! "Sam"), exAttr (str! "age") (exNum ['9'])]] exSt
    (.ok [exStr (str! "fSam9")]) t := evals_ok_at 9 (by decide +kernel)

/-- The theorems on `(%format "f" "Sam" :age 9)`, where the substitution succeeds and where it fails, on
`(%format "f" ())` and on `(%format)`. -/
example (s : St) := C71_format { exExt with formatText := fun f as => some (f ++ (as.flatMap (·.2))) }
  (exList [exSym (str! "%format"), exStr ['f'], exStr (str! "Sam"), exAttr (str! "age") (exNum ['9'])]) _
  [exStr (str! "Sam"), exAttr (str! "age") (exNum ['9'])] ⟨['f'], default, []⟩ _ _ s s (.mk _ _ _ _ _ rfl rfl) (plain_evals _ _ _ rfl)
  (.cons (.plain _ _ (.string _)) (.cons (.named _ _ _ _ _ (.number _)) .nil)) rfl rfl
example (s : St) := C71_fails exExt
  (exList [exSym (str! "%format"), exStr ['f'], exStr (str! "Sam"), exAttr (str! "age") (exNum ['9'])]) _
  [exStr (str! "Sam"), exAttr (str! "age") (exNum ['9'])] ⟨['f'], default, []⟩ _ s s (.mk _ _ _ _ _ rfl rfl) (plain_evals _ _ _ rfl)
  (.inr ⟨rfl, .cons (.plain _ _ (.string _)) (.cons (.named _ _ _ _ _ (.number _)) .nil), rfl⟩)
example (s : St) := C71_compound exExt (exList [exSym (str! "%format"), exStr ['f'], exStr (str! "Sam"), exList []]) (exList [])
  _ [exStr (str! "Sam")] [] ⟨['f'], default, []⟩ _ s s (.mk _ _ _ _ _ rfl rfl) (plain_evals _ _ _ rfl) rfl
  (.cons (.plain _ _ (.string _)) .nil) (by
    intro x h
    cases h with
    | plain _ _ h => cases h)
example (s : St) := C71_no_string exExt (exList [exSym (str! "%format")]) _ [] s s (.mk _ _ _ _ _ rfl rfl)
  (plain_evals _ _ _ rfl) (by simp)

/-! ## C72 -/

/-- C72: the macros in `eager` expand their arguments from left to right before anything
else; an error in one of them is the outcome of the call, with its place unchanged. -/
theorem C72_argument (ext : Ext) (name : Str) (c : PNode) (args : List PNode) (e : Err) (s u : St)
    (hn : name ∈ eager) (hc : IsCall name args c) (ha : Evals ext args s (.err e) u) : Evals ext [c] s (.err e) u :=
  eager_error hn hc ha

/-- C72: the same for the arguments of a user's macro. -/
theorem C72_user_argument (ext : Ext) (name : Str) (c : PNode) (args : List PNode) (e : Err) (s u : St)
    (hn : builtin? name = none) (hc : IsCall name args c) (ha : Evals ext args s (.err e) u) : Evals ext [c] s (.err e) u :=
  user_error hn hc ha

/-- C72: the same for the elements of a list that is no call, for the value of a keyword, for
the value of a variable, and for the value that `%match` examines. -/
theorem C72_inside (ext : Ext) (ns : List PNode) (e : Err) (s u : St) (ha : Evals ext ns s (.err e) u) :
    (∀ si en w, PlainHead ns → Evals ext [.list ns si en w] s (.err e) u) ∧
    (∀ k v si w, ns = [v] → Evals ext [.attr k v si w] s (.err e) u) ∧
    (∀ c x, IsCall (str! "define") (.symbol x :: ns) c → Evals ext [c] s (.err e) u) ∧
    (∀ c v ps, ns = [v] → IsCall (str! "match") (v :: ps) c → Evals ext [c] s (.err e) u) := by
  refine ⟨fun si en w hp => list_error hp ha si en w, fun k v si w h => ?_, fun c x hc => define_error hc ha, fun c v ps h hc => ?_⟩
  · subst h
    exact attr_error ha k si w
  · subst h
    exact (evals_match hc).2 ⟨_, _, ha, rfl, rfl⟩

/-- C72: an error ends the expansion of a sequence: what is in front has been expanded, and
what follows has no effect. -/
theorem C72_first (ext : Ext) (xs ys vs : List PNode) (e : Err) (n : PNode) (s t u : St)
    (hx : Evals ext xs s (.ok vs) t) (hn : Evals ext [n] t (.err e) u) : Evals ext (xs ++ n :: ys) s (.err e) u := by
  have h1 : Evals ext (n :: ys) t (.err e) u := Evals.fail_left (ms := ys) hn (by simp)
  refine .of_ev (by simp) ((hx.ev.and h1.ev).mono fun f hf => ?_)
  rw [expandNodes_append, M.bind_ok hf.1, M.bind_err hf.2]

/-- `(p (%do (%list a %nothing (%log b))))`: the error is that of `%nothing`, and nothing is printed. -/
example : (∃ e t, Evals exExt [exList [exSym ['p'], exList [exSym (str! "%do"), exList [exSym (str! "%list"), exSym ['a'],
      exSym (str! "%nothing"), exList [exSym (str! "%log"), exSym ['b']]]]]] exSt (.err e) t ∧
    (fun e => decide (e.msg = (expErr "No such macro." default).msg)) e = true) ∧ str! "list" ∈ eager :=
  ⟨evals_err_of 9 _ (by decide +kernel), by simp [eager]⟩

/-- The theorems on an error in `%nothing`. -/
example (e : Err) (h : Evals exExt [exSym (str! "%nothing")] exSt (.err e) exSt) :
    Evals exExt [exList [exSym (str! "%list"), exSym (str! "%nothing")]] exSt (.err e) exSt :=
  C72_argument exExt (str! "list") _ _ e exSt exSt (by simp [eager]) (.mk _ _ _ _ _ rfl rfl) h
example (e : Err) (h : Evals exExt [exSym (str! "%nothing")] exSt (.err e) exSt) :
    Evals exExt [exList [exSym (str! "%f"), exSym (str! "%nothing")]] exSt (.err e) exSt :=
  C72_user_argument exExt ['f'] _ _ e exSt exSt rfl (.mk _ _ _ _ _ rfl rfl) h
example (e : Err) (h : Evals exExt [exSym (str! "%nothing")] exSt (.err e) exSt) :=
  C72_inside exExt [exSym (str! "%nothing")] e exSt exSt h
example (e : Err) (h : Evals exExt [exSym (str! "%nothing")] exSt (.err e) exSt) :
    Evals exExt [exStr ['a'], exSym (str! "%nothing"), exStr ['b']] exSt (.err e) exSt :=
  C72_first exExt [exStr ['a']] [exStr ['b']] _ e _ exSt exSt exSt (plain_evals _ _ _ rfl) h
example : ∃ e t, Evals exExt [exSym (str! "%nothing")] exSt (.err e) t ∧ (fun _ => true) e = true := evals_err_of 9 _ (by decide +kernel)

end Seam
