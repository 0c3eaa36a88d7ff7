import Verif.Lemmas.SoundRun
import Verif.Lemmas.Eval
import Verif.Spec.DomNames

/-! # The marks of what a program makes -/

namespace Seam
open Spec

/-- All sites, the marks with an origin and the macros that can be called. -/
def originRegion (ext : Ext) (P : Mark → Prop) : Region :=
  ⟨fun _ => True, fun _ => True, fun _ _ => trivial, Origin ext P, CanCall ext P⟩

theorem extSnd_origin (ext : Ext) (P : Mark → Prop) : ExtSnd (originRegion ext P) False ext where
  calm := False.elim
  src := {
    call := fun t b h1 h2 => .name b t h1 h2
    indirect := fun a ha h t b ht hb => .indirect a b t ha h ht hb
    sort := .sort
    raw := fun h t => .raw t h
    markdown := fun h text html hm => .markdown text html h hm
    symbol := fun h t => .symbol t h
    lambda := fun h s => .lambda s h
    toml := fun h text table ht m hm => by
      rcases h with h | h
      · exact .toml .toml text table m (.inl rfl) h ht hm
      · exact .toml .markdown text table m (.inr rfl) h ht hm
    yaml := fun h text v hv => by
      rcases h with h | h
      · exact .yaml .yaml text v (.inl rfl) h hv
      · exact .yaml .markdown text v (.inr rfl) h hv
    index := fun h i => by
      rcases h with h | h
      · exact .index .yaml i (.inl rfl) h
      · exact .index .markdown i (.inr rfl) h }
  file hu p code id tree _ h1 h2 := goods_iff.2 ⟨fun _ _ => trivial, fun m hm => .file p code id tree m hu h1 h2 hm⟩

theorem goods_origin {ext : Ext} {P : Mark → Prop} {ns : List PNode} :
    Goods (originRegion ext P) ns ↔ ∀ m ∈ marksOfAll ns, Origin ext P m :=
  ⟨fun h => (goods_iff.1 h).2, fun h => goods_iff.2 ⟨fun _ _ => trivial, h⟩⟩

theorem evals_origin {ext : Ext} {P : Mark → Prop} {ns : List PNode} {s t : St} {r : Res (List PNode)} (h : Evals ext ns s r t)
    (hf : Fair s.order) (hp : ∀ m ∈ marksOfAll ns, Origin ext P m)
    (hs : ∀ name d, s.scope name = some d → ∀ m ∈ marksOfAll d.params ++ marksOfAll d.body, Origin ext P m) :
    (∀ out, r = .ok out → ∀ m ∈ marksOfAll out, Origin ext P m) ∧
    ∀ name d, t.scope name = some d → ∀ m ∈ marksOfAll d.params ++ marksOfAll d.body, Origin ext P m := by
  obtain ⟨_, f, hf'⟩ := h
  have hi : Inv (originRegion ext P) s := ⟨fun name d hd => ⟨goods_origin.2 fun m hm => hs name d hd m (by simp [hm]),
    goods_origin.2 fun m hm => hs name d hd m (by simp [hm])⟩, fun _ _ => trivial, hf⟩
  have h := expandNodes_snd (run_snd (extSnd_origin ext P) f) (goods_origin.2 hp) s trivial hi
  rw [hf'] at h
  refine ⟨fun out ho => ?_, fun name d hd m hm => ?_⟩
  · subst ho
    exact goods_origin.1 h.2
  · rcases List.mem_append.1 hm with hm | hm
    · exact goods_origin.1 (h.1.scope name d hd).1 m hm
    · exact goods_origin.1 (h.1.scope name d hd).2 m hm

/-- The mark is in the program or the name of a `%lambda`. -/
def Plainly (ext : Ext) (P : Mark → Prop) (m : Mark) : Prop := P m ∨ ∃ s, m = .name (str! "__lambda" ++ ext.uuid s)

theorem lambda_builtin (t : Str) : builtin? (str! "__lambda" ++ t) = none := rfl

mutual
theorem textOnly_origin {ext : Ext} {P : Mark → Prop} (hp : NamesTextOnly P) : ∀ {m : Mark}, Origin ext P m → Plainly ext P m
  | _, .program m h => .inl h
  | _, .file _ _ _ _ _ h _ _ _ => absurd (textOnly_call hp h).1 (by decide)
  | _, .raw _ h => absurd (textOnly_call hp h).1 (by decide)
  | _, .markdown _ _ h _ => absurd (textOnly_call hp h).1 (by decide)
  | _, .symbol _ h => absurd (textOnly_call hp h).1 (by decide)
  | _, .lambda s _ => .inr ⟨s, rfl⟩
  | _, .toml b _ _ _ hb h _ _ => by
    have h' := (textOnly_call hp h).1
    rcases hb with rfl | rfl <;> exact absurd h' (by decide)
  | _, .yaml b _ _ hb h _ => by
    have h' := (textOnly_call hp h).1
    rcases hb with rfl | rfl <;> exact absurd h' (by decide)
  | _, .index b _ hb h => by
    have h' := (textOnly_call hp h).1
    rcases hb with rfl | rfl <;> exact absurd h' (by decide)
theorem textOnly_call {ext : Ext} {P : Mark → Prop} (hp : NamesTextOnly P) : ∀ {b : Builtin}, CanCall ext P b → b ∈ textOnly ∧
    (b ∈ calling → ∃ t b, P (.name ('%' :: t)) ∧ builtin? t = some b ∧ b ∈ calling)
  | _, .name b t h hb => by
    rcases textOnly_origin hp h with h | ⟨s, h⟩
    · exact ⟨hp.1 t b h hb, fun hc => ⟨t, b, h, hb, hc⟩⟩
    · simp at h
  | _, .indirect a b t ha hc h hb => by
    have hc' := (textOnly_call hp hc).2 ha
    rcases textOnly_origin hp h with h | ⟨s, h⟩
    · exact ⟨hp.2 hc' t b h hb, fun _ => hc'⟩
    · simp only [Mark.name.injEq] at h
      rw [h, lambda_builtin] at hb
      cases hb
  | _, .sort h => ⟨by decide, fun h => absurd h (by decide)⟩
end

theorem domMarksAll_append (as bs : List Dom) : domMarksAll (as ++ bs) = domMarksAll as ++ domMarksAll bs := by
  induction as with
  | nil => rfl
  | cons a as ih => simp [domMarksAll, ih]

theorem domMarksAll_text (s : Str) : domMarksAll (Dom.text s) = [] := by
  induction s with
  | nil => rfl
  | cons c s ih => simpa [domMarksAll, Dom.text, domMarks] using ih

theorem marksOfAll_append (as bs : List PNode) : marksOfAll (as ++ bs) = marksOfAll as ++ marksOfAll bs := by
  induction as with
  | nil => rfl
  | cons a as ih => simp [marksOfAll, ih]

theorem givesAttrs_marks {ns : List PNode} {as : List (Str × Str)} (h : GivesAttrs ns as) :
    ∀ a ∈ as, Mark.key a.1 ∈ marksOfAll ns := by
  induction h with
  | nil => simp
  | cons k v a s w ns as _ _ ih =>
    intro b hb
    rcases List.mem_cons.1 hb with rfl | hb
    · simp [marksOfAll, marksOf]
    · exact List.mem_append_right _ (ih b hb)

theorem settled_marks {ns ms : List PNode} (h : Settled ns ms) : marksOfAll ms = marksOfAll ns := by
  cases h with
  | nil => rfl
  | keep n ns _ => rfl
  | drop n ns _ => cases n <;> rfl

mutual
theorem domOf_marks {d : Dialect} {f : Str → Str} : ∀ {n : PNode} {ds : List Dom}, DomOf d f n ds → ∀ m ∈ domMarksAll ds, m ∈ marksOf n
  | _, _, .text n a _ => by simp [domMarksAll_text]
  | _, _, .elem h attrs kids kids' s e w g as ds _ ha _ hk hd _ => by
    intro m hm
    simp only [domMarksAll_append, domMarksAll_text, domMarksAll, domMarks, List.nil_append, List.append_nil,
      readValues, List.map_map, Function.comp_def, List.mem_cons, List.mem_append, List.mem_map] at hm
    simp only [marksOf, marksOfAll, List.mem_append, List.mem_cons, List.not_mem_nil, or_false, marksOfAll_append]
    rcases hm with rfl | ⟨a, hm, rfl⟩ | hm
    · exact .inl rfl
    · exact .inr (.inl (givesAttrs_marks ha a hm))
    · exact .inr (.inr (settled_marks hk ▸ domsOf_marks hd m hm))
  | _, _, .void h attrs s e w as _ ha => by
    intro m hm
    simp only [domMarksAll_append, domMarksAll_text, domMarksAll, domMarks, List.nil_append, List.append_nil,
      readValues, List.map_map, Function.comp_def, List.mem_cons, List.mem_map] at hm
    simp only [marksOf, marksOfAll, List.mem_append, List.mem_cons, List.not_mem_nil, or_false]
    rcases hm with rfl | ⟨a, hm, rfl⟩
    · exact .inl rfl
    · exact .inr (givesAttrs_marks ha a hm)
  | _, _, .decl h rest s e w body _ _ => by simp [domMarksAll_append, domMarksAll_text, domMarksAll, domMarks]
theorem domsOf_marks {d : Dialect} {f : Str → Str} : ∀ {ns : List PNode} {ds : List Dom}, DomsOf d f ns ds → ∀ m ∈ domMarksAll ds, m ∈ marksOfAll ns
  | _, _, .nil => by simp [domMarksAll]
  | _, _, .cons n ns ds es h1 h2 => by
    intro m hm
    simp only [domMarksAll_append, List.mem_append, marksOfAll] at hm ⊢
    rcases hm with hm | hm
    · exact .inl (domOf_marks h1 m hm)
    · exact .inr (domsOf_marks h2 m hm)
end

/-! ## Sources -/

theorem expr_noRaw {u : Unescape} : ∀ {ts : List Token} {n : PNode}, Expr u ts n → ∀ t, Mark.raw t ∉ marksOf n
  | _, _, .symbol t _ => by simp [marksOf]
  | _, _, .number t _ => by simp [marksOf]
  | _, _, .string t _ _ _ => by simp [marksOf]
  | _, _, .list o c ts ns _ _ hs => by
    have := exprs_noRaw hs
    simpa [marksOf] using this
  | _, _, .attr k ts n _ hn => by
    have := expr_noRaw hn
    simpa [marksOf] using this
where exprs_noRaw {u : Unescape} : ∀ {ts : List Token} {ns : List PNode}, Exprs u ts ns → ∀ t, Mark.raw t ∉ marksOfAll ns
  | _, _, .nil => by simp [marksOfAll]
  | _, _, .cons us n us' ns hn hs => by
    have h1 := expr_noRaw hn
    have h2 := exprs_noRaw hs
    intro t
    simp [marksOfAll, h1 t, h2 t]

theorem parse_noRaw {u : Unescape} {b : Buf} {ns : List PNode} (h : parse u b = .ok ns) (t : Str) : Mark.raw t ∉ marksOfAll ns := by
  obtain ⟨toks, _, hs⟩ := parse_ok_tokens h
  exact expr_noRaw.exprs_noRaw hs t

theorem expand_evals {ext : Ext} {order : Order} {fuel : Nat} {path code : Str} {out : List PNode}
    (h : (expand ext order fuel path code).1 = .ok out) : ∃ tree t, parse ext.unescape { path := path, id := 1, code := code } = .ok tree ∧
      Evals ext tree (St.init order) (.ok out) t := by
  unfold expand at h
  rcases hp : parse ext.unescape { path := path, id := 1, code := code } with tree | e | _ | _ <;> rw [hp] at h
  · exact ⟨tree, _, rfl, by simp, fuel, Prod.ext h rfl⟩
  all_goals cases h

/-- A check of `NamesTextOnly`. -/
def namesTextOnly (l : List Mark) : Bool := l.all fun m => match m with
  | .name ('%' :: t) => match builtin? t with | some b => decide (b ∈ textOnly) | none => true
  | .name t => match builtin? t with | some b => decide (b ∈ textOnly) | none => true
  | _ => true

theorem namesTextOnly_of {l : List Mark} (h : namesTextOnly l = true) : NamesTextOnly (· ∈ l) := by
  constructor
  · intro t b hm hb
    have := List.all_eq_true.1 h _ hm
    simpa [hb] using this
  · intro _ t b hm hb
    have := List.all_eq_true.1 h _ hm
    revert this
    split
    · rename_i h'
      cases h'
      cases hb
    · rename_i h'
      cases h'
      simp [hb]
    · rename_i h'
      exact (h' _ rfl).elim

end Seam
