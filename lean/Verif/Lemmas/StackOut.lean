import Verif.Lemmas.Stack

/-! The writers on a bounded stack. -/

namespace Seam
open Spec Stacked

/-- The outcome is that of the unbounded function, unless the condition fails and the stack overflows. -/
def FitsIf {α : Type} (c : Prop) (x : Stacked α) (r : Res α) : Prop := x = fits r ∨ x = overflow ∧ ¬ c

theorem FitsIf.fits {α : Type} {c : Prop} (r : Res α) : FitsIf c (fits r) r := .inl rfl

theorem FitsIf.mono {α : Type} {c c' : Prop} (h : c' → c) {x : Stacked α} {r : Res α} (hx : FitsIf c x r) : FitsIf c' x r :=
  hx.imp id fun h' => ⟨h'.1, fun hc => h'.2 (h hc)⟩

theorem FitsIf.bind {α β : Type} {c : Prop} {x : Stacked α} {r : Res α} {f : α → Stacked β} {g : α → Res β} (h : FitsIf c x r)
    (hf : ∀ a, FitsIf c (f a) (g a)) : FitsIf c (x >>= f) (r >>= g) := by
  rcases h with rfl | ⟨rfl, hc⟩
  · cases r with
    | ok a => exact hf a
    | err e => exact .inl rfl
    | panic => exact .inl rfl
    | diverge => exact .inl rfl
  · exact .inr ⟨rfl, hc⟩

theorem FitsIf.enough {α : Type} {c : Prop} {x : Stacked α} {r : Res α} (h : FitsIf c x r) (hc : c) : x = Stacked.fits r :=
  h.elim id fun h => absurd hc h.2

theorem FitsIf.onStack {α : Type} {c : Prop} {x : Stacked α} {r : Res α} (h : FitsIf c x r) : OnStack x r :=
  h.elim .inr fun h => .inl h.1

theorem nesting_setLw (n : PNode) (w : Str) : nesting (n.setLw w) = nesting n := by cases n <;> rfl

theorem nestings_adjust : ∀ ns, nestings (adjustFirst ns) = nestings ns
  | [] => rfl
  | n :: ns => by simp only [adjustFirst, nestings, nesting_setLw]

theorem nestings_kids : ∀ ns, nestings (kids ns) ≤ nestings ns
  | [] => by simp [kids, nestings]
  | n :: ns => by
    simp only [kids, List.dropWhile]
    split
    · have := nestings_kids ns
      simp only [kids] at this
      simp only [nestings]; omega
    · exact Nat.le_refl _

theorem nestings_drop : ∀ k ns, nestings (ns.drop k) ≤ nestings ns
  | 0, ns => by simp
  | k + 1, [] => by simp
  | k + 1, n :: ns => by
    have := nestings_drop k ns
    simp only [List.drop_succ_cons, nestings]; omega

theorem each_fits {d : Nat} {f : PNode → Stacked Str} {g : PNode → Str} (h : ∀ n, FitsIf (nesting n ≤ d) (f n) (.ok (g n))) {gs : List PNode → Str}
    (h0 : gs [] = []) (h1 : ∀ n ns, gs (n :: ns) = g n ++ gs ns) :
    ∀ ns, FitsIf (nestings ns ≤ d) (eachIn f ns) (.ok (gs ns))
  | [] => by rw [h0]; exact .fits _
  | n :: ns => by
    rw [h1]
    exact .bind (r := .ok (g n)) (g := fun a => Res.ok (gs ns) >>= fun b => .ok (a ++ b))
      ((h n).mono (by simp only [nestings]; omega)) fun a =>
      .bind ((each_fits h h0 h1 ns).mono (by simp only [nestings]; omega)) fun b => .fits _

theorem text_fits : ∀ d n, FitsIf (nesting n ≤ d) (textNodeIn d n) (.ok (textNode n))
  | 0, n => .inr ⟨by cases n <;> rfl, by cases n <;> simp [nesting]⟩
  | d + 1, .symbol n => by simp only [textNodeIn, textNode]; exact .fits _
  | d + 1, .number n => by simp only [textNodeIn, textNode]; exact .fits _
  | d + 1, .string n => by simp only [textNodeIn, textNode]; exact .fits _
  | d + 1, .raw n => by simp only [textNodeIn, textNode]; exact .fits _
  | d + 1, .list ns s e w => by
    simp only [textNodeIn, textNode]
    exact .bind (r := .ok (textNodes ns)) (g := fun x => .ok (w ++ '(' :: x ++ e.lw ++ [')']))
      ((each_fits (text_fits d) (by simp only [textNodes]) (fun _ _ => by simp only [textNodes]) ns).mono (by simp only [nesting]; omega))
      fun _ => .fits _
  | d + 1, .attr k n s w => by
    simp only [textNodeIn, textNode]
    exact .bind (r := .ok (textNode n)) (g := fun x => .ok (w ++ ':' :: k ++ x))
      ((text_fits d n).mono (by simp only [nesting]; omega)) fun _ => .fits _

theorem sexp_fits (dbg : Str → Str) : ∀ d n, FitsIf (nesting n ≤ d) (sexpNodeIn dbg d n) (.ok (sexpNode dbg n))
  | 0, n => .inr ⟨by cases n <;> rfl, by cases n <;> simp [nesting]⟩
  | d + 1, .symbol n => by simp only [sexpNodeIn, sexpNode]; exact .fits _
  | d + 1, .number n => by simp only [sexpNodeIn, sexpNode]; exact .fits _
  | d + 1, .string n => by simp only [sexpNodeIn, sexpNode]; exact .fits _
  | d + 1, .raw n => by simp only [sexpNodeIn, sexpNode]; exact .fits _
  | d + 1, .list ns s e w => by
    simp only [sexpNodeIn, sexpNode]
    exact .bind (r := .ok (sexpNodes dbg ns)) (g := fun x => .ok (w ++ '(' :: x ++ e.lw ++ [')']))
      ((each_fits (sexp_fits dbg d) (by simp only [sexpNodes]) (fun _ _ => by simp only [sexpNodes]) ns).mono (by simp only [nesting]; omega))
      fun _ => .fits _
  | d + 1, .attr k n s w => by
    simp only [sexpNodeIn, sexpNode]
    exact .bind (r := .ok (sexpNode dbg n)) (g := fun x => .ok (w ++ ':' :: k ++ x))
      ((sexp_fits dbg d n).mono (by simp only [nesting]; omega)) fun _ => .fits _

theorem kidsIn_fits {d : Nat} {f : Str → PNode → Stacked Str} {g : Str → PNode → Res Str} {gs : KidMode → List PNode → Res Str}
    (h : ∀ w n, FitsIf (nesting n ≤ d) (f w n) (g w n)) (h0 : ∀ m, gs m [] = .ok [])
    (h1 : ∀ n ns, gs .lead (n :: ns) = if n.isAttr then gs .lead ns else g (firstLw n.lw) n >>= fun a => gs .rest ns >>= fun b => .ok (a ++ b))
    (h2 : ∀ n ns, gs .rest (n :: ns) = g n.lw n >>= fun a => gs .rest ns >>= fun b => .ok (a ++ b)) :
    ∀ m ns, FitsIf (nestings ns ≤ d) (kidsIn f m ns) (gs m ns)
  | m, [] => by rw [h0]; cases m <;> exact .fits _
  | .lead, n :: ns => by
    rw [h1, kidsIn]
    split
    · exact (kidsIn_fits h h0 h1 h2 .lead ns).mono (by simp only [nestings]; omega)
    · exact .bind ((h _ n).mono (by simp only [nestings]; omega)) fun a =>
        .bind ((kidsIn_fits h h0 h1 h2 .rest ns).mono (by simp only [nestings]; omega)) fun b => .fits _
  | .rest, n :: ns => by
    rw [h2, kidsIn]
    exact .bind ((h _ n).mono (by simp only [nestings]; omega)) fun a =>
      .bind ((kidsIn_fits h h0 h1 h2 .rest ns).mono (by simp only [nestings]; omega)) fun b => .fits _

theorem xmlKidsIn_fits {d : Nat} (h : ∀ w n, FitsIf (nesting n ≤ d) (xmlNodeIn d w n) (xmlNode w n)) :
    ∀ m ns, FitsIf (nestings ns ≤ d) (kidsIn (xmlNodeIn d) m ns) (xmlKids m ns) :=
  kidsIn_fits h (fun m => by cases m <;> simp only [xmlKids]) (fun n ns => by rw [xmlKids]) (fun n ns => by rw [xmlKids])

theorem xml_fits : ∀ d w n, FitsIf (nesting n ≤ d) (xmlNodeIn d w n) (xmlNode w n)
  | 0, w, n => .inr ⟨by simp only [xmlNodeIn], by cases n <;> simp [nesting]⟩
  | d + 1, lw, .list (.symbol h :: rest) s e w => by
    simp only [xmlNodeIn]
    cases hv : h.value with
    | nil => simp only [xmlNode, hv]; exact .fits _
    | cons c cs =>
      dsimp only
      split
      · exact .fits _
      · rename_i hc
        simp only [xmlNode, hv]
        rw [if_neg hc]
        refine .bind (.fits _) fun as => .bind ((xmlKidsIn_fits (xml_fits d) .lead rest).mono ?_) fun cs => .fits _
        simp only [nesting, nestings]; omega
  | d + 1, lw, .symbol _ => .fits _
  | d + 1, lw, .number _ => .fits _
  | d + 1, lw, .string _ => .fits _
  | d + 1, lw, .raw _ => .fits _
  | d + 1, lw, .attr .. => .fits _
  | d + 1, lw, .list [] .. => .fits _
  | d + 1, lw, .list (.number _ :: _) .. => .fits _
  | d + 1, lw, .list (.string _ :: _) .. => .fits _
  | d + 1, lw, .list (.raw _ :: _) .. => .fits _
  | d + 1, lw, .list (.attr .. :: _) .. => .fits _
  | d + 1, lw, .list (.list .. :: _) .. => .fits _

theorem valuesIn_fits {dbg : Str → Str} {d : Nat} {f : PNode → Stacked Str} (h : ∀ n, FitsIf (nesting n ≤ d) (f n) (cssValue dbg n)) :
    ∀ ns, FitsIf (nestings ns ≤ d) (valuesIn f ns) (cssValues dbg ns)
  | [] => by simp only [valuesIn, cssValues]; exact .fits _
  | n :: ns => by
    simp only [valuesIn, cssValues]
    exact .bind ((h n).mono (by simp only [nestings]; omega)) fun a =>
      .bind ((valuesIn_fits h ns).mono (by simp only [nestings]; omega)) fun b => .fits _

theorem value_fits (dbg : Str → Str) : ∀ d n, FitsIf (nesting n ≤ d) (cssValueIn dbg d n) (cssValue dbg n)
  | 0, n => .inr ⟨by simp only [cssValueIn], by cases n <;> simp [nesting]⟩
  | d + 1, .list (h :: t) s e w => by
    simp only [cssValueIn, cssValue]
    exact .bind ((value_fits dbg d h).mono (by simp only [nesting, nestings]; omega)) fun a =>
      .bind ((valuesIn_fits (value_fits dbg d) t).mono (by simp only [nesting, nestings]; omega)) fun b => .fits _
  | d + 1, .list [] .. => .fits _
  | d + 1, .symbol _ => .fits _
  | d + 1, .number _ => .fits _
  | d + 1, .string _ => .fits _
  | d + 1, .raw _ => .fits _
  | d + 1, .attr .. => .fits _

theorem onelineIn_fits {dbg : Str → Str} {d : Nat} {f : PNode → Stacked Str} (h : ∀ n, FitsIf (nesting n ≤ d) (f n) (cssValue dbg n)) :
    ∀ ns, FitsIf (nestings ns ≤ d) (onelineIn f ns) (cssOneline dbg ns)
  | [] => by simp only [onelineIn, cssOneline]; exact .fits _
  | n :: ns => by
    have ih := onelineIn_fits h ns
    cases n with
    | attr k v s w =>
      simp only [onelineIn, cssOneline]
      exact .bind ((h v).mono (by simp only [nestings, nesting]; omega)) fun a =>
        .bind (ih.mono (by simp only [nestings]; omega)) fun b => .fits _
    | _ =>
      simp only [onelineIn, cssOneline]
      exact .bind ((h _).mono (by simp only [nestings]; omega)) fun a =>
        .bind (ih.mono (by simp only [nestings]; omega)) fun b => .fits _

theorem propsIn_fits {dbg : Str → Str} {d : Nat} {f : PNode → Stacked Str} (h : ∀ n, FitsIf (nesting n ≤ d) (f n) (cssValue dbg n)) :
    ∀ ns, FitsIf (nestings ns ≤ d) (propsIn f ns) (cssProps dbg ns)
  | [] => by simp only [propsIn, cssProps]; exact .fits _
  | n :: ns => by
    have ih := propsIn_fits h ns
    cases n with
    | attr k v s w =>
      simp only [propsIn, cssProps]
      exact .bind ((h v).mono (by simp only [nestings, nesting]; omega)) fun a =>
        .bind (ih.mono (by simp only [nestings]; omega)) fun b => .fits _
    | _ => simp only [propsIn, cssProps]; exact .fits _

theorem nestedIn_fits {dbg : Str → Str} {d : Nat} {f : PNode → Stacked Str} {g : List PNode → Stacked Str}
    (h : ∀ n, FitsIf (nesting n ≤ d) (f n) (cssValue dbg n)) (hg : ∀ ns, FitsIf (nestings ns + 1 ≤ d) (g ns) (cssRule dbg ns)) :
    ∀ rules ns, FitsIf (nestings ns ≤ d) (nestedIn f g rules ns) (cssNested dbg rules ns)
  | _, [] => by simp only [nestedIn, cssNested]; exact .fits _
  | rules, n :: ns => by
    have ih := fun r => nestedIn_fits h hg r ns
    cases n with
    | attr k v s w =>
      simp only [nestedIn, cssNested]
      split
      · exact .fits _
      · exact .bind ((h v).mono (by simp only [nestings, nesting]; omega)) fun a =>
          .bind ((ih _).mono (by simp only [nestings]; omega)) fun b => .fits _
    | list rule s e w =>
      simp only [nestedIn, cssNested]
      exact .bind ((hg rule).mono (by simp only [nestings, nesting]; omega)) fun a =>
        .bind ((ih _).mono (by simp only [nestings]; omega)) fun b => .fits _
    | _ =>
      simp only [nestedIn, cssNested]
      split
      · exact .fits _
      · exact .bind ((h _).mono (by simp only [nestings]; omega)) fun a =>
          .bind ((ih _).mono (by simp only [nestings]; omega)) fun b => .fits _

theorem rule_fits (dbg : Str → Str) : ∀ d ns, FitsIf (nestings ns + 1 ≤ d) (cssRuleIn dbg d ns) (cssRule dbg ns)
  | 0, ns => .inr ⟨by simp only [cssRuleIn], by omega⟩
  | d + 1, [] => by simp only [cssRuleIn, cssRule]; exact .fits _
  | d + 1, h :: rest => by
    simp only [cssRuleIn, cssRule]
    cases ha : h.atomic? with
    | none => exact .fits _
    | some a =>
      dsimp only
      split
      · split
        · exact .bind ((onelineIn_fits (value_fits dbg d) rest).mono (by simp only [nestings]; omega)) fun _ => .fits _
        · exact .bind ((nestedIn_fits (value_fits dbg d) (rule_fits dbg d) false rest).mono (by simp only [nestings]; omega)) fun _ => .fits _
      · refine .bind ((propsIn_fits (value_fits dbg d) _).mono ?_) fun _ => .fits _
        have : nestings (cssProperties (h :: rest)) ≤ nestings (h :: rest) := nestings_drop _ _
        omega

theorem css_fits (dbg : Str → Str) (d : Nat) : ∀ ns, FitsIf (nestings ns ≤ d) (cssGenerateIn dbg d ns) (cssGenerate dbg ns)
  | [] => by simp only [cssGenerateIn, cssGenerate]; exact .fits _
  | n :: ns => by
    have ih := css_fits dbg d ns
    cases n with
    | list rule s e w =>
      simp only [cssGenerateIn, cssGenerate]
      exact .bind ((rule_fits dbg d rule).mono (by simp only [nestings, nesting]; omega)) fun a =>
        .bind (ih.mono (by simp only [nestings]; omega)) fun b => .fits _
    | _ => simp only [cssGenerateIn, cssGenerate]; exact .fits _

theorem special_fits (dbg : Str → Str) (d : Nat) (tag : Str) (rest : List PNode) (e : Token) :
    FitsIf (nestings rest ≤ d) (specialIn dbg d tag rest e) (htmlSpecialContent dbg tag rest e) := by
  unfold specialIn htmlSpecialContent
  rw [← nestings_adjust rest]
  generalize adjustFirst rest = ks
  split
  · exact .fits _
  · split
    · exact each_fits (text_fits d) (by simp only [textNodes]) (fun _ _ => by simp only [textNodes]) ks
    · split
      · have hs : FitsIf (nestings ks ≤ d) (cssGenerateIn dbg d ks >>= fun c => Stacked.fits (.ok ('\n' :: c)))
            (cssGenerate dbg ks >>= fun c => .ok ('\n' :: c)) := .bind (css_fits dbg d _) fun _ => .fits _
        match ks, hs with
        | [], hs => exact hs
        | [.string _], _ => exact .fits _
        | .string _ :: _ :: _, _ => exact .fits _
        | .symbol _ :: _, hs => exact hs
        | .number _ :: _, hs => exact hs
        | .raw _ :: _, hs => exact hs
        | .list .. :: _, hs => exact hs
        | .attr .. :: _, hs => exact hs
      · split
        · exact each_fits (sexp_fits dbg d) (by simp only [sexpNodes]) (fun _ _ => by simp only [sexpNodes]) ks
        · exact xmlKidsIn_fits (xml_fits d) .rest ks

theorem htmlKidsIn_fits {dbg : Str → Str} {d : Nat} (h : ∀ w n, FitsIf (nesting n ≤ d) (htmlNodeIn dbg d w n) (htmlNode dbg w n)) :
    ∀ m ns, FitsIf (nestings ns ≤ d) (kidsIn (htmlNodeIn dbg d) m ns) (htmlKids dbg m ns) :=
  kidsIn_fits h (fun m => by cases m <;> simp only [htmlKids]) (fun n ns => by rw [htmlKids]) (fun n ns => by rw [htmlKids])

theorem html_fits (dbg : Str → Str) : ∀ d w n, FitsIf (nesting n ≤ d) (htmlNodeIn dbg d w n) (htmlNode dbg w n)
  | 0, w, n => .inr ⟨by simp only [htmlNodeIn], by cases n <;> simp [nesting]⟩
  | d + 1, lw, .list (.symbol h :: rest) s e w => by
    simp only [htmlNodeIn]
    cases hv : lower h.value with
    | nil => simp only [htmlNode, hv]; exact .fits _
    | cons c cs =>
      dsimp only
      split
      · exact .fits _
      · rename_i hc
        simp only [htmlNode, hv]
        rw [if_neg hc]
        refine .bind (.fits _) fun as => ?_
        split
        · generalize kids rest = ks
          cases ks <;> exact .fits _
        · split
          · refine .bind ((special_fits dbg d _ _ _).mono ?_) fun _ => .fits _
            have := nestings_kids rest
            simp only [nesting, nestings]; omega
          · refine .bind ((htmlKidsIn_fits (html_fits dbg d) .lead rest).mono ?_) fun _ => .fits _
            simp only [nesting, nestings]; omega
  | d + 1, lw, .symbol _ => .fits _
  | d + 1, lw, .number _ => .fits _
  | d + 1, lw, .string _ => .fits _
  | d + 1, lw, .raw _ => .fits _
  | d + 1, lw, .attr .. => .fits _
  | d + 1, lw, .list [] .. => .fits _
  | d + 1, lw, .list (.number _ :: _) .. => .fits _
  | d + 1, lw, .list (.string _ :: _) .. => .fits _
  | d + 1, lw, .list (.raw _ :: _) .. => .fits _
  | d + 1, lw, .list (.attr .. :: _) .. => .fits _
  | d + 1, lw, .list (.list .. :: _) .. => .fits _

end Seam
