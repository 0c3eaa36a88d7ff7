import Verif.Lemmas.Layout
import Verif.Model.Cli

/-! Whole documents of trees laid out otherwise. -/

namespace Seam
open Spec
set_option linter.unusedSectionVars false

section
variable {S : Site → Site → Prop} {W : Str → Str → Prop} {keep : Char → Bool} [Blanking W] [Kept W keep]

theorem headMatches_laid (kind : SearchType) (value : Str) (ins : Bool) {ns ms : List PNode} (h : Laids S W ns ms) :
    headMatches kind value ins ns = headMatches kind value ins ms := by
  unfold headMatches
  cases h with
  | nil => rfl
  | cons n m _ _ h _ =>
    have ha := h.atomic
    simp only [List.head?_cons, Option.bind_some]
    revert ha
    generalize n.atomic? = x
    generalize m.atomic? = y
    intro ha
    cases ha with
    | none => rfl
    | some ha => simp only [ha.value]

mutual
theorem searchNode_laid (kind : SearchType) (value : Str) (ins : Bool) : ∀ {n m : PNode} (level : Nat), Laid S W n m →
    (searchNode kind value ins n level).isNone = (searchNode kind value ins m level).isNone
  | _, _, 0, _ => by simp [searchNode]
  | _, _, _ + 1, .symbol _ _ h | _, _, _ + 1, .number _ _ h | _, _, _ + 1, .string _ _ h | _, _, _ + 1, .raw _ _ h => by
    simp only [searchNode, h.value]
    split <;> rfl
  | _, _, level + 1, .list _ _ _ _ _ _ _ _ h _ _ _ _ => by
    simp only [searchNode, headMatches_laid kind value ins h]
    split
    · rfl
    · exact searchNodes_laid kind value ins level h
  | _, _, level + 1, .attr _ _ _ _ _ _ _ h _ _ => by
    simp only [searchNode]
    split
    · rfl
    · exact searchNode_laid kind value ins level h
theorem searchNodes_laid (kind : SearchType) (value : Str) (ins : Bool) : ∀ {ns ms : List PNode} (level : Nat), Laids S W ns ms →
    (searchNodes kind value ins ns level).isNone = (searchNodes kind value ins ms level).isNone
  | _, _, 0, _ => by simp [searchNodes]
  | _, _, _ + 1, .nil => rfl
  | _, _, level + 1, .cons n m ns ms h hs => by
    have h1 := searchNode_laid kind value ins (level + 1) h
    have h2 := searchNodes_laid kind value ins (level + 1) hs
    rw [searchNodes, searchNodes]
    revert h1
    generalize searchNode kind value ins n (level + 1) = x
    generalize searchNode kind value ins m (level + 1) = y
    intro h1
    cases x <;> cases y <;> first | exact h2 | rfl | (simp at h1)
end

theorem popNewline_tail (a : Str) : ∀ {b : Str}, b ≠ [] → popNewline (a ++ b) = a ++ popNewline b := by
  intro b hb
  unfold popNewline
  rw [List.getLast?_append]
  cases hl : b.getLast? with
  | none => simp at hl; exact absurd hl hb
  | some c =>
    simp only [Option.or, Option.some.injEq]
    by_cases hc : c = '\n'
    · rw [if_pos hc, if_pos hc, List.dropLast_append_of_ne_nil hb]
    · rw [if_neg hc, if_neg hc]

theorem xmlHasDecl_laid {ns ms : List PNode} (h : Laids S W ns ms) : xmlHasDecl ns = xmlHasDecl ms := by
  cases h with
  | nil => rfl
  | cons _ _ _ _ h _ =>
    cases h with
    | list _ _ _ _ _ _ _ _ h =>
      cases h with
      | nil => rfl
      | cons _ _ _ _ h _ =>
        cases h with
        | symbol a b h => simp only [xmlHasDecl, h.value]
        | _ => rfl
    | _ => rfl

theorem xmlDocument_laid {ns ms : List PNode} (h : Laids S W ns ms) : SameR S (SameBut keep) (xmlDocument ns) (xmlDocument ms) := by
  unfold xmlDocument
  rw [h.isEmpty, xmlHasDecl_laid h]
  split
  · exact SameBut.refl _
  · exact SameR.bind (R := SameBut keep) (xmlKids_laid .rest h) fun _ _ h => .append (.refl _) h
theorem cssDocument_laid (dbg : Str → Str) {ns ms : List PNode} (h : Laids S W ns ms) :
    SameR S (SameBut keep) (cssDocument dbg ns) (cssDocument dbg ms) := by
  unfold cssDocument
  rw [h.isEmpty]
  split
  · exact SameBut.refl _
  · exact cssGenerate_laid dbg h
theorem htmlDocument_laid (dbg : Str → Str) {ns ms : List PNode} (h : Laids S W ns ms)
    (hp : ∀ h rest s e w, InLists (.list (.symbol h :: rest) s e w) ns → h.value.map lowerChar ≠ str! "pre") :
    SameR S (SameBut keep) (htmlDocument dbg ns) (htmlDocument dbg ms) := by
  unfold htmlDocument
  rw [h.isEmpty]
  split
  · exact SameBut.refl _
  · simp only [searchNodes_laid .listHead _ true _ h]
    refine SameR.bind (R := SameBut keep) (htmlKids_laid dbg .rest h hp) fun a b h => ?_
    have key : ∀ pre post : Str, SameBut keep (popNewline (pre ++ a ++ ['\n'] ++ post)) (popNewline (pre ++ b ++ ['\n'] ++ post)) := by
      intro pre post
      rw [List.append_assoc, List.append_assoc _ _ post, popNewline_tail (pre ++ a) (by simp), popNewline_tail (pre ++ b) (by simp)]
      exact .append (.append (.refl _) h) (.refl _)
    exact key _ _

/-- The output for a target. -/
theorem generate_laid (dbg : Str → Str) (target : Str) (doc : Bool) {ns ms : List PNode} (h : Laids S W ns ms)
    (hp : target = str! "html" →
      ∀ h rest s e w, InLists (.list (.symbol h :: rest) s e w) ns → h.value.map lowerChar ≠ str! "pre") :
    OptR (SameR S (SameBut keep)) (generate dbg target doc ns) (generate dbg target doc ms) := by
  unfold generate
  split
  · exact .some (textNodes_sq h)
  split
  · exact .some (sexpNodes_sq dbg h)
  split
  · rename_i ht
    refine .some ?_
    split
    · exact htmlDocument_laid dbg h (hp ht)
    · exact htmlKids_laid dbg .rest h (hp ht)
  split
  · refine .some ?_
    split
    · exact xmlDocument_laid h
    · exact xmlKids_laid .rest h
  split
  · refine .some ?_
    split
    · exact cssDocument_laid dbg h
    · exact cssGenerate_laid dbg h
  · exact .none
end

end Seam
