import Verif.Lemmas.Css
import Verif.Lemmas.Html
import Verif.Lemmas.Tree

/-! Helper lemmas: generation does not panic. -/

namespace Seam
open Spec

theorem xmlAttrs_notFails : ∀ ns : List PNode, ¬ Fails (xmlAttrs ns)
  | [] => not_fails_ok _
  | n :: ns => by
    cases n with
    | attr k v s w =>
      intro h
      rcases fails_bind h with h | ⟨a, _, h⟩
      · simp only [xmlAttr] at h
        split at h
        · exact not_fails_ok _ h
        · exact not_fails_err _ h
      rcases fails_bind h with h | ⟨a, _, h⟩
      · exact xmlAttrs_notFails ns h
      · exact not_fails_ok _ h
    | _ => exact not_fails_ok _

theorem xmlDecl_notFails : ∀ ns : List PNode, ¬ Fails (xmlDecl ns)
  | [] => not_fails_ok _
  | n :: ns => by
    cases n with
    | attr k v s w =>
      intro h
      rcases fails_bind h with h | ⟨a, _, h⟩
      · simp only [xmlAttr] at h
        split at h
        · exact not_fails_ok _ h
        · exact not_fails_err _ h
      rcases fails_bind h with h | ⟨a, _, h⟩
      · exact xmlDecl_notFails ns h
      · exact not_fails_ok _ h
    | symbol a | number a =>
      intro h
      rcases fails_bind h with h | ⟨a, _, h⟩
      · exact xmlDecl_notFails ns h
      · exact not_fails_ok _ h
    | _ => exact not_fails_err _

theorem htmlAttrs_notFails : ∀ ns : List PNode, ¬ Fails (htmlAttrs ns)
  | [] => not_fails_ok _
  | n :: ns => by
    cases n with
    | attr k v s w =>
      intro h
      simp only [htmlAttrs] at h
      split at h
      · rcases fails_bind h with h | ⟨a, _, h⟩
        · exact htmlAttrs_notFails ns h
        · exact not_fails_ok _ h
      · exact not_fails_err _ h
    | _ => exact not_fails_ok _

theorem htmlDecl_notFails : ∀ ns : List PNode, ¬ Fails (htmlDecl ns)
  | [] => not_fails_ok _
  | n :: ns => by
    intro h
    simp only [htmlDecl] at h
    split at h
    · rcases fails_bind h with h | ⟨a, _, h⟩
      · exact htmlDecl_notFails ns h
      · exact not_fails_ok _ h
    · exact not_fails_err _ h

/-- The heads of lists are not empty symbols. -/
def HeadsOk (ns : List PNode) : Prop :=
  ∀ h rest s e w, InLists (.list (.symbol h :: rest) s e w) ns → h.value ≠ []

theorem inLists_mono {n : PNode} {ns ms : List PNode} (h : InLists n ns) (hs : ∀ m ∈ ns, m ∈ ms) : InLists n ms := by
  cases h with
  | here _ h => exact .here _ (hs _ h)
  | deeper _ kids s e w h h' => exact .deeper _ kids s e w (hs _ h) h'

theorem headsOk_mono {ns ms : List PNode} (h : HeadsOk ms) (hs : ∀ m ∈ ns, m ∈ ms) : HeadsOk ns :=
  fun a b c d e hm => h a b c d e (inLists_mono hm hs)

theorem headsOk_kids {ks : List PNode} {s : Site} {e : Token} {w : Str} (h : HeadsOk [.list ks s e w]) : HeadsOk ks :=
  fun a b c d e' hm => h a b c d e' (.deeper _ ks s e w (by simp) hm)

mutual
theorem xmlNode_notFails : ∀ (lw : Str) (n : PNode), HeadsOk [n] → ¬ Fails (xmlNode lw n)
  | lw, .symbol n, _ | lw, .number n, _ | lw, .string n, _ => not_fails_ok _
  | lw, .raw n, _ => not_fails_err _
  | lw, .attr k v s w, _ => not_fails_err _
  | lw, .list [] s e w, _ => not_fails_err _
  | lw, .list (.number _ :: _) s e w, _ => not_fails_err _
  | lw, .list (.string _ :: _) s e w, _ => not_fails_err _
  | lw, .list (.raw _ :: _) s e w, _ => not_fails_err _
  | lw, .list (.list _ _ _ _ :: _) s e w, _ => not_fails_err _
  | lw, .list (.attr _ _ _ _ :: _) s e w, _ => not_fails_err _
  | lw, .list (.symbol h :: rest) s e w, hh => by
    intro hf
    have hk : HeadsOk rest := headsOk_mono (headsOk_kids hh) (by simp +contextual)
    have hne : h.value ≠ [] := hh h rest s e w (.here _ (by simp))
    simp only [xmlNode] at hf
    split at hf
    · rename_i hv; exact hne hv
    · split at hf
      · rcases fails_bind hf with hf | ⟨a, _, hf⟩
        · exact xmlDecl_notFails _ hf
        · exact not_fails_ok _ hf
      · rcases fails_bind hf with hf | ⟨a, _, hf⟩
        · exact xmlAttrs_notFails _ hf
        rcases fails_bind hf with hf | ⟨a, _, hf⟩
        · exact xmlKids_notFails _ _ hk hf
        · exact not_fails_ok _ hf
theorem xmlKids_notFails : ∀ (m : KidMode) (ns : List PNode), HeadsOk ns → ¬ Fails (xmlKids m ns)
  | .lead, [], _ => by simp only [xmlKids]; exact not_fails_ok _
  | .rest, [], _ => by simp only [xmlKids]; exact not_fails_ok _
  | .lead, n :: ns, h => by
    intro hf
    have h1 : HeadsOk [n] := headsOk_mono h (by simp)
    have h2 : HeadsOk ns := headsOk_mono h (by simp +contextual)
    rw [xmlKids] at hf
    split at hf
    · exact xmlKids_notFails .lead ns h2 hf
    · rcases fails_bind hf with hf | ⟨a, _, hf⟩
      · exact xmlNode_notFails _ n h1 hf
      rcases fails_bind hf with hf | ⟨a, _, hf⟩
      · exact xmlKids_notFails .rest ns h2 hf
      · exact not_fails_ok _ hf
  | .rest, n :: ns, h => by
    intro hf
    have h1 : HeadsOk [n] := headsOk_mono h (by simp)
    have h2 : HeadsOk ns := headsOk_mono h (by simp +contextual)
    rw [xmlKids] at hf
    rcases fails_bind hf with hf | ⟨a, _, hf⟩
    · exact xmlNode_notFails _ n h1 hf
    rcases fails_bind hf with hf | ⟨a, _, hf⟩
    · exact xmlKids_notFails .rest ns h2 hf
    · exact not_fails_ok _ hf
end

theorem kids_split_attrs (rest : List PNode) : ∃ ans, rest = ans ++ kids rest ∧ ∀ a ∈ ans, a.isAttr = true :=
  ⟨rest.takeWhile PNode.isAttr, List.takeWhile_append_dropWhile.symm, fun _ h => by
    have := List.all_takeWhile (p := PNode.isAttr) (l := rest)
    rw [List.all_eq_true] at this
    exact this _ h⟩

theorem kids_head {rest : List PNode} {k : PNode} {post : List PNode} (h : kids rest = k :: post) :
    k.isAttr = false := by
  have := List.head?_dropWhile_not PNode.isAttr rest
  unfold kids at h
  rw [h] at this
  simpa using this

theorem kids_subset {ns : List PNode} : ∀ m ∈ kids ns, m ∈ ns := fun _ hm => (List.dropWhile_sublist _).subset hm

theorem setLw_list {n : PNode} {lw : Str} {ks : List PNode} {s : Site} {e : Token} {w : Str}
    (h : n.setLw lw = .list ks s e w) : ∃ w', n = .list ks s e w' := by
  cases n <;> simp [PNode.setLw] at h
  obtain ⟨rfl, rfl, rfl, _⟩ := h
  exact ⟨_, rfl⟩

theorem headsOk_adjust {ns : List PNode} (h : HeadsOk ns) : HeadsOk (adjustFirst ns) := by
  cases ns with
  | nil => exact h
  | cons n ns =>
    intro a b c d e hm
    cases hm with
    | here _ hm =>
      simp only [adjustFirst, List.mem_cons] at hm
      rcases hm with hm | hm
      · obtain ⟨w', rfl⟩ := setLw_list hm.symm
        exact h _ _ _ _ _ (.here _ List.mem_cons_self)
      · exact h _ _ _ _ _ (.here _ (List.mem_cons_of_mem _ hm))
    | deeper _ ks s e w hm hm' =>
      simp only [adjustFirst, List.mem_cons] at hm
      rcases hm with hm | hm
      · obtain ⟨w', rfl⟩ := setLw_list hm.symm
        exact h _ _ _ _ _ (.deeper _ ks s e w' (by simp) hm')
      · exact h _ _ _ _ _ (.deeper _ ks s e w (by simp [hm]) hm')

/-- What HTML generation needs of the lists in a tree. -/
def ListsOk (dbg : Str → Str) (ns : List PNode) : Prop :=
  ∀ h rest s e w, InLists (.list (.symbol h :: rest) s e w) ns → h.value ≠ [] ∧
    (lower h.value = str! "pre" → ¬ Fails (rawText (kids rest).head? e)) ∧
    (lower h.value = str! "style" → ¬ Fails (cssGenerate dbg (adjustFirst (kids rest))))

theorem listsOk_mono {dbg : Str → Str} {ns ms : List PNode} (h : ListsOk dbg ms) (hs : ∀ m ∈ ns, m ∈ ms) : ListsOk dbg ns :=
  fun a b c d e hm => h a b c d e (inLists_mono hm hs)

theorem listsOk_kids {dbg : Str → Str} {ks : List PNode} {s : Site} {e : Token} {w : Str} (h : ListsOk dbg [.list ks s e w]) :
    ListsOk dbg ks :=
  fun a b c d e' hm => h a b c d e' (.deeper _ ks s e w (by simp) hm)

theorem special_notFails {dbg : Str → Str} {tag : Str} {rest : List PNode} {e : Token} (hk : HeadsOk rest)
    (hp : tag = str! "pre" → ¬ Fails (rawText rest.head? e))
    (hs : tag = str! "style" → ¬ Fails (cssGenerate dbg (adjustFirst rest))) :
    ¬ Fails (htmlSpecialContent dbg tag rest e) := by
  unfold htmlSpecialContent
  split
  · rename_i h; exact hp (by simpa using h)
  · split
    · exact not_fails_ok _
    · split
      · rename_i h
        have hs := hs (by simpa using h)
        intro hf
        split at hf
        · exact not_fails_ok _ hf
        · exact not_fails_err _ hf
        · rcases fails_bind hf with hf | ⟨a, _, hf⟩
          · exact hs hf
          · exact not_fails_ok _ hf
      · split
        · exact not_fails_ok _
        · exact xmlKids_notFails _ _ (headsOk_adjust hk)

mutual
theorem htmlNode_notFails (dbg : Str → Str) : ∀ (lw : Str) (n : PNode), ListsOk dbg [n] → ¬ Fails (htmlNode dbg lw n)
  | lw, .symbol n, _ | lw, .number n, _ | lw, .string n, _ | lw, .raw n, _ => not_fails_ok _
  | lw, .attr k v s w, _ => not_fails_err _
  | lw, .list [] s e w, _ => not_fails_err _
  | lw, .list (.number _ :: _) s e w, _ => not_fails_err _
  | lw, .list (.string _ :: _) s e w, _ => not_fails_err _
  | lw, .list (.raw _ :: _) s e w, _ => not_fails_err _
  | lw, .list (.list _ _ _ _ :: _) s e w, _ => not_fails_err _
  | lw, .list (.attr _ _ _ _ :: _) s e w, _ => not_fails_err _
  | lw, .list (.symbol h :: rest) s e w, hh => by
    intro hf
    have hk : ListsOk dbg rest := listsOk_mono (listsOk_kids hh) (by simp +contextual)
    obtain ⟨hne, hp, hst⟩ := hh h rest s e w (.here _ (by simp))
    simp only [htmlNode] at hf
    split at hf
    · rename_i hv
      apply hne
      cases hc : h.value with
      | nil => rfl
      | cons c t => rw [hc] at hv; cases hv
    · split at hf
      · rcases fails_bind hf with hf | ⟨a, _, hf⟩
        · exact htmlDecl_notFails _ hf
        · exact not_fails_ok _ hf
      · rcases fails_bind hf with hf | ⟨a, _, hf⟩
        · exact htmlAttrs_notFails _ hf
        split at hf
        · split at hf
          · exact not_fails_err _ hf
          · exact not_fails_ok _ hf
        split at hf
        · rcases fails_bind hf with hf | ⟨a, _, hf⟩
          · refine special_notFails ?_ hp hst hf
            exact headsOk_mono (fun a b c d e hm => (hk a b c d e hm).1) kids_subset
          · exact not_fails_ok _ hf
        · rcases fails_bind hf with hf | ⟨a, _, hf⟩
          · exact htmlKids_notFails dbg _ _ hk hf
          · exact not_fails_ok _ hf
theorem htmlKids_notFails (dbg : Str → Str) : ∀ (m : KidMode) (ns : List PNode), ListsOk dbg ns → ¬ Fails (htmlKids dbg m ns)
  | .lead, [], _ => by simp only [htmlKids]; exact not_fails_ok _
  | .rest, [], _ => by simp only [htmlKids]; exact not_fails_ok _
  | .lead, n :: ns, h => by
    intro hf
    have h1 : ListsOk dbg [n] := listsOk_mono h (by simp)
    have h2 : ListsOk dbg ns := listsOk_mono h (by simp +contextual)
    rw [htmlKids] at hf
    split at hf
    · exact htmlKids_notFails dbg .lead ns h2 hf
    · rcases fails_bind hf with hf | ⟨a, _, hf⟩
      · exact htmlNode_notFails dbg _ n h1 hf
      rcases fails_bind hf with hf | ⟨a, _, hf⟩
      · exact htmlKids_notFails dbg .rest ns h2 hf
      · exact not_fails_ok _ hf
  | .rest, n :: ns, h => by
    intro hf
    have h1 : ListsOk dbg [n] := listsOk_mono h (by simp)
    have h2 : ListsOk dbg ns := listsOk_mono h (by simp +contextual)
    rw [htmlKids] at hf
    rcases fails_bind hf with hf | ⟨a, _, hf⟩
    · exact htmlNode_notFails dbg _ n h1 hf
    rcases fails_bind hf with hf | ⟨a, _, hf⟩
    · exact htmlKids_notFails dbg .rest ns h2 hf
    · exact not_fails_ok _ hf
end

end Seam
