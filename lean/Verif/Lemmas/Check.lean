import Verif.Spec.Tree

/-! Concrete cases: the kernel evaluates a boolean check of the outcome, from which
the existence of a tree and node with the wanted features follows. -/

namespace Seam

/-- The outcome is a success that satisfies `p`. -/
def Res.okP {α : Type} (r : Res α) (p : α → Bool) : Bool :=
  match r with
  | .ok a => p a
  | _ => false

theorem Res.okP_elim {α : Type} {r : Res α} {p : α → Bool} (h : r.okP p = true) :
    ∃ a, r = .ok a ∧ p a = true := by
  cases r with
  | ok a => exact ⟨a, rfl, h⟩
  | _ => simp [Res.okP] at h

/-- The outcome is an error that satisfies `p`. -/
def Res.errP {α : Type} (r : Res α) (p : Err → Bool) : Bool :=
  match r with
  | .err a => p a
  | _ => false

theorem Res.errP_elim {α : Type} {r : Res α} {p : Err → Bool} (h : r.errP p = true) :
    ∃ a, r = .err a ∧ p a = true := by
  cases r with
  | err a => exact ⟨a, rfl, h⟩
  | _ => simp [Res.errP] at h

/-- The outcome is a panic. -/
def Res.isPanic {α : Type} : Res α → Bool
  | .panic => true
  | _ => false

theorem Res.isPanic_elim {α : Type} {r : Res α} (h : r.isPanic = true) : r = .panic := by
  cases r <;> simp [Res.isPanic] at h ⊢

/-- The outcome is divergence. -/
def Res.isDiverge {α : Type} : Res α → Bool
  | .diverge => true
  | _ => false

theorem Res.isDiverge_elim {α : Type} {r : Res α} (h : r.isDiverge = true) : r = .diverge := by
  cases r <;> simp [Res.isDiverge] at h ⊢

namespace Spec

mutual
/-- A node and all nodes inside it. -/
def allNodes : PNode → List PNode
  | .list ns s e w => .list ns s e w :: allNodess ns
  | .attr k n s w => .attr k n s w :: allNodes n
  | .symbol n => [.symbol n]
  | .number n => [.number n]
  | .string n => [.string n]
  | .raw n => [.raw n]
/-- The same for several nodes. -/
def allNodess : List PNode → List PNode
  | [] => []
  | n :: ns => allNodes n ++ allNodess ns
end

theorem within_mono {n : PNode} {ns ms : List PNode} (h : Within n ns) (hs : ∀ m ∈ ns, m ∈ ms) : Within n ms := by
  cases h with
  | here _ h => exact .here _ (hs _ h)
  | inList _ kids s e w h h' => exact .inList _ kids s e w (hs _ h) h'
  | inAttr _ k v s w h h' => exact .inAttr _ k v s w (hs _ h) h'

mutual
theorem within_of_allNodes : ∀ (m n : PNode), n ∈ allNodes m → Within n [m]
  | .list ns s e w, n, h => by
    simp only [allNodes, List.mem_cons] at h
    rcases h with rfl | h
    · exact .here _ List.mem_cons_self
    · exact .inList _ ns s e w List.mem_cons_self (within_of_allNodess ns n h)
  | .attr k v s w, n, h => by
    simp only [allNodes, List.mem_cons] at h
    rcases h with rfl | h
    · exact .here _ List.mem_cons_self
    · exact .inAttr _ k v s w List.mem_cons_self (within_of_allNodes v n h)
  | .symbol a, n, h => by simp only [allNodes] at h; exact .here _ h
  | .number a, n, h => by simp only [allNodes] at h; exact .here _ h
  | .string a, n, h => by simp only [allNodes] at h; exact .here _ h
  | .raw a, n, h => by simp only [allNodes] at h; exact .here _ h
theorem within_of_allNodess : ∀ (ms : List PNode) (n : PNode), n ∈ allNodess ms → Within n ms
  | [], n, h => by simp [allNodess] at h
  | m :: ms, n, h => by
    simp only [allNodess, List.mem_append] at h
    rcases h with h | h
    · exact within_mono (within_of_allNodes m n h) (by simp)
    · exact within_mono (within_of_allNodess ms n h) (by intro m hm; simp [hm])
end

/-- Evaluate: the outcome is a tree with a node that satisfies `p`. -/
theorem exists_within {r : Res (List PNode)} (p : PNode → Bool)
    (h : r.okP (fun ns => (allNodess ns).any p) = true) :
    ∃ ns n, r = .ok ns ∧ Within n ns ∧ p n = true := by
  obtain ⟨ns, h1, h2⟩ := Res.okP_elim h
  obtain ⟨n, h3, h4⟩ := List.any_eq_true.1 h2
  exact ⟨ns, n, h1, within_of_allNodess ns n h3, h4⟩

end Spec
end Seam
