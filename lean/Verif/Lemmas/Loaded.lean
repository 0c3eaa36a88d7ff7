import Verif.Lemmas.Sites
import Verif.Spec.Loaded

/-! # The files that nodes refer to -/

namespace Seam
open Spec

/-- The files with numbers below `n`. -/
def belowRegion (n : Nat) : Region := ⟨fun x => x.buf < n, (· ≤ n), Nat.le_trans, fun _ => True, fun _ => True⟩

theorem goods_below {n : Nat} {ns : List PNode} : Goods (belowRegion n) ns ↔ Below n ns :=
  ⟨fun h => (goods_iff.1 h).1, fun h => goods_iff.2 ⟨h, fun _ _ => trivial⟩⟩

theorem Spec.Below.mono {n k : Nat} {ns : List PNode} (h : Below n ns) (hk : n ≤ k) : Below k ns :=
  fun x hx => Nat.lt_of_lt_of_le (h x hx) hk

theorem inv_below {n : Nat} {s : St} (h : Loaded s) (hf : Fair s.order) (hn : s.fresh ≤ n) : Inv (belowRegion n) s :=
  ⟨fun name m hm => ⟨goods_below.2 ((h.scope name m hm).1.mono hn), goods_below.2 ((h.scope name m hm).2.mono hn)⟩,
    fun l hl => Nat.lt_of_lt_of_le (h.log l hl) hn, hf⟩

theorem below_inv {s : St} (h : Inv (belowRegion s.fresh) s) : Loaded s :=
  ⟨fun name m hm => ⟨goods_below.1 (h.scope name m hm).1, goods_below.1 (h.scope name m hm).2⟩, fun l hl => h.log l hl⟩

theorem site_buf {b : Buf} {t : Token} {ts : List Token} {e : Ending} : ∀ {before line s}, Tokens b before line s ts e → t ∈ ts →
    t.site.buf = b.id := by
  intro before line s h
  induction h with
  | eof => simp
  | unclosed => simp
  | cut => simp
  | token _ _ _ _ _ _ _ _ _ _ _ _ _ ih =>
    intro ht
    rcases List.mem_cons.1 ht with rfl | ht
    · rfl
    · exact ih ht

theorem parse_buf {u : Unescape} {b : Buf} {ns : List PNode} (h : parse u b = .ok ns) : ∀ x ∈ sitess ns, x.buf = b.id := by
  obtain ⟨toks, ht, hs⟩ := parse_ok_tokens h
  intro x hx
  rw [sites_expr.sitess_exprs hs] at hx
  obtain ⟨t, htm, rfl⟩ := List.mem_map.1 hx
  exact site_buf ht htm

theorem extSnd_below (ext : Ext) (n : Nat) : ExtSnd (belowRegion n) False ext where
  calm := False.elim
  src := .all (fun _ => trivial) fun _ => trivial
  file _ p c id tree hl _ h2 := goods_below.2 fun x hx => by
    rw [parse_buf h2 x hx]
    exact hl

theorem evals_below {ext : Ext} {ns : List PNode} {s t : St} {r : Res (List PNode)} (h : Evals ext ns s r t) (hl : Loaded s)
    (hf : Fair s.order) (hb : Below s.fresh ns) : Loaded t ∧ ROk (belowRegion t.fresh) False (Below t.fresh) r := by
  have hg : s.fresh ≤ t.fresh := evals_keeps grow_rel h
  obtain ⟨_, f, hf'⟩ := h
  have h := expandNodes_snd (run_snd (extSnd_below ext t.fresh) f) (goods_below.2 (hb.mono hg)) s (by rw [hf']; exact Nat.le_refl _)
    (inv_below hl hf hg)
  rw [hf'] at h
  exact ⟨below_inv h.1, h.2.mono fun _ h => goods_below.1 h⟩

theorem sitess_firstLw (w : Str) (ns : List PNode) : sitess (firstSpaced w ns) = sitess ns := by
  cases ns with
  | nil => rfl
  | cons n ns => simp only [firstSpaced, sitess, sites_setLw]

theorem sitess_dropFirstBlank (ns : List PNode) : sitess (dropFirstBlank ns) = sitess ns := by
  cases ns with
  | nil => rfl
  | cons n ns => simp only [dropFirstBlank, sitess]; split <;> simp only [sites_setLw]

theorem below_args {name : Str} {args : List PNode} {c : PNode} {k : Nat} (hc : IsCall name args c) (hb : Below k [c]) : Below k args := by
  obtain ⟨h, t, s, e, w, _, rfl⟩ := hc
  intro x hx
  rw [sitess_dropFirstBlank] at hx
  exact hb x (by simp [sitess, sites, hx])

end Seam
