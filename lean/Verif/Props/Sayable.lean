import Verif.Lemmas.Sayable
import Verif.Props.Dom
import Verif.Lemmas.EvalCheck
import Verif.Spec.Cli

/-! C106: there is a program for every document. -/

namespace Seam
open Spec

/-- C106, HTML: for every document made of texts and elements (without the seven whose content is not HTML) there is a
source text for which a document is printed that a reader takes for exactly this one. -/
theorem C106_html (xs : List Dom) (h : Sayables htmlDialect (fun s => decide (s.map lowerChar ∈ otherContent)) xs) :
    ∃ src : Str, ∀ (ext : Ext) (order : Order) (dbg : Str → Str) (path : Str), UnescapesQuotes ext.unescape →
      ∃ out, Prints ext order dbg (str! "html") false (path, some src) out ∧ readMarkup htmlDialect out = some xs := by
  have hs : (fun s : Str => decide (s.map lowerChar ∈ otherContent)) = htmlSpecialName := by
    funext s
    unfold htmlSpecialName
    rw [Bool.eq_iff_iff, decide_eq_true_iff, special_other]
    rfl
  rw [hs] at h
  refine ⟨sexpNodes literally (sayNodes [] xs), fun ext order dbg path hu => ?_⟩
  obtain ⟨ns, h1, h2⟩ := says_source hu h path 1
  obtain ⟨out, h3⟩ := saysAll_html dbg h [] ns h2
  have h3 := (htmlGenerate_iff dbg ns out).2 h3
  refine ⟨out, ⟨_, ns, rfl, .inl ⟨ns, _, h1, macrosFree_evals ext ns (saysAll_free h h2) _⟩, congrArg some h3⟩, ?_⟩
  obtain ⟨ds, h4, h5⟩ := (C91_values dbg ns out).2 (hs ▸ saysAll_ordinary nil_blanks h h2) h3
  rw [h5, saysAll_dom (fun c hc => by have := nameChar_ne hc; simp [htmlDialect, this.2.2.2.2.2.2.1]) h h2 h4]

/-- C106, XML: the same, for all elements. -/
theorem C106_xml (xs : List Dom) (h : Sayables xmlDialect (fun _ => false) xs) :
    ∃ src : Str, ∀ (ext : Ext) (order : Order) (dbg : Str → Str) (path : Str), UnescapesQuotes ext.unescape →
      ∃ out, Prints ext order dbg (str! "xml") false (path, some src) out ∧ readMarkup xmlDialect out = some xs := by
  refine ⟨sexpNodes literally (sayNodes [] xs), fun ext order dbg path hu => ?_⟩
  obtain ⟨ns, h1, h2⟩ := says_source hu h path 1
  obtain ⟨out, h3⟩ := saysAll_xml h [] ns h2
  have h3 := (xmlGenerate_iff ns out).2 h3
  refine ⟨out, ⟨_, ns, rfl, .inl ⟨ns, _, h1, macrosFree_evals ext ns (saysAll_free h h2) _⟩, congrArg some h3⟩, ?_⟩
  obtain ⟨ds, h4, h5⟩ := (C91_values dbg ns out).1 (saysAll_ordinary nil_blanks h h2) h3
  rw [h5, saysAll_dom (fun c hc => by
    have := nameChar_ne hc; simp [xmlDialect, this.2.2.2.2.2.2.1, this.2.2.2.2.2.2.2]) h h2 h4]

/-- C106, text: every text can be printed. -/
theorem C106_text (v : Str) : ∃ src : Str, ∀ (ext : Ext) (order : Order) (dbg : Str → Str) (doc : Bool) (path : Str),
    UnescapesQuotes ext.unescape → Prints ext order dbg (str! "text") doc (path, some src) v := by
  refine ⟨literally v, fun ext order dbg doc path hu => ?_⟩
  have hp : Printables ext.unescape literally [.string ⟨v, default, []⟩] :=
    .one _ (.string _ _ nil_blanks rfl (body_backslashed v) (hu v))
  obtain ⟨ns, h1, h2⟩ := C14_sexp_reads_back ext.unescape literally _ hp path 1
  have e : sexpNodes literally [.string ⟨v, default, []⟩] = literally v := by simp [sexpNodes, sexpNode]
  rw [e] at h1
  match ns, h2 with
  | [.string a], h2 =>
    refine ⟨_, [.string a], rfl, .inl ⟨_, _, h1, macrosFree_evals ext _ (.cons _ _ (.string a) .nil) _⟩, ?_⟩
    obtain ⟨e1, e2⟩ := h2.1
    simp only at e1 e2
    show some (Res.ok (textNodes [.string a])) = _
    simp [textNodes, textNode, ← e1, ← e2]
  | [.symbol _], h2 => exact h2.1.elim
  | [.number _], h2 => exact h2.1.elim
  | [.raw _], h2 => exact h2.1.elim
  | [.list _ _ _ _], h2 => exact h2.1.elim
  | [.attr _ _ _ _], h2 => exact h2.1.elim
  | _ :: _ :: _, h2 => exact h2.2.elim

/-- What `\"` and `\\` mean, and nothing else. -/
def exUnescape : Str → Option Str
  | [] => some []
  | '\\' :: c :: s => (exUnescape s).map (c :: ·)
  | ['\\'] => none
  | c :: s => (exUnescape s).map (c :: ·)

/-- The assumption can be met. -/
example : UnescapesQuotes exUnescape := by
  intro v
  induction v with
  | nil => rfl
  | cons c v ih =>
    rw [backslashed_cons]
    split
    · simp only [List.cons_append, List.nil_append, exUnescape, ih, Option.map_some]
    · rename_i h
      have hc : c ≠ '\\' := fun e => h (.inr e)
      rw [List.cons_append, List.nil_append, exUnescape, ih]
      · rfl
      · intro d s e; exact absurd e hc
      · intro e; exact absurd e hc

/-- A document with quotes, entities and angle brackets in texts and attribute values. -/
def exDocument : List Dom :=
  [.char '"', .elem (str! "p") [(str! "title", str! "a\"&lt;<\\"), (str! "id", [])]
    [.char '<', .elem (str! "br") [] [], .char '&', .char '\\', .elem (str! "b") [] [.char ' ']], .char '\n']

example : Sayables htmlDialect (fun s => decide (s.map lowerChar ∈ otherContent)) exDocument := by
  refine .cons _ _ (.char _) (.cons _ _ (.elem _ _ _ (nameOk_dec (by decide)) ⟨rfl, by decide⟩ (by decide) (by decide)
    (by decide) ?_ (.cons _ _ (.char _) (.cons _ _ ?_ (.cons _ _ (.char _) (.cons _ _ (.char _) (.cons _ _ ?_ .nil))))))
    (.cons _ _ (.char _) .nil))
  · intro a ha
    simp only [List.mem_cons, List.not_mem_nil, or_false] at ha
    rcases ha with rfl | rfl <;> exact ⟨nameOk_dec (by decide), by decide⟩
  · exact .elem _ _ _ (nameOk_dec (by decide)) ⟨rfl, by decide⟩ (by decide) (by decide) (fun _ => rfl) (by simp) .nil
  · exact .elem _ _ _ (nameOk_dec (by decide)) ⟨rfl, by decide⟩ (by decide) (by decide) (by decide) (by simp)
      (.cons _ _ (.char _) .nil)

end Seam
