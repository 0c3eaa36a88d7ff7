import Verif.Spec.Joined
import Verif.Spec.Builtins

/-! Programs in which the text of a file stands where another program includes the file. -/

namespace Seam.Spec

/-- The list of these nodes is not a macro call. -/
def NoCall (ns : List PNode) : Prop := ∀ a t name, ns = .symbol a :: t → a.value ≠ '%' :: name

/-- The nodes `ns` are the nodes `ms`, with other blanks and at other places, except that at the
top level, in lists that are not macro calls, or as values of attributes, there may be the
contents of a file in `ns` where `ms` has a call of `%include` for that file; again up to layout,
and with the files included by that file put in, too, or not. -/
inductive Pasted (ext : Ext) (S : Site → Site → Prop) : List PNode → List PNode → Prop
  | same (ns ms : List PNode) : Laids S BothBlank ns ms → Pasted ext S ns ms
  | append (ns ms ns' ms' : List PNode) : Pasted ext S ns ms → Pasted ext S ns' ms' → Pasted ext S (ns ++ ns') (ms ++ ms')
  | list (ns ms : List PNode) (s t : Site) (e f : Token) (w v : Str) : Pasted ext S ns ms → NoCall ns → NoCall ms →
      S s t → BothBlank e.lw f.lw → S e.site f.site → BothBlank w v → Pasted ext S [.list ns s e w] [.list ms t f v]
  | attr (k : Str) (n m : PNode) (s t : Site) (w v : Str) : Pasted ext S [n] [m] → S s t → BothBlank w v →
      Pasted ext S [.attr k n s w] [.attr k m t v]
  | file (c n : PNode) (a : Node) (file code : Str) (tree : Nat → List PNode) (ns : List PNode) :
      IsCall (str! "include") [n] c → Literal n a → MacroFree n → Blanks c.lw →
      FirstRead ext (includeFiles ext a.value) file code →
      (∀ i, parse ext.unescape { path := file, id := i, code := code } = .ok (tree i)) →
      (∀ i, Pasted ext S ns (tree i)) → Pasted ext S ns [c]

/-- A place `p` of the text `paste`, which is `a`, the contents `code` of the file `file` and some
text `b`, one after the other, and the same place `q` in a program with the text `incl`, which has
the text `call` instead of the contents of the file: `q` is in `incl`, at the same place of `a` or
of `b`, or it is in the file.  (Places of other files are the same.) -/
inductive PastedAt (paste incl : Buf) (file a code call : Str) : Site → Site → Prop
  | other (p q : Site) : Reread p q → PastedAt paste incl file a code call p q
  | first (o p q : Site) : ShiftedTo paste 0 0 o p → ShiftedTo incl 0 0 o q → PastedAt paste incl file a code call p q
  | inside (p q : Site) (lines : Nat) : q.path = file → q.code = code → ShiftedTo paste lines (blen a + 1) q p →
      PastedAt paste incl file a code call p q
  | last (o p q : Site) (lines lines' : Nat) : ShiftedTo paste lines (blen a + 1 + blen code + 1) o p →
      ShiftedTo incl lines' (blen a + 1 + blen call + 1) o q → PastedAt paste incl file a code call p q

end Seam.Spec
