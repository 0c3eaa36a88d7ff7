import Verif.Spec.Reader

/-! What it means for a node to be in a tree, and which source text is its own. -/

namespace Seam.Spec

/-- `n` is a node of the tree `ns`, at any depth. -/
inductive Within (n : PNode) : List PNode → Prop
  | here (ns : List PNode) : n ∈ ns → Within n ns
  | inList (ns kids : List PNode) (s : Site) (e : Token) (w : Str) : PNode.list kids s e w ∈ ns →
      Within n kids → Within n ns
  | inAttr (ns : List PNode) (k : Str) (v : PNode) (s : Site) (w : Str) : PNode.attr k v s w ∈ ns →
      Within n [v] → Within n ns

/-- `text` is how the node's own token is written: an identifier for symbols and
numbers, a quoted string, a parenthesis, a keyword with its colon. -/
def OwnText (u : Unescape) : PNode → Str → Prop
  | .symbol n, text => Ident text ∧ Starts symbolStart text ∧ n.value = noBackslash text
  | .number n, text => Ident text ∧ Starts numberStart text ∧ n.value = noBackslash text
  | .string n, text => ∃ q body, (q = q1 ∨ q = q3) ∧ text = q ++ body ++ q ∧ Body q body ∧ u body = some n.value
  | .raw _, _ => False
  | .list _ _ _ _, text => text = ['(']
  | .attr k _ _ _, text => text = ':' :: k ∧ Ident k

/-- The site stands for the text `text` between `before` and `after` in `code`. -/
def Selects (s : Site) (code before text after : Str) : Prop :=
  code = before ++ text ++ after ∧ s.code = code ∧ s.off = blen before ∧ s.span = blen text

mutual
/-- The sites of the tokens of a node in the order of the source. -/
def sites : PNode → List Site
  | .symbol n | .number n | .string n | .raw n => [n.site]
  | .list ns s e _ => s :: (sitess ns ++ [e.site])
  | .attr _ n s _ => s :: sites n
/-- The same for several nodes. -/
def sitess : List PNode → List Site
  | [] => []
  | n :: ns => sites n ++ sitess ns
end

/-- `Covers before rest ss`: after `before`, the text `rest` is exactly the texts
selected by `ss`, in order, with only blanks and comments between them. -/
inductive Covers : Str → Str → List Site → Prop
  | nil (before rest : Str) : EndTrivia rest → Covers before rest []
  | cons (before triv lead text rest : Str) (s : Site) (ss : List Site) : Trivia triv lead → text ≠ [] →
      s.off = blen (before ++ triv) → s.span = blen text →
      Covers (before ++ triv ++ text) rest ss →
      Covers before (triv ++ (text ++ rest)) (s :: ss)

/-- How a single character of a symbol is written: plainly or after a backslash. -/
inductive Written
  | plain (c : Char)
  | esc (c : Char)
deriving DecidableEq, Repr

/-- The character meant. -/
def Written.char : Written → Char
  | .plain c | .esc c => c
/-- The text written. -/
def Written.text : Written → Str
  | .plain c => [c]
  | .esc c => ['\\', c]
/-- Only ordinary characters may be written plainly. -/
def Written.ok : Written → Prop
  | .plain c => identChar c = true
  | .esc _ => True

end Seam.Spec

namespace Seam.Spec

/-- Two outcomes of reading a token that differ at most in positions: the same
kind, value and leading whitespace with the same text left to read, or the same
error. -/
def SameToken : Res (Token × Lex) → Res (Token × Lex) → Prop
  | .ok (t, l), .ok (t', l') => t.kind = t'.kind ∧ t.value = t'.value ∧ t.lw = t'.lw ∧ l.rest = l'.rest
  | .err e, .err e' => e.stage = e'.stage ∧ e.msg = e'.msg
  | .panic, .panic => True
  | .diverge, .diverge => True
  | _, _ => False

mutual
/-- Two nodes that differ at most in positions. -/
def SameNode : PNode → PNode → Prop
  | .symbol a, .symbol b => a.value = b.value ∧ a.lw = b.lw
  | .number a, .number b => a.value = b.value ∧ a.lw = b.lw
  | .string a, .string b => a.value = b.value ∧ a.lw = b.lw
  | .raw a, .raw b => a.value = b.value ∧ a.lw = b.lw
  | .list as _ e w, .list bs _ e' w' => SameNodes as bs ∧ e.lw = e'.lw ∧ w = w'
  | .attr k a _ w, .attr k' b _ w' => k = k' ∧ SameNode a b ∧ w = w'
  | _, _ => False
/-- The same for lists of nodes. -/
def SameNodes : List PNode → List PNode → Prop
  | [], [] => True
  | a :: as, b :: bs => SameNode a b ∧ SameNodes as bs
  | _, _ => False
end

/-- The same for outcomes of reading a program. -/
def SameTree : Res (List PNode) → Res (List PNode) → Prop
  | .ok ns, .ok ns' => SameNodes ns ns'
  | .err e, .err e' => e.stage = e'.stage ∧ e.msg = e'.msg
  | .panic, .panic => True
  | .diverge, .diverge => True
  | _, _ => False

/-- The places at which syntax errors may be reported, stated on the tokens. -/
inductive ErrorPlace (u : Unescape) (b : Buf) : Err → Prop
  /-- A string that is not closed: at its opening quotes. -/
  | unclosedString (toks : List Token) (q : Str) (s : Site) : TokensOf b toks (.unclosed q s) →
      ErrorPlace u b (unclosedStringErr q s)
  /-- A list that is not closed: `o` is a `(` after which only complete expressions follow. -/
  | unclosedList (p : List Token) (o : Token) (ts : List Token) (ns : List PNode) :
      TokensOf b (p ++ o :: ts) .eof → o.kind = .lparen → Exprs u ts ns → ErrorPlace u b (unclosedListErr o)
  /-- A `)` before which only complete expressions stand. -/
  | stray (p : List Token) (ns : List PNode) (c : Token) (ts : List Token) (e : Ending) :
      TokensOf b (p ++ c :: ts) e → c.kind = .rparen → Exprs u p ns → ErrorPlace u b (strayErr c)
  /-- A keyword followed by `)` or by the end of the file. -/
  | noValue (p : List Token) (k : Token) (ts : List Token) (e : Ending) :
      TokensOf b (p ++ k :: ts) e → k.kind = .keyword →
      (ts = [] ∧ e = .eof ∨ ∃ c ts', ts = c :: ts' ∧ c.kind = .rparen) → ErrorPlace u b (noValueErr k)
  /-- A string with an invalid escape. -/
  | badEscape (p : List Token) (t : Token) (ts : List Token) (e : Ending) :
      TokensOf b (p ++ t :: ts) e → t.kind = .string → u t.value = none → ErrorPlace u b (badEscapeErr t)

end Seam.Spec
