import Verif.Spec.Moved
import Verif.Spec.Reader

/-! Source texts that differ only in their comments. -/

namespace Seam.Spec

/-- Two texts of a program with the same tokens: between the tokens there are blanks
and comments, and in both texts the same blanks stand between the last comment (from
the newline that ends it) and the next token.  What stands after the last token does
not matter, and how the text breaks off is the same. -/
inductive SameSource : Str → Str → Prop
  | eof (a b : Str) : EndTrivia a → EndTrivia b → SameSource a b
  | unclosed (triv triv' lead lead' q s s' : Str) : Trivia triv lead → Trivia triv' lead' → Opens q (q ++ s) →
      Opens q (q ++ s') → Unclosed q s → Unclosed q s' → SameSource (triv ++ (q ++ s)) (triv' ++ (q ++ s'))
  | cut (triv triv' lead lead' text text' : Str) : Trivia triv lead → Trivia triv' lead' → Ident text → Ident text' →
      Starts (fun c => symbolStart c || numberStart c || c == ':') (text ++ ['\\']) →
      Starts (fun c => symbolStart c || numberStart c || c == ':') (text' ++ ['\\']) →
      SameSource (triv ++ (text ++ ['\\'])) (triv' ++ (text' ++ ['\\']))
  | token (triv triv' lead : Str) (kind : Kind) (text text' value rest rest' : Str) : Trivia triv lead →
      Trivia triv' lead → Lexeme kind text value rest → Lexeme kind text' value rest' → SameSource rest rest' →
      SameSource (triv ++ (text ++ rest)) (triv' ++ (text' ++ rest'))

/-- A text without comments: tokens with only blanks between them. -/
inductive Bare : Str → Prop
  | eof : Bare []
  | unclosed (lead q s : Str) : Blanks lead → Opens q (q ++ s) → Unclosed q s → Bare (lead ++ (q ++ s))
  | cut (lead text : Str) : Blanks lead → Ident text →
      Starts (fun c => symbolStart c || numberStart c || c == ':') (text ++ ['\\']) → Bare (lead ++ (text ++ ['\\']))
  | token (lead : Str) (kind : Kind) (text value rest : Str) : Blanks lead → Lexeme kind text value rest → Bare rest →
      Bare (lead ++ (text ++ rest))

/-- Corresponding places of two buffers: those of the tokens with the same number, or
those of the quotes of an unclosed string. -/
inductive Corresponds (b b' : Buf) : Site → Site → Prop
  | token (toks toks' : List Token) (e e' : Ending) (i : Nat) (t t' : Token) : TokensOf b toks e →
      TokensOf b' toks' e' → toks[i]? = some t → toks'[i]? = some t' → Corresponds b b' t.site t'.site
  | quote (toks toks' : List Token) (q : Str) (s s' : Site) : TokensOf b toks (.unclosed q s) →
      TokensOf b' toks' (.unclosed q s') → Corresponds b b' s s'

/-- The same outcome of reading a program, moved. -/
inductive MovedTree (S : Site → Site → Prop) : Res (List PNode) → Res (List PNode) → Prop
  | done (r r' : Res (List PNode)) : MovedRes S r r' → MovedTree S r r'
  | diverge : MovedTree S .diverge .diverge

end Seam.Spec
