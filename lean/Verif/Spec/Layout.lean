import Verif.Spec.Moved
import Verif.Spec.Reader

/-! Trees, states and texts that differ only in positions and blanks. -/

namespace Seam.Spec

/-- The same text, at places related by `S`, after blanks related by `W`. -/
def LaidAtom (S : Site → Site → Prop) (W : Str → Str → Prop) (a b : Node) : Prop :=
  a.value = b.value ∧ W a.lw b.lw ∧ S a.site b.site

mutual
/-- The same tree, except that every node has another position and other blanks before
it (and lists other blanks before their closing parenthesis); `S` relates the old
positions to the new ones, and `W` the old blanks to the new ones. -/
inductive Laid (S : Site → Site → Prop) (W : Str → Str → Prop) : PNode → PNode → Prop
  | symbol (a b : Node) : LaidAtom S W a b → Laid S W (.symbol a) (.symbol b)
  | number (a b : Node) : LaidAtom S W a b → Laid S W (.number a) (.number b)
  | string (a b : Node) : LaidAtom S W a b → Laid S W (.string a) (.string b)
  | raw (a b : Node) : LaidAtom S W a b → Laid S W (.raw a) (.raw b)
  | list (ns ms : List PNode) (s t : Site) (e f : Token) (w v : Str) : Laids S W ns ms → S s t → W e.lw f.lw →
      S e.site f.site → W w v → Laid S W (.list ns s e w) (.list ms t f v)
  | attr (k : Str) (n m : PNode) (s t : Site) (w v : Str) : Laid S W n m → S s t → W w v →
      Laid S W (.attr k n s w) (.attr k m t v)
/-- The same for several nodes. -/
inductive Laids (S : Site → Site → Prop) (W : Str → Str → Prop) : List PNode → List PNode → Prop
  | nil : Laids S W [] []
  | cons (n m : PNode) (ns ms : List PNode) : Laid S W n m → Laids S W ns ms → Laids S W (n :: ns) (m :: ms)
end

/-- The same definition, laid out otherwise. -/
def LaidMacro (S : Site → Site → Prop) (W : Str → Str → Prop) (m m' : Macro) : Prop :=
  Laids S W m.params m'.params ∧ Laids S W m.body m'.body

/-- States of the expander with the same definitions, laid out otherwise, and the same
log, from other places (and the same number of files read, as in `MovedSt`). -/
structure LaidSt (S : Site → Site → Prop) (W : Str → Str → Prop) (s t : St) : Prop where
  defined : ∀ name, s.scope name = none ↔ t.scope name = none
  scope : ∀ name m m', s.scope name = some m → t.scope name = some m' → LaidMacro S W m m'
  fresh : s.fresh = t.fresh ∨ ∀ p q, Reread p q → S p q
  log : Pairs (MovedLine S) s.log t.log
  hashes : s.hashes = t.hashes
  order : s.order = t.order

/-- The same outcome, laid out otherwise. -/
inductive LaidRes (S : Site → Site → Prop) (W : Str → Str → Prop) : Res (List PNode) → Res (List PNode) → Prop
  | ok (ns ms : List PNode) : Laids S W ns ms → LaidRes S W (.ok ns) (.ok ms)
  | err (e e' : Err) : MovedErr S e e' → LaidRes S W (.err e) (.err e')
  | panic : LaidRes S W .panic .panic

/-- Two texts of blanks, whatever they are. -/
def BothBlank (w v : Str) : Prop := Blanks w ∧ Blanks v

/-- The macros that look at the layout of the program: `%lambda` makes a name out of its
position, `%string` and `%raw` make a text with the blanks between their arguments. -/
def seesLayout : Builtin → Bool
  | .lambda | .string | .raw => true
  | _ => false

/-- The expander, except that a call of one of the macros that look at the layout has no
outcome. -/
def blindRun (ext : Ext) : (fuel : Nat) → Rec
  | 0, _ => M.lift .diverge
  | fuel + 1, .invoke name call params =>
    match builtin? name with
    | some b => if seesLayout b then M.lift .diverge else step ext (blindRun ext fuel) (.invoke name call params)
    | none => step ext (blindRun ext fuel) (.invoke name call params)
  | fuel + 1, c => step ext (blindRun ext fuel) c

/-- Expanding the nodes `ns` in the state `s` finishes with outcome `r` and state `s'`,
and on the way none of `%lambda`, `%string` and `%raw` is called. -/
def BlindEvals (ext : Ext) (ns : List PNode) (s : St) (r : Res (List PNode)) (s' : St) : Prop :=
  r ≠ .diverge ∧ ∃ fuel, expandNodes (blindRun ext fuel) ns s = (r, s')

/-- Two texts of a program with the same tokens; the blanks and comments between them
may differ.  How the text breaks off is the same. -/
inductive SameTokens : Str → Str → Prop
  | eof (a b : Str) : EndTrivia a → EndTrivia b → SameTokens a b
  | unclosed (triv triv' lead lead' q s s' : Str) : Trivia triv lead → Trivia triv' lead' → Opens q (q ++ s) →
      Opens q (q ++ s') → Unclosed q s → Unclosed q s' → SameTokens (triv ++ (q ++ s)) (triv' ++ (q ++ s'))
  | cut (triv triv' lead lead' text text' : Str) : Trivia triv lead → Trivia triv' lead' → Ident text → Ident text' →
      Starts (fun c => symbolStart c || numberStart c || c == ':') (text ++ ['\\']) →
      Starts (fun c => symbolStart c || numberStart c || c == ':') (text' ++ ['\\']) →
      SameTokens (triv ++ (text ++ ['\\'])) (triv' ++ (text' ++ ['\\']))
  | token (triv triv' lead lead' : Str) (kind : Kind) (text text' value rest rest' : Str) : Trivia triv lead →
      Trivia triv' lead' → Lexeme kind text value rest → Lexeme kind text' value rest' → SameTokens rest rest' →
      SameTokens (triv ++ (text ++ rest)) (triv' ++ (text' ++ rest'))

/-- A text with exactly one space before every token, and nothing else between them. -/
inductive SpacedText : Str → Prop
  | eof : SpacedText []
  | unclosed (q s : Str) : Opens q (q ++ s) → Unclosed q s → SpacedText (' ' :: (q ++ s))
  | cut (text : Str) : Ident text → Starts (fun c => symbolStart c || numberStart c || c == ':') (text ++ ['\\']) →
      SpacedText (' ' :: (text ++ ['\\']))
  | token (kind : Kind) (text value rest : Str) : Lexeme kind text value rest → SpacedText rest → SpacedText (' ' :: (text ++ rest))

/-- A text without its blanks. -/
def squeezed (s : Str) : Str := s.filter fun c => !blank c

/-- The same output, up to blanks, or the same complaint, at another place. -/
inductive SameOutput : Res Str → Res Str → Prop
  | ok (x y : Str) : squeezed x = squeezed y → SameOutput (.ok x) (.ok y)
  | err (e e' : Err) : e.stage = e'.stage → e.msg = e'.msg → SameOutput (.err e) (.err e')
  | panic : SameOutput .panic .panic
  | diverge : SameOutput .diverge .diverge

/-- The same outcome of reading a program, laid out otherwise. -/
inductive LaidTree (S : Site → Site → Prop) (W : Str → Str → Prop) : Res (List PNode) → Res (List PNode) → Prop
  | done (r r' : Res (List PNode)) : LaidRes S W r r' → LaidTree S W r r'
  | diverge : LaidTree S W .diverge .diverge

end Seam.Spec
