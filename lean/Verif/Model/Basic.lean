/-!
# Shared vocabulary of the model

Text is modelled as `List Char` (Unicode scalar values); byte offsets are
computed with the UTF-8 width of each character.  A Rust function that can
return an error, panic or fail to terminate is modelled by a function into
`Res`, where these outcomes are explicit values.
-/

namespace Seam

/-- Rust `String` / `&str`: a sequence of Unicode scalar values. -/
abbrev Str := List Char

/-- `str! "abc"` is the list `['a', 'b', 'c']`, written out at elaboration time
so that nothing about Lean's own `String` enters a proof. -/
macro "str! " s:str : term => do
  let cs := s.getString.toList.map fun c => Lean.Syntax.mkCharLit c
  `(([ $(cs.toArray),* ] : Str))

/-- Number of bytes in the UTF-8 encoding of a string (Rust `str::len`). -/
def blen : Str → Nat
  | [] => 0
  | c :: cs => c.utf8Size + blen cs

/-- Rust's `Site`, crates/seam/src/parse/tokens.rs:9-16.  `source` and
`source_code` are references in Rust; `buf` stands for the identity (address)
of the source buffer, `code` for its contents. -/
structure Site where
  path : Str
  buf : Nat
  code : Str
  line : Nat
  off : Nat
  bol : Nat
  span : Nat
deriving DecidableEq, Repr, Inhabited

/-- `UNKNOWN_SITE`, tokens.rs:19-26. -/
def Site.unknown : Site :=
  { path := str! "<unknwon>", buf := 0, code := [], line := 0, off := 0, bol := 0, span := 0 }

/-- `Site::new` is called with the buffer of the lexer; the buffers of files
read during a run are numbered from 1, so that `UNKNOWN_SITE` shares none. -/
structure Buf where
  path : Str
  id : Nat
  code : Str
deriving DecidableEq, Repr, Inhabited

/-- Which component produced an error (LexError, ParseError, ExpansionError,
GenerationError). -/
inductive Stage | lex | parse | expand | gen
deriving DecidableEq, Repr

/-- An error value with its stage, an abbreviated message and its site. -/
structure Err where
  stage : Stage
  msg : String
  site : Site
deriving DecidableEq, Repr

/-- Outcome of a Rust call: a value, an `Err`, a panic, or no return. -/
inductive Res (α : Type) where
  | ok (a : α)
  | err (e : Err)
  | panic
  | diverge
deriving DecidableEq, Repr

namespace Res

def bind {α β : Type} (r : Res α) (f : α → Res β) : Res β :=
  match r with
  | ok a => f a
  | err e => err e
  | panic => panic
  | diverge => diverge

instance : Monad Res where
  pure := ok
  bind := bind

@[simp] theorem pure_eq {α : Type} (a : α) : (pure a : Res α) = ok a := rfl
@[simp] theorem ok_bind {α β : Type} (a : α) (f : α → Res β) : (ok a >>= f) = f a := rfl
@[simp] theorem err_bind {α β : Type} (e : Err) (f : α → Res β) : (err e >>= f) = err e := rfl
@[simp] theorem panic_bind {α β : Type} (f : α → Res β) : ((panic : Res α) >>= f) = panic := rfl
@[simp] theorem diverge_bind {α β : Type} (f : α → Res β) : ((diverge : Res α) >>= f) = diverge := rfl

/-- The value if there is one. -/
def toOption {α : Type} : Res α → Option α
  | ok a => some a
  | _ => none

theorem bind_eq_ok {α β : Type} {r : Res α} {f : α → Res β} {b : β} :
    (r >>= f) = ok b ↔ ∃ a, r = ok a ∧ f a = ok b := by
  cases r <;> simp

theorem bind_eq_err {α β : Type} {r : Res α} {f : α → Res β} {e : Err} :
    (r >>= f) = err e ↔ r = err e ∨ ∃ a, r = ok a ∧ f a = err e := by
  cases r <;> simp

theorem bind_eq_panic {α β : Type} {r : Res α} {f : α → Res β} :
    (r >>= f) = panic ↔ r = panic ∨ ∃ a, r = ok a ∧ f a = panic := by
  cases r <;> simp

theorem bind_eq_diverge {α β : Type} {r : Res α} {f : α → Res β} :
    (r >>= f) = diverge ↔ r = diverge ∨ ∃ a, r = ok a ∧ f a = diverge := by
  cases r <;> simp

end Res

end Seam
