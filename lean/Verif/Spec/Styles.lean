import Verif.Spec.Sheet

/-!
# Reading a style sheet

A reader of style sheets after the CSS Syntax Module: the text is cut at `{`, `}` and `;`, except
where these are inside of brackets or quotes.  It knows neither comments nor escapes outside
of quotes, and takes no sheet that has them.  Nothing here refers to how a sheet is written.
-/

namespace Seam.Spec

/-- Where the reader is: outside of quotes, behind a slash, in a quoted text, or behind a
backslash in a quoted text. -/
inductive CssMode
  | plain
  | slash
  | quoted (single : Bool)
  | escaped (single : Bool)
deriving DecidableEq, Repr

/-- Outside of quotes. -/
def CssMode.soft : CssMode → Bool
  | .plain | .slash => true
  | _ => false

/-- One more character of text, behind which there are to come the closing brackets `ks`. -/
def scanCss (m : CssMode) (ks : List Char) (c : Char) : Option (CssMode × List Char) :=
  match m with
  | .escaped q => some (.quoted q, ks)
  | .quoted q =>
    if c = (if q then '\'' else '"') then some (.plain, ks)
    else if c = '\\' then some (.escaped q, ks)
    else if c = '\n' then none
    else some (.quoted q, ks)
  | m =>
    if (c = '*' ∧ m = .slash) ∨ c = '\\' then none
    else if c = '"' then some (.quoted false, ks)
    else if c = '\'' then some (.quoted true, ks)
    else if c = '(' then some (.plain, ')' :: ks)
    else if c = '[' then some (.plain, ']' :: ks)
    else if c = '{' then if ks = [] then none else some (.plain, '}' :: ks)
    else if c = ')' ∨ c = ']' ∨ c = '}' then if ks.head? = some c then some (.plain, ks.tail) else none
    else if c = ';' ∧ ks = [] then none
    else some (if c = '/' then .slash else .plain, ks)

/-- A text, character by character. -/
def scansCss (m : CssMode) (ks : List Char) : Str → Option (CssMode × List Char)
  | [] => some (m, ks)
  | c :: s => match scanCss m ks c with
    | none => none
    | some (m', ks') => scansCss m' ks' s

/-- All brackets and quotes in the text are closed, and `{`, `}` and `;` are only inside of them. -/
def Sealed (t : Str) : Prop := ∃ m, m.soft = true ∧ scansCss .plain [] t = some (m, [])

/-- What is in a style sheet: declarations, `@`-rules on one line, and rules with a block. -/
inductive CssItem
  | decl (name value : Str)
  | line (text : Str)
  | block (head : Str) (items : List CssItem)

/-- The reader: its place, the text since the last cut, and what has been read in this block and in
the blocks around it. -/
structure CssRead where
  mode : CssMode
  closers : List Char
  text : Str
  done : List CssItem
  around : List (Str × List CssItem)

/-- White space. -/
def spaceChar (c : Char) : Bool := whiteSpace.contains c.toNat

/-- The text without the white space around it. -/
def unspaced (s : Str) : Str := ((s.dropWhile spaceChar).reverse.dropWhile spaceChar).reverse

/-- A statement ends: an `@`-rule, a declaration, or nothing. -/
def CssRead.stop (st : CssRead) : Option CssRead :=
  let t := unspaced st.text
  if t = [] then some { st with mode := .plain, text := [] }
  else if t.head? = some '@' then some { st with mode := .plain, text := [], done := st.done ++ [.line t] }
  else if ':' ∈ st.text then
    let name := st.text.takeWhile (· ≠ ':')
    some { st with mode := .plain, text := [], done := st.done ++ [.decl (unspaced name) (unspaced (st.text.drop (name.length + 1)))] }
  else none

/-- One character. -/
def CssRead.step (st : CssRead) (c : Char) : Option CssRead :=
  if st.mode.soft = true ∧ st.closers = [] ∧ (c = ';' ∨ c = '{' ∨ c = '}') then
    if c = ';' then st.stop
    else if c = '{' then some ⟨.plain, [], [], [], (unspaced st.text, st.done) :: st.around⟩
    else match st.stop with
      | none => none
      | some st => match st.around with
        | [] => none
        | (head, before) :: around => some ⟨.plain, [], [], before ++ [.block head st.done], around⟩
  else match scanCss st.mode st.closers c with
    | none => none
    | some (m, ks) => some { st with mode := m, closers := ks, text := st.text ++ [c] }

/-- A text. -/
def CssRead.steps (st : CssRead) : Str → Option CssRead
  | [] => some st
  | c :: s => match st.step c with
    | none => none
    | some st => st.steps s

/-- What is read from a style sheet; nothing if it ends in the middle of something. -/
def readCss (s : Str) : Option (List CssItem) :=
  match CssRead.steps ⟨.plain, [], [], [], []⟩ s with
  | none => none
  | some st => if st.mode.soft = true ∧ st.closers = [] ∧ unspaced st.text = [] ∧ st.around = [] then some st.done else none

/-! ## What a tree stands for -/

/-- A selector is a word; its brackets and quotes are closed. -/
inductive SelWord : PNode → Str → Prop
  | mk (n : PNode) (a : Node) : IsAtom n a → Sealed a.value → SelWord n a.value

/-- An argument of an `@`-rule, `(k: v)` for a keyword. -/
inductive ArgWord (quote : Str → Str) : PNode → Str → Prop
  | attr (k : Str) (n : PNode) (s : Site) (w v : Str) : ValueText quote n v → Sealed k → Sealed v →
      ArgWord quote (.attr k n s w) (str! "(" ++ k ++ str! ": " ++ v ++ str! ")")
  | value (n : PNode) (v : Str) : (∀ k m s w, n ≠ .attr k m s w) → ValueText quote n v → Sealed v → ArgWord quote n v

/-- A property is a declaration of its name with its value. -/
inductive PropItem (quote : Str → Str) : PNode → CssItem → Prop
  | mk (k : Str) (n : PNode) (s : Site) (w v t : Str) : ValueText quote n v → Sealed v → Trimmed v t →
      Sealed k → k ≠ [] → (∀ c ∈ k, ¬ Space c ∧ c ≠ ':') → k.head? ≠ some '@' → PropItem quote (.attr k n s w) (.decl k t)

mutual
/-- What a rule stands for. -/
inductive RuleItem (quote : Str → Str) : List PNode → CssItem → Prop
  /-- Selectors and at least one property: a block with the selectors in front, with blanks between
  them, and a declaration for each property. -/
  | plain (h : PNode) (a : Node) (sels props : List PNode) (ws : List Str) (j t : Str) (ds : List CssItem) :
      IsAtom h a → Sealed a.value → a.value ∉ blockRules → a.value ∉ lineRules → Pairs SelWord sels ws → props ≠ [] →
      Joined (str! " ") (a.value :: ws) j → Trimmed j t → Pairs (PropItem quote) props ds →
      RuleItem quote (h :: sels ++ props) (.block t ds)
  /-- A rule on one line. -/
  | line (h : PNode) (a : Node) (args : List PNode) (ws : List Str) (j t : Str) : IsAtom h a → a.value ∈ lineRules →
      Pairs (ArgWord quote) args ws → Joined (str! " ") (a.value :: ws) j → Trimmed j t → RuleItem quote (h :: args) (.line t)
  /-- A rule with at least one nested rule, after its arguments. -/
  | block (h : PNode) (a : Node) (args rules : List PNode) (ws : List Str) (j t : Str) (is : List CssItem) : IsAtom h a →
      a.value ∈ blockRules → (∀ n ∈ args, ∀ ns s e w, n ≠ .list ns s e w) → Pairs (ArgWord quote) args ws →
      Joined (str! " ") (a.value :: ws) j → Trimmed j t → rules ≠ [] → SheetItems quote rules is →
      RuleItem quote (h :: args ++ rules) (.block t is)
/-- What a series of rules stands for. -/
inductive SheetItems (quote : Str → Str) : List PNode → List CssItem → Prop
  | nil : SheetItems quote [] []
  | cons (ns : List PNode) (s : Site) (e : Token) (w : Str) (rest : List PNode) (i : CssItem) (is : List CssItem) :
      (∀ c ∈ w, Space c) → RuleItem quote ns i → SheetItems quote rest is → SheetItems quote (.list ns s e w :: rest) (i :: is)
end

/-- The words of a value that are written as they are: their brackets and quotes are closed. -/
inductive ValueSealed : PNode → Prop
  | word (n : PNode) (a : Node) : n = .symbol a ∨ n = .number a ∨ n = .string a → Sealed a.value → ValueSealed n
  | quoted (n : PNode) (a : Node) : n = .symbol a ∨ n = .number a ∨ n = .string a → (∃ c ∈ a.value, Space c) → ValueSealed n
  | raw (a : Node) : Sealed a.value → ValueSealed (.raw a)
  | list (ns : List PNode) (s : Site) (e : Token) (w : Str) : (∀ n ∈ ns, ValueSealed n) → ValueSealed (.list ns s e w)

/-- The characters with a meaning in style sheets. -/
def cssMarks : List Char := ['"', '\'', '\\', '(', ')', '[', ']', '{', '}', ';', '/']

end Seam.Spec
