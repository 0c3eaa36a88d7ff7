import Verif.Model.Lexer

/-!
# Parse nodes and parser (crates/seam/src/parse/parser.rs)
-/

namespace Seam

/-- `Node`, parser.rs:11-15. -/
structure Node where
  value : Str
  site : Site
  lw : Str
deriving DecidableEq, Repr, Inhabited

/-- `ParseNode`, parser.rs:44-61. -/
inductive PNode where
  | symbol (n : Node)
  | number (n : Node)
  | string (n : Node)
  | raw (n : Node)
  | list (nodes : List PNode) (site : Site) (endTok : Token) (lw : Str)
  | attr (keyword : Str) (node : PNode) (site : Site) (lw : Str)
deriving Repr, Inhabited

namespace PNode

/-- `ParseNode::symbolic`, parser.rs:138-143. -/
def symbolic? : PNode → Option Node
  | .symbol n | .number n => some n
  | _ => none

/-- `ParseNode::string`, parser.rs:146-151. -/
def string? : PNode → Option Node
  | .string n | .raw n => some n
  | _ => none

/-- `ParseNode::number`, parser.rs:154-159. -/
def number? : PNode → Option Node
  | .number n => some n
  | _ => none

/-- `ParseNode::symbol`, parser.rs:162-167. -/
def symbol? : PNode → Option Node
  | .symbol n => some n
  | _ => none

/-- `ParseNode::atomic` / `into_atomic`, parser.rs:170-178 and 198-206. -/
def atomic? : PNode → Option Node
  | .symbol n | .number n | .string n | .raw n => some n
  | _ => none

/-- `ParseNode::list`, parser.rs:181-186. -/
def list? : PNode → Option (List PNode)
  | .list ns _ _ _ => some ns
  | _ => none

/-- `ParseNode::attribute`, parser.rs:189-194. -/
def attribute? : PNode → Option (Str × PNode)
  | .attr k n _ _ => some (k, n)
  | _ => none

/-- `ParseNode::null`, parser.rs:130-135. -/
def null : PNode → Bool
  | .list ns _ _ _ => ns.isEmpty
  | _ => false

/-- `ParseNode::site` / `owned_site`, parser.rs:209-230. -/
def site : PNode → Site
  | .symbol n | .number n | .string n | .raw n => n.site
  | .list _ s _ _ => s
  | .attr _ _ s _ => s

/-- `ParseNode::leading_whitespace`, parser.rs:234-243. -/
def lw : PNode → Str
  | .symbol n | .number n | .string n | .raw n => n.lw
  | .list _ _ _ w => w
  | .attr _ _ _ w => w

/-- `ParseNode::set_leading_whitespace`, parser.rs:246-255. -/
def setLw (w : Str) : PNode → PNode
  | .symbol n => .symbol { n with lw := w }
  | .number n => .number { n with lw := w }
  | .string n => .string { n with lw := w }
  | .raw n => .raw { n with lw := w }
  | .list ns s e _ => .list ns s e w
  | .attr k n s _ => .attr k n s w

/-- `is_attribute`, parser.rs:275. -/
def isAttr (n : PNode) : Bool := n.attribute?.isSome
/-- `is_atomic`, parser.rs:270. -/
def isAtomic (n : PNode) : Bool := n.atomic?.isSome
/-- `is_symbol`, parser.rs:271. -/
def isSymbol (n : PNode) : Bool := n.symbol?.isSome
/-- `is_number`, parser.rs:272. -/
def isNumber (n : PNode) : Bool := n.number?.isSome
/-- `is_string`, parser.rs:273. -/
def isString (n : PNode) : Bool := n.string?.isSome
/-- `is_list`, parser.rs:274. -/
def isList (n : PNode) : Bool := n.list?.isSome

end PNode

mutual
/-- `PartialEq for ParseNode`, parser.rs:63-93 (and `PartialEq for Node`,
parser.rs:17-21, which compares values only). -/
def PNode.eqv : PNode → PNode → Bool
  | .symbol a, .symbol b => a.value == b.value
  | .number a, .number b => a.value == b.value
  | .string a, .string b => a.value == b.value
  | .raw a, .raw b => a.value == b.value
  | .list as _ _ _, .list bs _ _ _ => PNode.eqvs as bs
  | .attr k a _ _, .attr k' b _ _ => k == k' && PNode.eqv a b
  | _, _ => false
/-- Slice equality `nodes0 == nodes1`. -/
def PNode.eqvs : List PNode → List PNode → Bool
  | [], [] => true
  | a :: as, b :: bs => PNode.eqv a b && PNode.eqvs as bs
  | _, _ => false
end

/-- What is written to a `Hasher`: `write_u8`, the bytes of a `str` (followed
by the 0xff terminator of `Hash for str`), a length prefix. -/
inductive HashOp
  | u8 (n : Nat)
  | str (s : Str)
  | len (n : Nat)
deriving DecidableEq, Repr

mutual
/-- `Hash for ParseNode`, parser.rs:96-126 (and `Hash for Node`, 24-28): the
sequence of writes into the hasher. -/
def PNode.hashOps : PNode → List HashOp
  | .symbol n => [.u8 0, .str n.value]
  | .number n => [.u8 1, .str n.value]
  | .string n => [.u8 2, .str n.value]
  | .raw n => [.u8 3, .str n.value]
  | .list ns _ _ _ => .u8 4 :: .len ns.length :: PNode.hashOpss ns
  | .attr k n _ _ => .u8 5 :: .str k :: PNode.hashOps n
/-- Hashing the elements of a slice (the length prefix is written by the caller). -/
def PNode.hashOpss : List PNode → List HashOp
  | [] => []
  | n :: ns => PNode.hashOps n ++ PNode.hashOpss ns
end

/-- `escape_sanitize`, parser.rs:521-529. -/
def escapeSanitize : Str → Str
  | [] => []
  | c :: cs => if c == '\\' then escapeSanitize cs else c :: escapeSanitize cs

/-- The `descape` crate's `to_unescaped` on a string: `none` on an invalid
escape.  External; passed as a parameter. -/
abbrev Unescape := Str → Option Str

/-- `escape_string`, parser.rs:533-542. -/
def escapeString (u : Unescape) (s : Str) (site : Site) : Res Str :=
  match u s with
  | some v => .ok v
  | none => .err { stage := .lex, msg := "Invalid escape.", site := site }

/-- `parse_atomic`, parser.rs:473-485. -/
def parseAtomic (u : Unescape) (l : Lex) : Res (Node × Lex) := do
  let (t, l) ← l.consume
  let v ← match t.kind with
    | .symbol | .number | .keyword => .ok (escapeSanitize t.value)
    | .string => escapeString u t.value t.site
    | _ => .panic
  .ok ({ value := v, site := t.site, lw := t.lw }, l)

/-- Error value shorthand. -/
def parseErr (msg : String) (site : Site) : Err := { stage := .parse, msg := msg, site := site }

mutual
/-- `parse_expr`, parser.rs:430-443.  The recursion depth is bounded by `fuel`,
which is never exhausted when it starts at `parseFuel` (theorem
`C06_terminates_partial` in `Verif.Props.Reader`). -/
def parseExpr (u : Unescape) : (fuel : Nat) → Lex → Res (PNode × Lex)
  | 0, _ => .diverge
  | fuel + 1, l => do
    let t ← l.peek
    match t.kind with
    | .lparen => parseList u fuel l
    | .rparen => .err (parseErr "Unexpected `)' closing parenthesis." t.site)
    | .keyword => parseKeyword u fuel l
    | .symbol => do let (n, l) ← parseAtomic u l; .ok (.symbol n, l)
    | .string => do let (n, l) ← parseAtomic u l; .ok (.string n, l)
    | .number => do let (n, l) ← parseAtomic u l; .ok (.number n, l)

/-- `parse_keyword`, parser.rs:446-469. -/
def parseKeyword (u : Unescape) : (fuel : Nat) → Lex → Res (PNode × Lex)
  | 0, _ => .diverge
  | fuel + 1, l => do
    let (t, l) ← l.consume
    if t.kind = .keyword then
      if l.eof then .err (parseErr "Keyword expects an expression following it." t.site)
      else do
        let t' ← l.peek
        if t'.kind = .rparen then .err (parseErr "Keyword expects an expression following it." t.site)
        else do
          let (v, l) ← parseExpr u fuel l
          .ok (.attr t.value v t.site t.lw, l)
    else .panic

/-- `parse_list`, parser.rs:488-517. -/
def parseList (u : Unescape) : (fuel : Nat) → Lex → Res (PNode × Lex)
  | 0, _ => .diverge
  | fuel + 1, l => do
    let (t, l) ← l.consume
    if t.kind = .lparen then do
      let (ns, r, l) ← parseElems u fuel l
      match r with
      | none => .err (parseErr "Expected `)' closing parenthesis." t.site)
      | some e => .ok (.list ns t.site e t.lw, l)
    else .panic

/-- The `while` loop of `parse_list`, parser.rs:495-504: the elements read and
the closing parenthesis, if it was found. -/
def parseElems (u : Unescape) : (fuel : Nat) → Lex → Res (List PNode × Option Token × Lex)
  | 0, _ => .diverge
  | fuel + 1, l =>
    if l.eof then .ok ([], none, l)
    else do
      let t ← l.peek
      if t.kind = .rparen then do
        let (e, l) ← l.consume
        .ok ([], some e, l)
      else do
        let (n, l) ← parseExpr u fuel l
        let (ns, r, l) ← parseElems u fuel l
        .ok (n :: ns, r, l)
end

/-- The `while` loop of `Parser::parse`, parser.rs:420-427. -/
def parseRoot (u : Unescape) : (fuel : Nat) → Lex → Res (List PNode)
  | 0, _ => .diverge
  | fuel + 1, l =>
    if l.eof then .ok []
    else do
      let (n, l) ← parseExpr u fuel l
      let ns ← parseRoot u fuel l
      .ok (n :: ns)

/-- Enough fuel for any source of `n` characters. -/
def parseFuel (n : Nat) : Nat := 3 * n + 3

/-- `Parser::parse` on a fresh parser, parser.rs:420-427 with `Lexer::new`. -/
def parse (u : Unescape) (b : Buf) : Res (List PNode) :=
  parseRoot u (parseFuel b.code.length) (Lex.new b)

/-- `SearchType`, parser.rs:553-558. -/
inductive SearchType
  | listHead | listMember | symbol | number | string | attribute | any
deriving DecidableEq, Repr

/-- `SearchType::is_a`, parser.rs:561-563. -/
def SearchType.isA (s k : SearchType) : Bool := s == .any || s == k

/-- ASCII part of `str::to_lowercase`. -/
def lowerChar (c : Char) : Char :=
  if 'A' ≤ c ∧ c ≤ 'Z' then Char.ofNat (c.toNat + 32) else c

/-- `str::to_lowercase` restricted to ASCII letters (also
`str::to_ascii_lowercase`).  Other letters are left alone: simplification. -/
def lower (s : Str) : Str := s.map lowerChar

/-- The closure `is_equal`, parser.rs:573-577. -/
def isEqual (insensitive : Bool) (value s : Str) : Bool :=
  if insensitive then lower s == lower value else s == value

/-- The head test of `search_node`, parser.rs:581-587. -/
def headMatches (kind : SearchType) (value : Str) (ins : Bool) (ns : List PNode) : Bool :=
  kind.isA .listHead &&
    match ns.head?.bind PNode.atomic? with
    | some n => isEqual ins value n.value
    | none => false

mutual
/-- `search_node` for a node, parser.rs:566-621. -/
def searchNode (kind : SearchType) (value : Str) (ins : Bool) : (node : PNode) → (level : Nat) → Option PNode
  | _, 0 => none
  | .list ns s e w, level + 1 =>
    if headMatches kind value ins ns then some (.list ns s e w)
    else searchNodes kind value ins ns level
  | .symbol n, _ + 1 =>
    if kind.isA .symbol && isEqual ins value n.value then some (.symbol n) else none
  | .string n, _ + 1 =>
    if kind.isA .string && isEqual ins value n.value then some (.string n) else none
  | .raw n, _ + 1 =>
    if kind.isA .string && isEqual ins value n.value then some (.raw n) else none
  | .number n, _ + 1 =>
    if kind.isA .number && isEqual ins value n.value then some (.number n) else none
  | .attr k n _ _, level + 1 =>
    if kind.isA .attribute && isEqual ins value k then some n
    else searchNode kind value ins n level
/-- `search_node` for a tree, parser.rs:623-639. -/
def searchNodes (kind : SearchType) (value : Str) (ins : Bool) : (nodes : List PNode) → (level : Nat) → Option PNode
  | _, 0 => none
  | [], _ + 1 => none
  | n :: ns, level + 1 =>
    match searchNode kind value ins n (level + 1) with
    | some r => some r
    | none => searchNodes kind value ins ns (level + 1)
end

mutual
/-- `Display for ParseNode`, parser.rs:642-660.  `dbg` is Rust's `{:?}` on a
string (external). -/
def PNode.display (dbg : Str → Str) : PNode → Str
  | .symbol n | .number n => n.lw ++ n.value
  | .string n | .raw n => n.lw ++ dbg n.value
  | .attr k n _ w => w ++ ':' :: k ++ PNode.display dbg n
  | .list ns _ e w => w ++ '(' :: PNode.displays dbg ns ++ e.lw ++ [')']
/-- The `for` loop over the nodes of a list, parser.rs:653-655. -/
def PNode.displays (dbg : Str → Str) : List PNode → Str
  | [] => []
  | n :: ns => PNode.display dbg n ++ PNode.displays dbg ns
end

end Seam
