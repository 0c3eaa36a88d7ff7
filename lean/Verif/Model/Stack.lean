import Verif.Model.Parser
import Verif.Model.Assemble

/-!
# The recursion of the reader and the writers on a bounded stack

The functions of parser.rs, xml.rs, text.rs and sexp.rs that call themselves, with a bound on the
number of calls that are active at the same time.  One level stands for one active call of
`parse_expr` (with the call of `parse_list` or `parse_keyword` it makes) or of the writers for one
node.  The other functions (lexer, sites, escaping) do not call these and need a fixed number of
frames, which is not counted.
-/

namespace Seam

/-- An outcome on a bounded stack.  `none`: the stack overflows, and the process is aborted. -/
def Stacked (α : Type) : Type := Option (Res α)

namespace Stacked

/-- The stack suffices. -/
def fits {α : Type} (r : Res α) : Stacked α := some r
/-- The stack overflows. -/
def overflow {α : Type} : Stacked α := none

/-- Go on after a success. -/
def bind {α β : Type} (r : Stacked α) (f : α → Stacked β) : Stacked β :=
  match r with
  | none => none
  | some (.ok a) => f a
  | some (.err e) => some (.err e)
  | some .panic => some .panic
  | some .diverge => some .diverge

instance : Monad Stacked where
  pure a := fits (.ok a)
  bind := bind

end Stacked

open Stacked

mutual
/-- `parse_expr`, parser.rs:430-443, with `levels` left.  The fuel is that of `parseExpr`. -/
def parseExprIn (u : Unescape) : (fuel levels : Nat) → Lex → Stacked (PNode × Lex)
  | 0, _, _ => fits .diverge
  | _ + 1, 0, _ => overflow
  | fuel + 1, levels + 1, l => do
    let t ← fits l.peek
    match t.kind with
    | .lparen => parseListIn u fuel levels l
    | .rparen => fits (.err (parseErr "Unexpected `)' closing parenthesis." t.site))
    | .keyword => parseKeywordIn u fuel levels l
    | .symbol => do let (n, l) ← fits (parseAtomic u l); fits (.ok (.symbol n, l))
    | .string => do let (n, l) ← fits (parseAtomic u l); fits (.ok (.string n, l))
    | .number => do let (n, l) ← fits (parseAtomic u l); fits (.ok (.number n, l))

/-- `parse_keyword`, parser.rs:446-469, with `levels` left for the value. -/
def parseKeywordIn (u : Unescape) : (fuel levels : Nat) → Lex → Stacked (PNode × Lex)
  | 0, _, _ => fits .diverge
  | fuel + 1, levels, l => do
    let (t, l) ← fits l.consume
    if t.kind = .keyword then
      if l.eof then fits (.err (parseErr "Keyword expects an expression following it." t.site))
      else do
        let t' ← fits l.peek
        if t'.kind = .rparen then fits (.err (parseErr "Keyword expects an expression following it." t.site))
        else do
          let (v, l) ← parseExprIn u fuel levels l
          fits (.ok (.attr t.value v t.site t.lw, l))
    else fits .panic

/-- `parse_list`, parser.rs:488-517, with `levels` left for each element. -/
def parseListIn (u : Unescape) : (fuel levels : Nat) → Lex → Stacked (PNode × Lex)
  | 0, _, _ => fits .diverge
  | fuel + 1, levels, l => do
    let (t, l) ← fits l.consume
    if t.kind = .lparen then do
      let (ns, r, l) ← parseElemsIn u fuel levels l
      match r with
      | none => fits (.err (parseErr "Expected `)' closing parenthesis." t.site))
      | some e => fits (.ok (.list ns t.site e t.lw, l))
    else fits .panic

/-- The `while` loop of `parse_list`, parser.rs:495-504.  It is a loop: every element has the same
levels. -/
def parseElemsIn (u : Unescape) : (fuel levels : Nat) → Lex → Stacked (List PNode × Option Token × Lex)
  | 0, _, _ => fits .diverge
  | fuel + 1, levels, l =>
    if l.eof then fits (.ok ([], none, l))
    else do
      let t ← fits l.peek
      if t.kind = .rparen then do
        let (e, l) ← fits l.consume
        fits (.ok ([], some e, l))
      else do
        let (n, l) ← parseExprIn u fuel levels l
        let (ns, r, l) ← parseElemsIn u fuel levels l
        fits (.ok (n :: ns, r, l))
end

/-- The `while` loop of `Parser::parse`, parser.rs:420-427. -/
def parseRootIn (u : Unescape) : (fuel levels : Nat) → Lex → Stacked (List PNode)
  | 0, _, _ => fits .diverge
  | fuel + 1, levels, l =>
    if l.eof then fits (.ok [])
    else do
      let (n, l) ← parseExprIn u fuel levels l
      let ns ← parseRootIn u fuel levels l
      fits (.ok (n :: ns))

/-- `Parser::parse` on a fresh parser with a stack of `levels` levels. -/
def parseIn (u : Unescape) (levels : Nat) (b : Buf) : Stacked (List PNode) :=
  parseRootIn u (parseFuel b.code.length) levels (Lex.new b)

/-! ## The writers -/

/-- A loop that writes one node after the other: every node has the same levels. -/
def eachIn (f : PNode → Stacked Str) : List PNode → Stacked Str
  | [] => fits (.ok [])
  | n :: ns => do
    let a ← f n
    let b ← eachIn f ns
    fits (.ok (a ++ b))

/-- `PlainTextFormatter::generate_node`, text.rs:32-59. -/
def textNodeIn : (levels : Nat) → PNode → Stacked Str
  | 0, _ => overflow
  | _ + 1, .symbol n | _ + 1, .number n | _ + 1, .string n | _ + 1, .raw n => fits (.ok (n.lw ++ n.value))
  | levels + 1, .list ns _ e w => do
    let x ← eachIn (textNodeIn levels) ns
    fits (.ok (w ++ '(' :: x ++ e.lw ++ [')']))
  | levels + 1, .attr k n _ w => do
    let x ← textNodeIn levels n
    fits (.ok (w ++ ':' :: k ++ x))

/-- `SExpFormatter::generate_node`, sexp.rs:30-68. -/
def sexpNodeIn (dbg : Str → Str) : (levels : Nat) → PNode → Stacked Str
  | 0, _ => overflow
  | _ + 1, .symbol n | _ + 1, .number n => fits (.ok (n.lw ++ n.value))
  | _ + 1, .string n => fits (.ok (n.lw ++ dbg n.value))
  | _ + 1, .raw n => fits (.ok (n.lw ++ str! "(%raw " ++ dbg n.value ++ [')']))
  | levels + 1, .list ns _ e w => do
    let x ← eachIn (sexpNodeIn dbg levels) ns
    fits (.ok (w ++ '(' :: x ++ e.lw ++ [')']))
  | levels + 1, .attr k n _ w => do
    let x ← sexpNodeIn dbg levels n
    fits (.ok (w ++ ':' :: k ++ x))

/-- The loop over the children of an element, xml.rs:96-108 and html.rs:136-145; `f` writes a child after
the whitespace given. -/
def kidsIn (f : Str → PNode → Stacked Str) : KidMode → List PNode → Stacked Str
  | _, [] => fits (.ok [])
  | .lead, n :: ns =>
    if n.isAttr then kidsIn f .lead ns
    else do
      let a ← f (firstLw n.lw) n
      let b ← kidsIn f .rest ns
      fits (.ok (a ++ b))
  | .rest, n :: ns => do
    let a ← f n.lw n
    let b ← kidsIn f .rest ns
    fits (.ok (a ++ b))

/-- `generate_xml_node`, xml.rs:29-124. -/
def xmlNodeIn : (levels : Nat) → Str → PNode → Stacked Str
  | 0, _, _ => overflow
  | levels + 1, lw, .list (.symbol h :: rest) s e w =>
    match h.value with
    | [] => fits .panic
    | front :: _ =>
      if front == '!' || front == '?' then fits (xmlNode lw (.list (.symbol h :: rest) s e w))
      else do
        let as ← fits (xmlAttrs rest)
        let cs ← kidsIn (xmlNodeIn levels) .lead rest
        fits (.ok (lw ++ '<' :: h.value ++ as ++ ['>'] ++ cs
          ++ closeWs h.value lw e (firstOnNextLine (kids rest)) ++ str! "</" ++ h.value ++ ['>']))
  -- nothing below calls itself
  | _ + 1, lw, n => fits (xmlNode lw n)

/-- The loop over the tail of a list value, css.rs:74-77. -/
def valuesIn (f : PNode → Stacked Str) : List PNode → Stacked (List Str)
  | [] => fits (.ok [])
  | n :: ns => do
    let v ← f n
    let vs ← valuesIn f ns
    fits (.ok (v :: vs))

/-- `convert_value`, css.rs:67-127. -/
def cssValueIn (dbg : Str → Str) : (levels : Nat) → PNode → Stacked Str
  | 0, _ => overflow
  | levels + 1, .list (h :: t) _ _ _ => do
    let head ← cssValueIn dbg levels h
    let tail ← valuesIn (cssValueIn dbg levels) t
    fits (.ok (cssApply head tail))
  | _ + 1, n => fits (cssValue dbg n)

/-- The arguments of a one-line @-rule, css.rs:153-160; `f` converts a value. -/
def onelineIn (f : PNode → Stacked Str) : List PNode → Stacked Str
  | [] => fits (.ok [])
  | .attr k n _ _ :: rest => do
    let v ← f n
    let r ← onelineIn f rest
    fits (.ok ('(' :: k ++ str! ": " ++ v ++ str! ") " ++ r))
  | n :: rest => do
    let v ← f n
    let r ← onelineIn f rest
    fits (.ok (v ++ ' ' :: r))

/-- The property loop of `generate_css_rule`, css.rs:230-238; `f` converts a value. -/
def propsIn (f : PNode → Stacked Str) : List PNode → Stacked Str
  | [] => fits (.ok [])
  | .attr k n _ _ :: rest => do
    let v ← f n
    let r ← propsIn f rest
    fits (.ok (str! "  " ++ k ++ str! ": " ++ v ++ str! ";\n" ++ r))
  | n :: _ => fits (.err (genErr "CSS property-value pairs must be in the form of attributes." n.site))

/-- The argument loop of `generate_special_selector`, css.rs:169-189; `f` converts a value and `g` writes
a rule. -/
def nestedIn (f : PNode → Stacked Str) (g : List PNode → Stacked Str) (rules : Bool) : List PNode → Stacked Str
  | [] => fits (.ok [])
  | n :: rest =>
    match n with
    | .attr k v s _ =>
      if rules then fits (.err (genErr "Expected list (i.e. a CSS rule) here!" s))
      else do
        let v ← f v
        let r ← nestedIn f g rules rest
        fits (.ok ('(' :: k ++ str! ": " ++ v ++ str! ") " ++ r))
    | .list rule _ _ w => do
      let a ← g rule
      let r ← nestedIn f g true rest
      fits (.ok ((if rules then [] else str! "{\n") ++ w ++ a ++ r))
    | n =>
      if rules then fits (.err (genErr "Expected list (i.e. a CSS rule) here!" n.site))
      else do
        let v ← f n
        let r ← nestedIn f g rules rest
        fits (.ok (v ++ ' ' :: r))

/-- `generate_css_rule` with `generate_special_selector`, css.rs:135-241. -/
def cssRuleIn (dbg : Str → Str) : (levels : Nat) → List PNode → Stacked Str
  | 0, _ => overflow
  | levels + 1, ns =>
    match ns with
    | [] => fits .panic
    | h :: rest =>
      match h.atomic? with
      | none => fits .panic
      | some a =>
        if cssIsSpecial a.value then
          if cssOnelineRules.contains a.value then do
            let r ← onelineIn (cssValueIn dbg levels) rest
            fits (.ok (a.value ++ ' ' :: r ++ str! ";\n"))
          else do
            let r ← nestedIn (cssValueIn dbg levels) (cssRuleIn dbg levels) false rest
            fits (.ok (a.value ++ ' ' :: r ++ ['}']))
        else do
          let ps ← propsIn (cssValueIn dbg levels) (cssProperties (h :: rest))
          fits (.ok (cssSelectorText (cssSelectors (h :: rest)) ++ str! "{\n" ++ ps ++ ['}']))

/-- `CSSFormatter::generate`, css.rs:253-283. -/
def cssGenerateIn (dbg : Str → Str) (levels : Nat) : List PNode → Stacked Str
  | [] => fits (.ok [])
  | .list ns _ _ w :: rest => do
    let a ← cssRuleIn dbg levels ns
    let b ← cssGenerateIn dbg levels rest
    fits (.ok (w ++ a ++ b))
  | n :: _ => fits (.err (genErr "Node not expected here." n.site))

/-- Content of the tags matched specially, html.rs:154-201.  The formatter made for the content is called
in the frame of the element, which is counted already. -/
def specialIn (dbg : Str → Str) (levels : Nat) (tag : Str) (rest : List PNode) (e : Token) : Stacked Str :=
  if tag == str! "pre" then fits (rawText rest.head? e)
  else if tag == str! "textarea" || tag == str! "title" then eachIn (textNodeIn levels) (adjustFirst rest)
  else if tag == str! "style" then
    match adjustFirst rest with
    | [.string s] => fits (.ok s.value)
    | .string s :: _ => fits (.err (genErr "A `style' tag can have CSS rules or a single string." s.site))
    | rest => do
      let c ← cssGenerateIn dbg levels rest
      fits (.ok ('\n' :: c))
  else if tag == str! "script" then eachIn (sexpNodeIn dbg levels) (adjustFirst rest)
  else kidsIn (xmlNodeIn levels) .rest (adjustFirst rest)

/-- `generate_html_node`, html.rs:37-224. -/
def htmlNodeIn (dbg : Str → Str) : (levels : Nat) → Str → PNode → Stacked Str
  | 0, _, _ => overflow
  | levels + 1, lw, .list (.symbol h :: rest) s e w =>
    let tag := lower h.value
    match tag with
    | [] => fits .panic
    | front :: _ =>
      if front == '!' then fits (htmlNode dbg lw (.list (.symbol h :: rest) s e w))
      else do
        let as ← fits (htmlAttrs rest)
        let opening := lw ++ '<' :: h.value ++ as ++ ['>']
        if binarySearch voidElements tag then
          match kids rest with
          | k :: _ => fits (.err (genErr "A void element cannot have children." k.site))
          | [] => fits (.ok opening)
        else do
          let cs ← if htmlSpecial tag then specialIn dbg levels tag (kids rest) e
                   else kidsIn (htmlNodeIn dbg levels) .lead rest
          fits (.ok (opening ++ cs ++ closeWs tag lw e (firstOnNextLine (kids rest))
            ++ str! "</" ++ tag ++ ['>']))
  | _ + 1, lw, n => fits (htmlNode dbg lw n)

/-- `display` of a formatter on a stack of `levels` levels. -/
def textIn (levels : Nat) (tree : List PNode) : Stacked Str := eachIn (textNodeIn levels) tree
/-- The same for S-expressions. -/
def sexpIn (dbg : Str → Str) (levels : Nat) (tree : List PNode) : Stacked Str := eachIn (sexpNodeIn dbg levels) tree
/-- The same for XML. -/
def xmlIn (levels : Nat) (tree : List PNode) : Stacked Str := kidsIn (xmlNodeIn levels) .rest tree
/-- The same for HTML. -/
def htmlIn (dbg : Str → Str) (levels : Nat) (tree : List PNode) : Stacked Str := kidsIn (htmlNodeIn dbg levels) .rest tree
/-- The same for CSS. -/
def cssIn (dbg : Str → Str) (levels : Nat) (tree : List PNode) : Stacked Str := cssGenerateIn dbg levels tree

end Seam
