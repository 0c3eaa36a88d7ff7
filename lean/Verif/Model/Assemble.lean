import Verif.Model.Parser
import Verif.Model.Site

/-!
# Formatters (crates/seam/src/assemble)

`generate` writes into a buffer; the buffer is dropped when an error occurs
(`display`, assemble/mod.rs:93-97), so generation is modelled as a function to
`Res Str`.
-/

namespace Seam

/-- Error value shorthand for `GenerationError::new`, assemble/mod.rs:18-24. -/
def genErr (msg : String) (site : Site) : Err := { stage := .gen, msg := msg, site := site }

/-- The escape of one character in `escape_xml`, assemble/mod.rs:120-127.  The
Rust code works on bytes; the five special characters are ASCII
(`C18_bytes` in `Verif.Props.Markup` proves that the two agree). -/
def escapeXmlChar (c : Char) : Str :=
  if c == '<' then str! "&lt;"
  else if c == '>' then str! "&gt;"
  else if c == '"' then str! "&quot;"
  else if c == '\'' then str! "&apos;"
  else if c == '&' then str! "&amp;"
  else [c]

/-- `escape_xml`, assemble/mod.rs:116-132. -/
def escapeXml : Str → Str
  | [] => []
  | c :: cs => escapeXmlChar c ++ escapeXml cs

/-! ## Plain text (assemble/text.rs) -/

mutual
/-- `PlainTextFormatter::generate_node`, text.rs:32-59.  It has no error path. -/
def textNode : PNode → Str
  | .symbol n | .number n | .string n | .raw n => n.lw ++ n.value
  | .list ns _ e w => w ++ '(' :: textNodes ns ++ e.lw ++ [')']
  | .attr k n _ w => w ++ ':' :: k ++ textNode n
/-- `PlainTextFormatter::generate`, text.rs:67-73. -/
def textNodes : List PNode → Str
  | [] => []
  | n :: ns => textNode n ++ textNodes ns
end

/-! ## S-expressions (assemble/sexp.rs) -/

mutual
/-- `SExpFormatter::generate_node`, sexp.rs:30-68.  `dbg` is Rust's `{:?}` on
strings (external, passed as parameter). -/
def sexpNode (dbg : Str → Str) : PNode → Str
  | .symbol n | .number n => n.lw ++ n.value
  | .string n => n.lw ++ dbg n.value
  | .raw n => n.lw ++ str! "(%raw " ++ dbg n.value ++ [')']
  | .list ns _ e w => w ++ '(' :: sexpNodes dbg ns ++ e.lw ++ [')']
  | .attr k n _ w => w ++ ':' :: k ++ sexpNode dbg n
/-- `SExpFormatter::generate`, sexp.rs:77-83. -/
def sexpNodes (dbg : Str → Str) : List PNode → Str
  | [] => []
  | n :: ns => sexpNode dbg n ++ sexpNodes dbg ns
end

/-! ## XML (assemble/xml.rs) -/

/-- How the children of an element are traversed: `lead` while the leading
attributes are being passed over (xml.rs:86-89, html.rs:93-107), `rest`
afterwards. -/
inductive KidMode | lead | rest
deriving DecidableEq, Repr

/-- Whitespace of a child: the first child's is dropped unless it contains a
newline (xml.rs:97-102, html.rs:138-143). -/
def firstLw (w : Str) : Str := if w.contains '\n' then w else []

/-- `display_attribute`, xml.rs:166-177. -/
def xmlAttr : PNode → Res Str
  | .attr k n _ _ =>
    match n.atomic? with
    | some a => .ok (k ++ str! "=\"" ++ a.value ++ ['"'])
    | none => .err (genErr "Attribute can only contain symbols, numbers or strings" n.site)
  | _ => .panic

/-- The `while let` loop over leading attributes, xml.rs:86-89. -/
def xmlAttrs : List PNode → Res Str
  | .attr k n s w :: rest => do
    let a ← xmlAttr (.attr k n s w)
    let b ← xmlAttrs rest
    .ok (' ' :: a ++ b)
  | _ => .ok []

/-- The loop over the items of a declaration, xml.rs:66-77. -/
def xmlDecl : List PNode → Res Str
  | [] => .ok []
  | n :: rest =>
    match n with
    | .symbol a | .number a => do
      let b ← xmlDecl rest
      .ok (a.value ++ b)
    | .attr k v s w => do
      let a ← xmlAttr (.attr k v s w)
      let b ← xmlDecl rest
      .ok (' ' :: a ++ b)
    | _ => .err (genErr "Only identifiers and attributes are allowed in declarations." n.site)

/-- The children after the leading attributes. -/
def kids (rest : List PNode) : List PNode := rest.dropWhile PNode.isAttr

/-- `is_first_node_on_next_line`, xml.rs:96-98, html.rs:137-139. -/
def firstOnNextLine (ks : List PNode) : Bool :=
  match ks with
  | k :: _ => k.lw.contains '\n'
  | [] => false

/-- Whitespace before the closing tag, xml.rs:109-115, html.rs:209-215. -/
def closeWs (tag lw : Str) (e : Token) (nextLine : Bool) : Str :=
  if e.lw.isEmpty then
    if nextLine || tag == str! "style" then lw else []
  else e.lw

mutual
/-- `generate_xml_node`, xml.rs:29-124.  `lw` is the node's leading whitespace:
where the Rust code clones the children and overwrites the whitespace of the
first (xml.rs:95-102), the overriding value is passed here. -/
def xmlNode (lw : Str) : PNode → Res Str
  | .symbol n | .number n | .string n => .ok (lw ++ escapeXml n.value)
  | .list [] s _ _ => .err (genErr "Empty lists cannot be converted into a valid XML tag." s)
  | .list (.symbol h :: rest) _ e _ =>
    match h.value with
    | [] => .panic   -- `tag.as_bytes()[0]`, xml.rs:64
    | front :: _ =>
      if front == '!' || front == '?' then do
        let d ← xmlDecl rest
        .ok (lw ++ '<' :: h.value ++ d ++ (if front == '?' then str! " ?>" else str! ">"))
      else do
        let as ← xmlAttrs rest
        let cs ← xmlKids .lead rest
        .ok (lw ++ '<' :: h.value ++ as ++ ['>'] ++ cs
          ++ closeWs h.value lw e (firstOnNextLine (kids rest)) ++ str! "</" ++ h.value ++ ['>'])
  | .list (h :: _) _ _ _ => .err (genErr "XML tags can only be given as symbols." h.site)
  | .raw n => .err (genErr "Unexpected node when generating." n.site)
  | .attr _ _ s _ => .err (genErr "Unexpected node when generating." s)
/-- `XMLFormatter::generate`, xml.rs:157-163, on the children. -/
def xmlKids : KidMode → List PNode → Res Str
  | _, [] => .ok []
  | .lead, n :: ns =>
    if n.isAttr then xmlKids .lead ns
    else do
      let a ← xmlNode (firstLw n.lw) n
      let b ← xmlKids .rest ns
      .ok (a ++ b)
  | .rest, n :: ns => do
    let a ← xmlNode n.lw n
    let b ← xmlKids .rest ns
    .ok (a ++ b)
end

/-- `XMLFormatter::generate` / `display`, xml.rs:157-163. -/
def xmlGenerate (tree : List PNode) : Res Str := xmlKids .rest tree

/-- `xml::DEFAULT`, xml.rs:127-128. -/
def xmlDefault : Str := str! "<?xml version=\"1.0\" encoding=\"UTF-8\" ?>\n"

/-- The declaration test, xml.rs:139-146. -/
def xmlHasDecl : List PNode → Bool
  | .list (.symbol d :: _) _ _ _ :: _ => lower d.value == str! "?xml"
  | _ => false

/-- `XMLFormatter::document`, xml.rs:131-155. -/
def xmlDocument (tree : List PNode) : Res Str :=
  if tree.isEmpty then .ok xmlDefault
  else do
    let d ← xmlGenerate tree
    .ok ((if xmlHasDecl tree then [] else xmlDefault) ++ d)

/-! ## CSS (assemble/css.rs) -/

/-- `CSS_FUNCTIONS`, css.rs:21-33. -/
def cssFunctions : List Str := [
  str! "attr", str! "blur", str! "brightness", str! "calc", str! "circle", str! "color", str! "contrast",
  str! "counter", str! "counters", str! "cubic-bezier", str! "drop-shadow", str! "ellipse", str! "format",
  str! "grayscale", str! "hsl", str! "hsla", str! "hue-rotate", str! "hwb", str! "image", str! "inset",
  str! "invert", str! "lab", str! "lch", str! "linear-gradient", str! "matrix", str! "matrix3d",
  str! "opacity", str! "perspective", str! "polygon", str! "radial-gradient",
  str! "repeating-linear-gradient", str! "repeating-radial-gradient",
  str! "rgb", str! "rgba", str! "rotate", str! "rotate3d", str! "rotateX",
  str! "rotateY", str! "rotateZ", str! "saturate", str! "sepia", str! "scale", str! "scale3d",
  str! "scaleX", str! "scaleY", str! "scaleZ", str! "skew", str! "skewX", str! "skewY", str! "symbols",
  str! "translate", str! "translate3d", str! "translateX", str! "translateY", str! "translateZ",
  str! "url", str! "var", str! "supports"]

/-- `CSS_COMMA_DELIM`, css.rs:37. -/
def cssCommaDelim : List Str := [str! "rgba", str! "hsla"]

/-- `CSS_SPECIAL_SELECTORS`, css.rs:42-47. -/
def cssSpecialSelectors : List Str := [
  str! "@charset", str! "@counter-style", str! "@document",
  str! "@font-face", str! "@font-feature-values", str! "@import",
  str! "@keyframes", str! "@media", str! "@namespace",
  str! "@page", str! "@property", str! "@supports"]

/-- `CSS_ONELINE_RULES`, css.rs:50-54. -/
def cssOnelineRules : List Str := [str! "@charset", str! "@import", str! "@namespace"]

/-- `CSS_NON_NESTED_SELECTORS`, css.rs:57-61. -/
def cssNonNestedSelectors : List Str := [str! "@font-face", str! "@page", str! "@property"]

/-- `BINARY_OPERATORS`, css.rs:65. -/
def cssBinaryOperators : List Str := [str! "+", str! "-", str! "*", str! "/"]

/-- `char::is_whitespace`: the Unicode White_Space property. -/
def isUniWs (c : Char) : Bool :=
  let n := c.toNat
  (9 ≤ n && n ≤ 13) || n == 32 || n == 0x85 || n == 0xA0 || n == 0x1680 ||
  (0x2000 ≤ n && n ≤ 0x200A) || n == 0x2028 || n == 0x2029 || n == 0x202F || n == 0x205F || n == 0x3000

/-- `str::trim_start`. -/
def trimStart (s : Str) : Str := s.dropWhile isUniWs
/-- `str::trim_end`. -/
def trimEnd (s : Str) : Str := (s.reverse.dropWhile isUniWs).reverse
/-- `str::trim`. -/
def trim (s : Str) : Str := trimEnd (trimStart s)

/-- `[String]::join`. -/
def joinStr (sep : Str) : List Str → Str
  | [] => []
  | [s] => s
  | s :: t :: ss => s ++ sep ++ joinStr sep (t :: ss)

/-- The text of a list value once its parts are converted, css.rs:80-95. -/
def cssApply (head : Str) (tail : List Str) : Str :=
  let delim := if cssCommaDelim.contains head then str! ", " else str! " "
  let args := trim (joinStr delim tail)
  if cssFunctions.contains head then head ++ '(' :: args ++ [')']
  else if cssBinaryOperators.contains head then
    '(' :: joinStr (' ' :: head ++ [' ']) tail ++ [')']
  else head ++ ' ' :: args

mutual
/-- `convert_value` / `css_value`, css.rs:67-127. -/
def cssValue (dbg : Str → Str) : PNode → Res Str
  | .list [] _ _ _ => .ok []
  | .list (h :: t) _ _ _ => do
    let head ← cssValue dbg h
    let tail ← cssValues dbg t
    .ok (cssApply head tail)
  | .number n | .symbol n | .string n =>
    .ok (if n.value.any isUniWs then dbg n.value else n.value)
  | .raw n => .ok n.value
  | .attr _ _ s _ =>
    .err (genErr "Incompatible structure (attribute) found in CSS property value." s)
/-- The loop over the tail, css.rs:74-77. -/
def cssValues (dbg : Str → Str) : List PNode → Res (List Str)
  | [] => .ok []
  | n :: ns => do
    let v ← cssValue dbg n
    let vs ← cssValues dbg ns
    .ok (v :: vs)
end

/-- The arguments of a one-line @-rule, css.rs:153-160. -/
def cssOneline (dbg : Str → Str) : List PNode → Res Str
  | [] => .ok []
  | .attr k n _ _ :: rest => do
    let v ← cssValue dbg n
    let r ← cssOneline dbg rest
    .ok ('(' :: k ++ str! ": " ++ v ++ str! ") " ++ r)
  | n :: rest => do
    let v ← cssValue dbg n
    let r ← cssOneline dbg rest
    .ok (v ++ ' ' :: r)

/-- The property loop of `generate_css_rule`, css.rs:230-238. -/
def cssProps (dbg : Str → Str) : List PNode → Res Str
  | [] => .ok []
  | .attr k n _ _ :: rest => do
    let v ← cssValue dbg n
    let r ← cssProps dbg rest
    .ok (str! "  " ++ k ++ str! ": " ++ v ++ str! ";\n" ++ r)
  | n :: _ => .err (genErr "CSS property-value pairs must be in the form of attributes." n.site)

/-- Selectors of a rule: the leading atomic nodes (`take_while`, css.rs:198-201). -/
def cssSelectors (ns : List PNode) : List PNode := ns.takeWhile PNode.isAtomic

/-- `iter.skip(prop_i - 1)`, css.rs:228.  `prop_i` counts the calls of the
`take_while` closure: one more than the selectors if it was stopped by a
non-atomic node, exactly the selectors if the list ended. -/
def cssProperties (ns : List PNode) : List PNode :=
  let k := (cssSelectors ns).length
  let propI := if k < ns.length then k + 1 else k
  ns.drop (propI - 1)

/-- The selector text, css.rs:222-225. -/
def cssSelectorText : List PNode → Str
  | [] => []
  | n :: ns => (match n.atomic? with | some a => a.value | none => []) ++ ' ' :: cssSelectorText ns

/-- Is the head one of the selectors handled by `generate_special_selector`,
css.rs:215-219. -/
def cssIsSpecial (h : Str) : Bool :=
  cssSpecialSelectors.contains h && !cssNonNestedSelectors.contains h

mutual
/-- `generate_css_rule`, css.rs:194-241.  Without a selector the error branch
evaluates `selectors.peek().unwrap()` on an exhausted iterator (line 211), a
panic. -/
def cssRule (dbg : Str → Str) : List PNode → Res Str
  | [] => .panic
  | h :: rest =>
    match h.atomic? with
    | none => .panic
    | some a =>
      if cssIsSpecial a.value then
        if cssOnelineRules.contains a.value then do
          let r ← cssOneline dbg rest
          .ok (a.value ++ ' ' :: r ++ str! ";\n")
        else do
          let r ← cssNested dbg false rest
          .ok (a.value ++ ' ' :: r ++ ['}'])
      else do
        let ps ← cssProps dbg (cssProperties (h :: rest))
        .ok (cssSelectorText (cssSelectors (h :: rest)) ++ str! "{\n" ++ ps ++ ['}'])
/-- The argument loop of `generate_special_selector`, css.rs:169-189;
`rules` is `parsing_rules`. -/
def cssNested (dbg : Str → Str) (rules : Bool) : List PNode → Res Str
  | [] => .ok []
  | n :: rest =>
    match n with
    | .attr k v s _ =>
      if rules then .err (genErr "Expected list (i.e. a CSS rule) here!" s)
      else do
        let v ← cssValue dbg v
        let r ← cssNested dbg rules rest
        .ok ('(' :: k ++ str! ": " ++ v ++ str! ") " ++ r)
    | .list rule _ _ w => do
      let a ← cssRule dbg rule
      let r ← cssNested dbg true rest
      .ok ((if rules then [] else str! "{\n") ++ w ++ a ++ r)
    | n =>
      if rules then .err (genErr "Expected list (i.e. a CSS rule) here!" n.site)
      else do
        let v ← cssValue dbg n
        let r ← cssNested dbg rules rest
        .ok (v ++ ' ' :: r)
end

/-- `CSSFormatter::generate`, css.rs:253-283. -/
def cssGenerate (dbg : Str → Str) : List PNode → Res Str
  | [] => .ok []
  | .list ns _ _ w :: rest => do
    let a ← cssRule dbg ns
    let b ← cssGenerate dbg rest
    .ok (w ++ a ++ b)
  | n :: _ => .err (genErr "Node not expected here." n.site)

/-- `CSSFormatter::document`, css.rs:244-251 (`DEFAULT` is a newline). -/
def cssDocument (dbg : Str → Str) (tree : List PNode) : Res Str :=
  if tree.isEmpty then .ok ['\n'] else cssGenerate dbg tree

/-! ## HTML (assemble/html.rs) -/

/-- Lexicographic order of strings (`Ord for str` compares UTF-8 bytes, which
is the order of the code points). -/
def strCmp : Str → Str → Ordering
  | [], [] => .eq
  | [], _ :: _ => .lt
  | _ :: _, [] => .gt
  | a :: as, b :: bs =>
    if a.toNat < b.toNat then .lt
    else if b.toNat < a.toNat then .gt
    else strCmp as bs

/-- The loop of `slice::binary_search_by` (Rust core library); `fuel` bounds
the number of halvings. -/
def binLoop (v : List Str) (x : Str) : (fuel size base : Nat) → Nat
  | 0, _, base => base
  | fuel + 1, size, base =>
    if size > 1 then
      let half := size / 2
      let mid := base + half
      let base := match v[mid]? with
        | some m => if strCmp m x == .gt then base else mid
        | none => base
      binLoop v x fuel (size - half) base
    else base

/-- `v.binary_search(&x).is_ok()`. -/
def binarySearch (v : List Str) (x : Str) : Bool :=
  match v[binLoop v x v.length v.length 0]? with
  | some m => strCmp m x == .eq
  | none => false

/-- `VOID_ELEMENTS`, html.rs:237-252. -/
def voidElements : List Str := [
  str! "area", str! "base", str! "br", str! "col", str! "embed", str! "hr", str! "img",
  str! "input", str! "link", str! "meta", str! "param", str! "source", str! "track", str! "wbr"]

/-- `raw_text`, html.rs:321-334.  Subtractions are checked (as in a build with
overflow checks; without them the wrapped index is rejected by the slice). -/
def rawText (start : Option PNode) (e : Token) : Res Str :=
  match start with
  | none => .ok e.lw
  | some n =>
    if n.site.buf = e.site.buf then
      if blen n.lw ≤ n.site.off then
        let first := n.site.off - blen n.lw + (if n.lw.head? = some ' ' then 1 else 0)
        match sliceBytes e.site.code first e.site.off with
        | some s => .ok s
        | none => .panic
      else .panic
    else .panic

/-- The items of a declaration, html.rs:79-88. -/
def htmlDecl : List PNode → Res Str
  | [] => .ok []
  | n :: rest =>
    match n.symbolic? with
    | some a => do
      let b ← htmlDecl rest
      .ok (' ' :: a.value ++ b)
    | none => .err (genErr "Non-symbolic item in declaration" n.site)

/-- The `while let` loop over leading attributes, html.rs:93-107. -/
def htmlAttrs : List PNode → Res Str
  | .attr k n _ w :: rest =>
    match n.atomic? with
    | some a => do
      let b ← htmlAttrs rest
      .ok ((if w.isEmpty then str! " " else w) ++ k ++ str! "=\"" ++ a.value ++ ['"'] ++ b)
    | none => .err (genErr "Attribute cannot contain non-atomic data." n.site)
  | _ => .ok []

/-- The children with the first one's whitespace adjusted, html.rs:136-143. -/
def adjustFirst : List PNode → List PNode
  | [] => []
  | n :: ns => n.setLw (firstLw n.lw) :: ns

/-- Tags that contain HTML: those not matched specially in html.rs:154-201. -/
def htmlSpecial (tag : Str) : Bool :=
  tag == str! "pre" || tag == str! "textarea" || tag == str! "title" || tag == str! "style" ||
  tag == str! "script" || tag == str! "math" || tag == str! "svg"

/-- Content of the tags matched specially, html.rs:154-201.  `rest` are the
children with their whitespace as written. -/
def htmlSpecialContent (dbg : Str → Str) (tag : Str) (rest : List PNode) (e : Token) : Res Str :=
  if tag == str! "pre" then rawText rest.head? e
  else if tag == str! "textarea" || tag == str! "title" then .ok (textNodes (adjustFirst rest))
  else if tag == str! "style" then
    match adjustFirst rest with
    | [.string s] => .ok s.value
    | .string s :: _ => .err (genErr "A `style' tag can have CSS rules or a single string." s.site)
    | rest => do
      let c ← cssGenerate dbg rest
      .ok ('\n' :: c)
  else if tag == str! "script" then .ok (sexpNodes dbg (adjustFirst rest))
  else xmlGenerate (adjustFirst rest)

mutual
/-- `generate_html_node`, html.rs:37-224; `lw` as in `xmlNode`. -/
def htmlNode (dbg : Str → Str) (lw : Str) : PNode → Res Str
  | .symbol n | .number n | .string n => .ok (lw ++ escapeXml n.value)
  | .raw n => .ok (lw ++ n.value)
  | .list [] s _ _ => .err (genErr "Empty lists cannot be converted into a valid HTML tag." s)
  | .list (.symbol h :: rest) _ e _ =>
    let tag := lower h.value
    match tag with
    | [] => .panic   -- `tag.as_bytes()[0]`, html.rs:78
    | front :: _ =>
      if front == '!' then do
        let d ← htmlDecl rest
        .ok (lw ++ '<' :: h.value ++ d ++ ['>'])
      else do
        let as ← htmlAttrs rest
        let opening := lw ++ '<' :: h.value ++ as ++ ['>']
        if binarySearch voidElements tag then
          match kids rest with
          | k :: _ => .err (genErr "A void element cannot have children." k.site)
          | [] => .ok opening
        else do
          let cs ← if htmlSpecial tag then htmlSpecialContent dbg tag (kids rest) e
                   else htmlKids dbg .lead rest
          .ok (opening ++ cs ++ closeWs tag lw e (firstOnNextLine (kids rest))
            ++ str! "</" ++ tag ++ ['>'])
  | .list (h :: _) _ _ _ => .err (genErr "HTML tags can only be given as symbols." h.site)
  | .attr _ _ s _ => .err (genErr "Unexpected attribute encountered." s)
/-- `HTMLFormatter::generate`, html.rs:305-311, on the children. -/
def htmlKids (dbg : Str → Str) : KidMode → List PNode → Res Str
  | _, [] => .ok []
  | .lead, n :: ns =>
    if n.isAttr then htmlKids dbg .lead ns
    else do
      let a ← htmlNode dbg (firstLw n.lw) n
      let b ← htmlKids dbg .rest ns
      .ok (a ++ b)
  | .rest, n :: ns => do
    let a ← htmlNode dbg n.lw n
    let b ← htmlKids dbg .rest ns
    .ok (a ++ b)
end

/-- `HTMLFormatter::generate` / `display`, html.rs:305-311. -/
def htmlGenerate (dbg : Str → Str) (tree : List PNode) : Res Str := htmlKids dbg .rest tree

/-- `html::DEFAULT`, html.rs:227-234 (the `\` at line ends swallow the indentation). -/
def htmlDefault : Str :=
  str! "<!DOCTYPE html>\n<html>\n<head></head>\n<body>\n<!-- Generated by SEAM (empty file) -->\n</body>\n</html>\n"

/-- `if doc.ends_with('\n') { doc.pop() }`, html.rs:301. -/
def popNewline (s : Str) : Str :=
  if s.getLast? = some '\n' then s.dropLast else s

/-- `HTMLFormatter::document`, html.rs:255-303. -/
def htmlDocument (dbg : Str → Str) (tree : List PNode) : Res Str :=
  if tree.isEmpty then .ok htmlDefault
  else
    let noDoctype := (searchNodes .listHead (str! "!doctype") true tree 1).isNone
    let noHtml := (searchNodes .listHead (str! "html") true tree 1).isNone
    let noHead := (searchNodes .listHead (str! "head") true tree 2).isNone
    let noBody := (searchNodes .listHead (str! "body") true tree 2).isNone
    do
      let d ← htmlGenerate dbg tree
      let pre :=
        if noDoctype then
          str! "<!DOCTYPE html>\n" ++
            (if noHtml then
              str! "<html>\n" ++ (if noHead then str! "<head></head>\n" else [])
                ++ (if noBody then str! "<body>\n" else [])
            else [])
        else []
      let post :=
        if noDoctype then
          if noHtml then (if noBody then str! "</body>\n" else []) ++ str! "</html>\n" else []
        else []
      .ok (popNewline (pre ++ d ++ ['\n'] ++ post))

end Seam
