# Formal model of seam: design

Source: Demonstrandum/seam, Rust sources in `/repo/crates/seam/src` and
`/repo/crates/seam_argparse_proc_macro/src`.  Nothing is built or run; the
sources are read as text.

## 1. Layout

| directory | contents |
|---|---|
| `lean/Verif/Model/` | the model: one total Lean function per Rust function, each with file and lines |
| `lean/Verif/Spec/` | small independent specifications (grammar, tokens, well-nested markup, ...) |
| `lean/Verif/Lemmas/` | helper lemmas |
| `lean/Verif/Props/` | the property theorems `Cnn_...`, each with an `example` meeting its hypotheses |
| `properties.jsonl` | the properties in words |
| `MANIFEST.json` | which theorems prove which property |
| `seeded/LOG.jsonl` | wrong versions of the model and the theorems that no longer hold for them |

`lake build` in `lean` builds everything.  Mathlib is used for C109 only (`Mathlib.Computability.*`: what a
partial recursive function is, and that the halting problem is undecidable).

## 2. Trusted base

* Lean 4.33's kernel.  Theorems may depend on `propext`, `Classical.choice` and
  `Quot.sound`, and on no other axiom (section 8 lists them per theorem).  No own
  axioms, no `sorry`, no `native_decide`, no `bv_decide`.  Some examples and
  witnesses are evaluated by the kernel (`decide +kernel`).
* That the model in `Verif/Model` says what the Rust code says.  This is by
  reading; every definition names the lines it models and every simplification.
  `Verif/Model/Validate.lean` runs the model on examples of the project
  (`tests.rs`, `README.md`, `USAGE.md`) and finds the recorded output; evaluated
  with the interpreter, the model also reproduces the HTML recorded in
  `samples/tests` except that it escapes `<` in text and has other blanks between
  the attributes of `img`; in both places the code as it is now says what the model
  says.
* That the specifications in `Verif/Spec` and the theorem statements say what
  the English properties say.

## 3. Modelling conventions

* Text is `List Char` (Unicode scalar values), byte offsets are sums of
  `Char.utf8Size`.  The code that works on bytes with unchecked conversions is
  modelled again over bytes: the whole lexer in `Verif/Model/ByteLexer.lean`
  (C62 proves that it gives the same tokens and that no slice is wrong) and
  `escape_xml` in `Verif/Model/Bytes.lean` (C18).
* `Result`, panics (`unwrap`, `expect`, `assert!`, slice bounds, `unreachable!`,
  checked arithmetic where it can fail) and non-termination are the constructors
  `ok`, `err`, `panic`, `diverge` of `Res`.  Counters (`usize`) are unbounded
  naturals: overflow at 2^64 is not modelled; subtraction is checked.
* `&mut self` and `Cell`/`RefCell` state are passed and returned.  The state of
  the expander (`St`) has the definitions in scope (a map from names to macros),
  the number of buffers made so far, the lines written by `%log`, and an oracle
  (`order`, `hashes`) that gives the iteration order of the n-th hash map that is
  iterated; `Fair order` says that each order is a permutation.
* Scopes: the code clones the expander for an inner scope and drops the clone
  afterwards; the model saves and restores the map (`M.inner`).
* Unbounded recursion of the expander (macros may loop) is modelled with fuel;
  theorems hold for every fuel, and fuel monotonicity shows that an outcome other
  than `diverge` does not depend on it (C34).  `Evals ext ns s r t` says that there
  is enough fuel to get the outcome `r`.  The parser's fuel is proved sufficient
  (C06); the stack is unbounded except in C102.
* Error messages are abbreviated to the fixed part of the text; sites are exact.
  The layout of an error message around its text is modelled in
  `Verif/Model/Report.lean`.
* External functions are fields of a record `Ext` or parameters, and theorems
  quantify over them.  Section 5 lists what is assumed of them.
* Letter case: `to_ascii_lowercase` is modelled exactly.
  `str::to_lowercase` (xml.rs:142 on the first word of an XML document, and the node
  search in parser.rs:574) is modelled on ASCII letters only.  For the words compared
  with there (`?xml`, `html`, `head`, ...) this is exact: the only other character whose
  lower case is an ASCII letter is the Kelvin sign (`k`), and none of them has a `k` (C16_unicode).
  A search for a word with a `k` or with other letters could differ.

## 4. What is modelled

| code | model |
|---|---|
| `parse/tokens.rs`: `Site`, `Token`, `Kind`, site queries | `Model/Site` |
| `parse/lexer.rs`: all of it, once over characters and once over bytes | `Model/Lexer`, `Model/ByteLexer` |
| `parse/parser.rs`: nodes, accessors, `Eq`/`Hash`, parser, `search_node`, `Display` | `Model/Parser`, `Model/Basic` |
| `parse/macros.rs` and the code generated by `arguments!` (`seam_argparse_proc_macro`): argument types, `ArgParser`, extraction | `Model/Args` |
| `parse/expander.rs`: scopes, `bind`, `bind_list`, all macros, `expand_node` | `Model/Context`, `Model/Expander` |
| `parse/expander.rs`: YAML event sink and TOML traverser, on the event stream and the value tree | `Model/Data` |
| `parse/expander.rs`: the vector of registered call nodes (`register_invocation`) | `Model/Arena` |
| `assemble/*.rs`: all formatters, document wrappers, `escape_xml` | `Model/Assemble`, `Model/Bytes` |
| the recursive functions of `parser.rs` and `assemble/*.rs` with a bound on active calls | `Model/Stack` |
| the lexer and parser with their steps counted | `Model/Steps` |
| errors and log lines as printed | `Model/Report` |
| `bin.rs` and `lib.rs`: argument loop, output loop | `Model/Cli` |

Not modelled:

* the inside of external crates: `descape`, `unicode-width`, `markdown`,
  `yaml-rust2`, `toml`, `formatx`, `glob`, `chrono`, `fixed`, `colored`;
* terminal colours; the limit of 65535 on format widths in recent Rust versions is modelled only in
  `reportIn` (C113), elsewhere there is none;
* memory layout and lifetimes, except for the vector of call nodes (C61) and the texts of
  included files (C83); apart from C83, sites that refer to the text of a dropped clone of the
  expander are treated as valid;
* the size of stack frames (the number of active calls is modelled for reader, writers and
  macro-free expansion, C102); the stack needed to drop deep trees; `usize` overflow; out of memory;
* a panic of `sort_by` on an order that is not total (C45 shows that the order of
  `%sort` keys is not);
* a closed output pipe, arguments that are not UTF-8, files that change while they
  are being read;
* `%timestamp` at the edge of the representable range.

## 5. Assumptions about the outside

| parameter | stands for | assumed |
|---|---|---|
| `unescape` | `descape` on a string literal | C13: text without backslash is unchanged; C103: `NoLonger`, it does not make a text longer; C106: `UnescapesQuotes`, `\"` and `\\` are a quote and a backslash |
| `dbg` | `{:?}` on strings | C13: `QuotesPlain` (text without special characters is put between quotes); C30: quoting keeps braces balanced; C94: a quoted text leaves no quote open; C103: `SixFold`, at most six bytes for each byte and two quotes |
| `order` | iteration order of hash maps | `Fair`: a permutation of the entries |
| `fixed` | parsing of `I32F32` | C57: `NearestFixed`, the nearest multiple of 2^-32 (there is such a function: `nearestFixed` in Lemmas/Nearest) |
| `width` | `unicode-width` | C63, C113: one column for each printable ASCII character |
| `yaml` | events of the YAML parser for the first document | C54: they describe a value with scalar keys (and aliases, in C54_aliases_partial) |
| `toml` | the parsed TOML document | C73, C74: `PlainToml`, the text of a date or boolean does not start with `%` |
| `limit` | largest format width of the Rust version (65535 since Rust 1.87, known from its documentation, not from /repo) | C113: nothing |
| `mdHtml`, `mdFront`, `glob`, `date`, `zonedTime`, `naiveTime`, `floatCmp`, `formatOk`, `formatText`, `envVar`, `readFile`, `join`, `sexPath`, `siteHash`, `localOffset`, `validTime` | the crates and the system | nothing; they are functions, i.e. do not change during a run |

## 6. Disagreements between properties and code

Each is proved as a theorem ending in `_false` (or `_panics`) with a concrete witness; what is true
is proved under a name ending in `_partial`.

* C03: newlines inside strings and escaped newlines in identifiers are counted twice.
* C06: a source that ends with a backslash in an identifier makes the lexer loop.
* C11: all backslashes are removed from an identifier, also escaped ones.
* C22: attribute values are not escaped.
* C25: an empty tag name (`(\\)` or `(%symbol "")`) panics; so does a `pre` with
  content from another file or moved by a macro.
* C26: trailing blanks of a `pre` are doubled.
* C30: an at-rule with a nested list but no rule gives a closing brace without an opening one.
* C31: `()` and a rule without an atomic head panic.
* C35: the value of a variable is expanded again at every use.
* C45: the comparison of `%sort` keys is not transitive (9 < 10 < 1a < 9).
* C48, C68: a keyword whose value expands to nothing panics.
* C49: `%namespace` also exports the definitions that it inherits.
* C50: `%apply`, `%map` and `%filter` expand arguments twice.
* C53: mandatory named arguments are not checked (no macro has one).
* C54: YAML aliases are ignored, so that keys and values of a mapping change places, which panics if a collection
  becomes a key; keys that are collections panic, except inside a sequence, where they get a wrong name.
* C56: files without the time stamp asked for break the order; a dangling link panics.
* C57: decimals with ten digits may be rounded wrongly; large offsets overflow; a bad
  format panics.
* C58: `-x--html` is read as `--html`, and `-Ia--b` is fatal.
* C59: include directories are searched in the order of their names.
* C61: the reference to a call node dangles once the vector grows.
* C83: the nodes of a file that is included in the body of a macro refer to text that is freed when
  the call returns. The same
  holds for `%for`, `%match` and `%namespace`; a `%namespace` around an `%include` leaves definitions
  that refer to freed text.
* C67: the blanks before a call of `%os/env` are lost.
* C73: a name with `%` made by `%symbol` stays in the result as a macro variable.
* C69: symbols made by `%symbol` may not be read back.
* C86: `%string` and `%raw` look at the blanks between their arguments, `%lambda` at its position (excepted in the
  statement).
* C88: `%namespace` exports the definitions from outside of it as well, so that one definition more can change what a
  later use of an exported name gives (`C88_namespace_false`; excepted in the statement).
* C84: a macro that `%lambda` makes in the body of a macro cannot be called after the call returns.
* C112: the free names of a macro mean what they mean at the call, so that a parameter of the caller can catch them.
* C93: names made from texts (`%symbol`, `%namespace`) are not renamed with the symbols (excepted in the statement;
  `C93_text_false`, `C93_namespace_false`).
* C94: values of properties without white space are written unquoted, also with `;` or braces in them (excepted in
  the statement; `C94_words_false`).
* C95: a file that includes itself is not reported, the expansion does not end (`C95_endless`).
* C96: definitions in the body of `%for` are seen by the later items, unlike those in calls made by `%map` (`C96_for_map_false`).
* C34: the result of a `&&rest` parameter depends on the order of a hash map (part of
  the statement).
* C99: with a repeated key, or a key that is a position in its table, a variable and `%get` find different
  parts of the document (excepted in the statement).
* C100: in the arguments of a macro call, including a file is not the same as pasting its text
  (`C100_argument_false`): the call counts as one argument.
* C114: deleting a parenthesis can go unnoticed, when a comment becomes part of a word (`C114_deleted_false`).
* C115: a guard set by an inclusion in the body of `%for` is gone after the loop (`C115_inner_scope`).
* C116: the condition of `%ifdef` is a name that is not expanded, so nothing can be exchanged there
  (`C116_condition_false`).
* C117: a use in the body of a macro with a parameter of that name cannot be written out (`C117_shadowed_false`).
* C118: a call of `%log` with an undefined variable is an error, so it cannot be taken out (`C118_variable_false`).

Further observations that are part of the model, without a property of their own: XML declarations glue
their parts together (`(!DOCTYPE note)` gives `<!DOCTYPEnote>`); built-in macros
cannot be redefined in call position; `%markdown` ignores errors in the front matter and keeps what was defined
before them; the marks below a multi-line string in an error message are as long as
the whole string.

## 7. Plan per property

| id | plan |
|---|---|
| C01 | lexer invariant "source = consumed ++ rest, offset = byte length of consumed", induction over the parser |
| C02 | same invariant extended by "bol = bytes since the last newline" |
| C03 | false: newlines in strings and escaped newlines are counted twice; negative witness, and the exact count: true for sources without newlines in strings/escapes |
| C04 | lexer lemma on `consume_whitespace` |
| C05 | induction over the parser: the flattened tokens of the tree with trivia between are the source |
| C06 | false: an identifier ending the file with a backslash; witness, and termination for every source that has no such identifier |
| C07 | no `panic` outcome, induction over the parser |
| C08 | lexer lemma: `consume` on `;…\n rest` vs `\n rest` up to positions |
| C09 | grammar as inductive relation over token lists; soundness, completeness, uniqueness |
| C10 | error sites by induction over the parser |
| C11 | value of a symbol token = text without backslashes; `\\` case false (witness) |
| C12 | loop lemma: first unescaped quote |
| C13 | print∘parse by induction over the parse |
| C14 | parse∘print by induction over trees satisfying a printable-tree predicate; false in general (witness) |
| C15 | induction over trees |
| C16 | specification by document-order list of (depth, node), `find?` |
| C17 | induction over strings, decoder in `Spec` |
| C18 | byte-level model against `String.utf8Encode`-style encoder |
| C19 | from C17 through `htmlNode` |
| C20 | specification: inductive grammar of well-nested text; induction over trees |
| C21 | binary search over the sorted table proved equal to membership |
| C22 | false: values are not escaped; witness, and true for values without `"` |
| C23 | case analysis over the search results, `_partial` for the depth of searches |
| C24 | unfold + compositionality: raw value appears verbatim at its place |
| C25 | false (empty tag name, `pre` in macro bodies); witness; true for non-empty heads, rules in `style` and `pre` content in its place |
| C26 | parser invariant relates the sites of the first child and closing parenthesis to the source |
| C27, C28 | as C20/C23 |
| C29 | exact text of a rule, induction over properties |
| C30 | false for nested at-rules without rules; witness; otherwise by induction |
| C31 | false: rule without a selector; witness; otherwise by induction |
| C32 | induction over trees |
| C33 | induction over trees, all fuels above the depth |
| C34 | fuel monotonicity of the functional; independence from `HashMap` order |
| C35 | computation in the model, for all bodies |
| C36, C37 | invariants over all calls, by induction on fuel |
| C38–C40 | characterisation of `bind_list` |
| C41–C51 | characterisation of each macro from the step function |
| C52 | list search over the include directories, file system as parameter |
| C53 | type soundness of the schema check against extraction |
| C54, C55 | value trees → events → sink; refinement against a recursive specification |
| C56 | insertion into an ordered set by the comparator; sortedness and membership |
| C57 | fixed-point arithmetic model of `I32F32`; rounding bounds; overflow witness |
| C58–C60 | model of `main` over an abstract file system; induction over the argument list; what counts of the arguments is shown by what the run is in terms of them (`main_same`), and ascending lists with the same members are equal |
| C61 | false: vector growth moves the nodes; model of vector with generations; witness |
| C62 | byte model of the lexer with checked slices; simulation against the character model |
| C63, C64 | program logic `Snd` over the whole expander: every node, error and log line has a site selected from a source; then arithmetic on `Site` |
| C65–C67 | characterisation of each macro, as C41–C51 |
| C68 | program logic `Snd` with "no panic" for the expander with five crashes replaced; simulation between the two expanders |
| C69 | C14 for the tree with raw text written as calls; induction over trees without macros |
| C70–C72 | characterisation of each macro, as C41–C51; C72 by cases over the macros that expand their arguments first |
| C73 | program logic `Out` (results without macros) for the expander with `%symbol` restricted; that expander is below the real one |
| C74 | the logic `Out` with termination: strong induction over ranks, inside it induction over the program; the invariant is that all definitions are ranked |
| C75–C78 | grammars as inductive predicates; both directions by recursion over the tree and over the derivation |
| C79 | from the grammars, induction over the first sequence |
| C80 | positions erased by a function on trees; every generator agrees on a tree and its erasure, by recursion over the tree |
| C81 | relational program logic: every function of the expander maps related states to related outcomes; one lemma per macro, induction over fuel |
| C82 | texts with the same tokens have related token sequences (induction), related trees (C09, recursion over derivations), then C81 and C80 |
| C83 | program logic `Snd` with a bound on the number of files read; the bound needs that the number never shrinks, which is proved for every function |
| C84 | decimal numerals are injective and have no dash, so a name tells hash and offset; offsets in a text increase (from C05); induction over the calls |
| C85 | substitution as a relation (`Fills`); mutual induction over it shows that expansion computes it; binding from C38, C39, C41 and C43; that matching is unique without `&&` by induction over `Matches` |
| C86 | the relational logic of C81 with a second relation for the blanks; recursion over related trees for each generator |
| C87 | inductive relations for the first fault of a tree; recursion over trees in both directions for each generator, and totality of the classification |
| C88 | a relational predicate (the same outcome with more definitions, unless it failed) that holds for all effects except asking whether a name is undefined, closed under everything the expander does (`Semi`) |
| C89 | induction over the token sequence of the first text, showing that every token is still one with more text after the end; shifting of a token sequence; trivia around the break joined |
| C90 | C89 for the trees; C81 and C86 for both parts in turn; a run with the restrictions of C86 and C88 together, shown to stay one with more definitions |
| C91 | a reader (`readMarkup`, Spec/Dom): scanner, entities, stack of open elements; each piece of output makes the reader add what the node stands for (`Builds`), by induction on the tree |
| C92 | two runs side by side, with calls that differ in the whitespace in front of them (`GapRel`), by induction on the fuel; every macro keeps, loses or hands on |
| C93 | the run and the run with the names exchanged side by side (`SwapRel`), for every macro, by induction on the fuel; replacing by a fresh name is exchanging |
| C94 | a reader (`readCss`, Spec/Styles) with a stack of open blocks; texts with closed brackets and quotes lead it from one place to the same (`Goes`); by induction on what the tree stands for (`SheetItems`) |
| C95 | a successful run contains a successful run with less fuel of the node that cannot be avoided, by strong induction on the fuel; buffers with other numbers are read to the same tree at other places (`parse_other`) |
| C96 | from the exact results C44, C45, C46, C47, C50, C51, C85: two arrangements in order of the same elements are equal (`arranged_unique`), and calling a template once per value is the loop over it (`fills_calls`); a loop over xs ++ ys is two loops (`loops_append`), and the second does not depend on what the iterator was before (`loops_restart`) |
| C97 | restricted runs that only ask allowed questions; monotone walk between two worlds for the reading macros; continuity walk (every finished run needs a finite list of allowed questions) |
| C98 | restricted runs that only look up allowed names; relation between two states (agree on allowed names, other names equal or untouched) kept by every macro; the set of defined names found by comparing with a state in which every other name means something else; continuity walk for finiteness |
| C99 | paths into data (`Sub`) followed in the node by `getPath` and found as variable names; splitting a joined path gives its parts |
| C100 | induction on the places where files are pasted (`Pasted`), with the simulation of C86 for the rest; states may differ in the number of files read, because places in files read at different times are related; C89 twice for the three texts |
| C101 | HTML and XML of ordinary elements are the same text, or the same place is refused (`Spec/Both`: `Shared`, `SameMarkup`) |
| C102 | the recursive functions again with a bound on active calls (`Model/Stack`); equal to the unbounded ones or overflow, by induction on fuel and levels; open parentheses and keywords counted over the tokens for refused sources |
| C103 | every node lies between two byte offsets of the source, neighbours one after the other (`Sits`, by induction on the grammar); each writer gives at most a factor times the difference (induction on the tree); the doubling program by induction on the number of calls |
| C104 | the program logic of C64 (`Snd`, invariant over states and results, by induction on fuel) with the marks of a node and the macros that may be called added to its regions; instance for the marks with an origin (`Origin`/`CanCall`, mutually inductive); C91 for the reader |
| C105 | induction on the token sequence (`Tokens`) with the text before it rewritten; the relational logic of C81 for blanks equal up to carriage returns; the writers by recursion over related trees, generic in the relation of blanks (also used for C86) |
| C106 | a tree for each document (`sayNodes`, one string literal for each character, values with entities), printed as an S-expression; C14 reads it back, C77/C76 give its text, C91 (with entities in values) what a reader finds, which is shown to be unique for these trees; whole documents with C23 and where the lists of the tree are (`saysAll_headed`, `saysAll_two`); style sheets (`rules_say`): heads are string literals, arguments and values are `(%raw "...")`, which C46 expands, and C94 reads the sheet |
| C107 | the reader with its steps counted (`Model/Steps`), equal to the reader by induction; each token is looked at a fixed number of times, each time at a cost of at most four steps for each of its bytes; the steps of the looks made before a call are carried as an allowance in the induction over the fuel |
| C108 | the document is the printed form of an explicit tree, read back with C14; a call of an instruction's macro and a `%match` on a counter are tail calls whose outcome is that of the next node with two units of fuel less; forwards by induction over the run of the machine, backwards by strong induction over the fuel |
| C109 | each form of Mathlib's `Turing.ToPartrec.Code` becomes a macro on a list of numbers; by induction over the code, a call of the macro gives the value where there is one, and only ends where there is one (for `fix` by strong induction over the fuel); the undecidability is by reduction from Mathlib's `ComputablePred.halting_problem`, the text being a primitive recursive function of the argument |
| C110 | the program is built as a tree, printed, and read back by C14; by induction over the number of the macro, a call of it on an element of depth d gives one of depth d + 2^k; the text of that element by induction over the depth |
| C111 | the fuel of the expander is the number of levels; the loops are unfolded with the fuel fixed, by induction over the items; the lower bound by induction over the steps of the machine, each of which hands over to a call with less fuel |
| C112 | the binding of names is computed by induction over the parameters; the two runs of the body by the simulation of C98, with the parameters added to the names on which the states agree; for patterns by induction over `Matches` |
| C113 | the printed text by C63; for the counterexample the source is read back by C14, its position by C02 and C04 |
| C114 | the tokens of a beginning are those of the whole that begin in it, by induction over the token sequence with a case for each way to cut a token; depth of parentheses by induction over the grammar; for strings and keywords the part of the sequence before the token is kept (`tokens_to`), and what is left of the token is an open string, a keyword at the end, which no expression ends in (`exprs_last`), or a backslash at the end |
| C115 | `C52_include`, `C42_defined`/`C42_undefined`, `C51_do` and `C35_define` put together (`guarded_first`, `guarded_again`), for a file read as any source (`parse_other`); C37 for the second inclusion; `Walk` is a small separate semantics of including once, shown total by induction on the number of guards not seen (`walks`) and followed by the expander up to positions (`walk_evals`) |
| C116 | a simulation between a run of bounded depth and the unbounded run of the program with exchanged parts, in states whose macros have exchanged bodies (`KeptM`), by induction over the depth, with one lemma for each built-in macro (`Lemmas/Exchange`, `run_kept`); a call is used only through its place (`run_spot`); where a part is exchanged the first part is run in the second state, and then the equivalence is used there; for programs with a result the same simulation, in which errors on the left are of no interest (`LogRel.lax`, Lemmas/Refine) |
| C117 | the simulation of C116 with a watched expander on the left, which has no outcome if a node fails the test (`CutOf`, `guardRun`); at an exchanged part the test gives the result, which is macro-free and so expands to itself in the other state; dropping the definition is the frame lemma of C98 |
| C118 | the simulation of C116, with the printed lines related by a relation that is kept by printing the same line on both sides (`LogRel`: equal for C116 and C117, a sublist here); at a part that only prints the other program does nothing |

## 8. Axioms

As printed by `#print axioms` for each theorem of `MANIFEST.json`.

**no axiom** (1 theorems): C53_macros.

**`propext`** (28 theorems): C04_lead_is_blank, C06_terminates_false, C105_strings_false, C114_deleted_false, C114_two_quotes, C11_escaped_backslash_false, C15_eq_is_same_value, C15_equivalence, C17_append, C17_decodes_uniquely, C17_escapes, C17_injective, C17_plain, C27_default, C32_text_is_pieces, C34_no_kwrest, C34_no_kwrest_params, C53_mandatory_keyword_false, C58_dir_false, C58_unknown_false, C78_sexp, C78_text, C79_sexp, C79_text, C80_text, C81_unplaced, C89_apart_false, C94_words.

**`propext`, `Quot.sound`** (184 theorems): C03_line_numbers_false, C09_tree_unique, C100_argument_false, C101_attribute_false, C101_capitals_false, C101_instruction_false, C101_raw_false, C101_text_false, C101_void_false, C102_expands, C102_reads, C102_same, C102_writes, C102_writes_same, C105_written, C107_same, C10_unclosed_string_site, C111_call, C111_enough, C111_sequence, C111_turn, C112_capture_false, C115_inner_scope, C115_once, C116_condition_false, C117_shadowed_false, C117_watched, C118_variable_false, C12_closing_quote_found, C16_search_first, C16_search_none, C17_no_markup, C19_text_is_escaped, C22_attributes_false, C23_default, C23_doctype, C23_error, C23_html, C24_raw_html, C24_raw_xml, C25_any_html_partial, C25_never_panics_false, C25_pre_elsewhere_false, C25_xml_partial, C26_pre_exact_false, C27_added, C28_output_shows_tree, C28_well_nested, C29_call_value, C29_rule_shape, C29_word_value, C30_balanced_false, C30_balanced_partial, C31_never_panics_false, C31_never_panics_partial, C33_document, C33_macro_free, C34_fuel, C34_kwrest_order_matters, C34_unique, C35_exactly, C35_not_variable, C35_undefined, C35_use, C35_variable_false, C36_user, C37_later, C37_log, C37_stays_defined, C38_reserved, C42_defined, C42_undefined, C42_undefined_nothing, C46_string, C46_string_rejects, C47_paths, C47_unique, C48_attribute_false, C48_attribute_partial, C49_namespace_false, C49_namespace_partial, C49_syntax, C50_apply_false, C50_element, C50_map_length, C51_do, C51_list, C51_same_nodes, C51_splat, C51_splat_list, C51_strip, C52_earlier, C52_embed, C52_found, C52_include, C52_not_found, C52_rejects, C52_syntax_error, C53_fails, C54_alias_false, C54_alias_panics, C54_complex_key_false, C54_complex_key_panics, C56_time_false, C56_type_false, C56_unique, C58_any_place, C58_no_target_partial, C58_one_meaning, C58_options_partial, C58_unknown_partial, C58_version, C59_ascending_partial, C59_names_partial, C59_order_false, C59_path, C59_sorted_partial, C60_failure, C60_one_outcome, C60_panic, C60_prefix, C60_success, C66_log, C66_not_literal, C66_only_grows, C67_arguments, C67_blanks_false, C67_env_partial, C67_unset, C68_crash_false, C69_symbol_false, C71_compound, C71_fails, C71_format, C71_no_string, C72_argument, C72_first, C72_inside, C72_user_argument, C73_again_partial, C73_no_macro_left_partial, C73_same_run, C73_symbol_false, C74_recursion, C80_css, C80_html_false, C80_html_partial, C80_xml, C81_named, C83_branches_false, C83_namespace_false, C84_escape_false, C85_template, C86_blind, C86_string_false, C88_after, C88_ifdef_false, C88_include, C88_more, C88_namespace_false, C88_sure, C89_directly_false, C91_title_false, C92_errors, C92_kept, C92_lost, C92_only, C93_namespace_false, C93_runs, C93_text_false, C94_values, C94_words_false, C95_guard, C95_same_run, C96_for_map_false, C96_for_split_false, C96_list_splat, C96_strip_twice, C97_finite, C97_same_run, C98_finite, C98_same_run, C99_position_false, C99_repeated_false.

**`propext`, `Classical.choice`, `Quot.sound`** (350 theorems): C01_close_selects_paren, C01_site_selects_own_text, C02_columns_from_line_start, C03_line_exact, C03_line_numbers_partial, C03_right_exactly, C04_leading_whitespace, C04_leading_whitespace_close, C05_lossless, C06_diverges_exactly, C06_terminates_partial, C07_never_panics, C08_comment_is_newline, C09_accepts_exactly_grammar, C09_tokens_unique, C100_back, C100_output, C100_texts, C100_trees, C101_blanks, C101_pages, C101_same, C102_deep, C102_deep_keywords, C102_enough, C103_documents, C103_macros, C103_sizes, C104_html, C104_marks, C104_source, C104_text_only, C104_xml, C105_expands, C105_output, C105_reads, C105_reports, C106_css, C106_html, C106_html_document, C106_html_wrapped, C106_text, C106_xml, C106_xml_document, C107_at_least, C107_linear, C108_computes, C108_forever, C108_strays, C109_computes, C109_errors, C109_errs, C109_halting, C109_output, C10_error_places, C10_errors_exactly, C110_expressions, C110_html, C110_no_recursion, C110_short, C110_sizes, C110_xml, C111_filter, C111_for, C111_long_loop, C111_map, C111_no_bound, C111_recursion, C112_call_time, C112_call_time_patterns, C112_same_partial, C112_same_patterns_partial, C112_self_contained, C113_exactly, C113_long_line, C113_short_files, C114_cut_keyword, C114_cut_off, C114_cut_string, C114_overwritten, C115_again, C115_circle, C115_first, C115_twice, C116_apply, C116_catch_all, C116_concat, C116_concat_join, C116_defined_branch, C116_do, C116_exchange, C116_outcome, C116_refined, C116_result, C116_reverse, C116_splat_list, C116_strip, C116_strip_splat, C116_undefined_branch, C116_where, C117_constant, C117_dropped, C117_worked_out, C118_log, C118_log_succeeds, C118_outcome, C118_silenced, C118_succeeds, C118_variable, C118_watched, C11_exactly, C11_plain_symbol, C11_symbol_escapes_partial, C12_plain_string, C12_string_ends_at_quote, C13_display_reproduces_source, C13_sexp_reproduces_source, C14_sexp_reads_back, C15_hash, C16_letters, C16_lower, C16_unicode, C18_bytes, C19_output_shows_tree, C20_well_nested, C21_other_is_closed, C21_void_content_error, C21_void_is_opening_tag, C22_html_attributes_partial, C22_html_exactly, C22_xml_attributes_partial, C22_xml_exactly, C23_wrapped, C25_html_exact, C25_html_partial, C25_xml_exact, C26_exactly, C26_pre_exact_partial, C26_pre_text_partial, C27_declared, C29_no_properties, C30_balanced_exactly, C31_exact, C32_text_of_source, C34_hash_order, C35_define, C35_redefine, C35_variable_partial, C36_for, C36_match, C36_match_body, C36_namespace, C38_binding_exact, C38_call_error, C38_call_matching, C38_call_not_matching, C38_call_ok, C39_names_rest, C39_names_rest_error, C39_rest, C39_too_few, C39_too_many, C40_anywhere, C40_kwrest, C40_named, C40_unknown, C41_binds_or_rejects, C41_everywhere, C41_exact, C41_first, C41_names, C41_none, C43_concatenation, C43_exact, C43_syntax, C44_rejects, C44_reverse, C44_twice, C45_any_algorithm, C45_elements, C45_integers, C45_key_fails, C45_keys_false, C45_rejects, C45_run_false, C45_sorts_partial, C45_words, C46_concat, C46_concat_join, C46_concat_rejects, C46_join, C46_join_rejects, C47_compose, C47_compose_attribute, C47_get, C47_rejects, C49_nothing_else_partial, C50_apply_direct, C50_apply_lambda, C50_apply_partial, C50_apply_plain, C50_define_function, C50_filter, C50_lambda, C50_lambda_rejects, C50_map, C50_rejects, C53_absent, C53_check_partial, C53_mandatory_partial, C53_optional_partial, C53_rejects, C53_trailing_partial, C54_aliases_partial, C54_invalid_partial, C54_yaml_partial, C55_invalid, C55_toml, C56_dangling_panics, C56_pattern, C56_sorted_partial, C56_unreadable, C56_unsorted, C57_close, C57_date_partial, C57_digits_false, C57_format_panics, C57_overflow_panics, C57_timestamp_partial, C58_every_argument, C58_exactly, C58_meaning, C59_any_order, C61_copy_partial, C61_every_context_false, C61_first_call_false, C61_valid_partial, C62_safe, C62_text, C62_tokens, C62_utf8_exact, C63_expansion_errors, C63_generation_errors, C63_log_lines, C64_slices, C64_tree, C65_faults, C65_markdown, C65_missing_frontmatter, C65_no_front, C65_not_rendered, C65_only_content, C65_only_frontmatter, C68_no_other_crash_partial, C69_output_again_partial, C70_converts, C70_rejects, C74_document, C74_finishes, C74_self_application, C75_document, C75_sheet, C75_value, C76_xml, C77_html, C79_css, C79_html, C79_xml, C81_lambda, C81_lambda_false, C81_output, C81_positions, C82_expands, C82_output, C82_reads, C82_removable, C83_call_false, C83_call_partial, C83_definitions, C83_loaded, C83_nothing_read_partial, C83_start, C84_apart, C84_defined_partial, C84_escape, C84_files, C84_source, C85_call, C85_call_matching, C85_call_patterns, C85_call_rest, C85_document, C85_for, C85_match, C86_documents, C86_expands, C86_output, C86_reads, C86_spaced, C86_trees, C86_written, C87_css, C87_html, C87_one, C87_some, C87_xml, C89_error, C89_exactly, C89_reads, C90_blanks, C90_first_fails, C90_in_turn, C90_output, C90_own, C91_html, C91_same, C91_same_xml, C91_values, C91_xml, C91_xml_document, C92_apply, C92_map, C93_document, C93_errors, C93_expands, C94_same, C94_sheet, C95_endless, C95_files, C95_macros, C96_concat_nested, C96_for_map, C96_for_split, C96_get_reverse, C96_join_nested, C96_sort_any_order, C96_sort_descending, C96_sort_ordered, C96_sort_twice, C97_document, C97_unread, C97_world, C98_define, C98_either_order, C98_makes, C98_unused, C99_agree, C99_paths, C99_toml, C99_yaml.
