{"id": "C01", "title": "Every node's site selects exactly its own source text", "statement": "After Parser::parse succeeds, the byte range recorded in the site of every node of the tree (and of every closing parenthesis) lies inside the source, starts and ends on character boundaries, and selects exactly the characters of that node's own token: the identifier as written, the string with its quotes, the `:keyword` with its colon, or the parenthesis. Hence Site::view never panics and shows the right text.", "quantifier": "every source text accepted by the parser and every node of the resulting tree", "why_tests_cant": "the byte arithmetic has to be right for every mix of multi-byte characters, escapes, strings, comments and nesting; tests only sample a few sources", "anchors": [{"file": "crates/seam/src/parse/lexer.rs", "symbols": ["Lexer::site", "Lexer::consume_char", "Lexer::consume_whitespace", "Lexer::consume_keyword"]}, {"file": "crates/seam/src/parse/tokens.rs", "symbols": ["Site::view"]}]}
{"id": "C02", "title": "Columns are measured from the true start of the line", "statement": "For every node of a successfully parsed tree, Site::start_of_line does not underflow and is either the start of the file or the byte just after a newline, and there is no newline between it and the node. So the line quoted in an error message is the line the node is on.", "quantifier": "every source text accepted by the parser and every node of the tree", "why_tests_cant": "newlines are counted in five different places of the lexer (whitespace, comments, identifiers, two kinds of strings); all combinations must agree", "anchors": [{"file": "crates/seam/src/parse/lexer.rs", "symbols": ["Lexer::next_line", "Lexer::increment_byte_offsets"]}, {"file": "crates/seam/src/parse/tokens.rs", "symbols": ["Site::start_of_line", "Site::line_column", "Site::line_slice"]}]}
{"id": "C03", "title": "Reported line numbers equal one plus the newlines before the node", "statement": "The `line` of the site of every parsed node is one plus the number of newline characters that precede the node in the source.", "quantifier": "every source text accepted by the parser and every node of the tree", "why_tests_cant": "the defect only appears after a newline inside a string or after a backslash; a test suite without such a node followed by an error never notices", "anchors": [{"file": "crates/seam/src/parse/lexer.rs", "symbols": ["Lexer::consume_string", "Lexer::consume_identifier_string", "Lexer::next_line"]}]}
{"id": "C04", "title": "Leading whitespace is exactly the blanks before the token", "statement": "The leading whitespace stored on every parsed node (and closing parenthesis) consists only of blanks, tabs, carriage returns and newlines, it is the source text that directly precedes the node's first byte, and never contains text of a comment.", "quantifier": "every source text accepted by the parser and every node of the tree", "why_tests_cant": "comments, whitespace and multi-byte characters can be interleaved without bound", "anchors": [{"file": "crates/seam/src/parse/lexer.rs", "symbols": ["Lexer::consume_whitespace"]}, {"file": "crates/seam/src/parse/parser.rs", "symbols": ["ParseNode::leading_whitespace"]}]}
{"id": "C05", "title": "Reading is lossless", "statement": "The source of every successful parse is, from first to last character, the sequence of the tokens of the tree in order, separated only by whitespace and comments: no character of the program is skipped, duplicated or reordered.", "quantifier": "every source text accepted by the parser", "why_tests_cant": "it is a statement about every character of every source", "anchors": [{"file": "crates/seam/src/parse/lexer.rs", "symbols": ["Lexer::consume", "Lexer::consume_whitespace"]}, {"file": "crates/seam/src/parse/parser.rs", "symbols": ["Parser::parse", "Parser::parse_list", "Parser::parse_keyword"]}]}
{"id": "C06", "title": "Parsing terminates on every source", "statement": "Parser::parse returns (a tree or an error) on every source text.", "quantifier": "every source text", "why_tests_cant": "non-termination needs one particular last character; tests end their sources differently", "anchors": [{"file": "crates/seam/src/parse/lexer.rs", "symbols": ["Lexer::consume_char", "Lexer::consume_identifier_string"]}, {"file": "crates/seam/src/parse/parser.rs", "symbols": ["Parser::parse"]}]}
{"id": "C07", "title": "Parsing never panics", "statement": "Parser::parse never panics: none of its expect, assert, unreachable, slice or subtraction checks can fail, on any source text.", "quantifier": "every source text", "why_tests_cant": "panics hide in combinations of states no test enumerates", "anchors": [{"file": "crates/seam/src/parse/lexer.rs", "symbols": ["Lexer::consume", "Lexer::peek", "Lexer::eof"]}, {"file": "crates/seam/src/parse/parser.rs", "symbols": ["Parser::parse", "Parser::parse_atomic", "Parser::parse_list"]}]}
{"id": "C08", "title": "A comment reads as its line break", "statement": "Wherever the reader stands between tokens, a comment `;...` up to its newline changes nothing but positions: the next token has the same kind, the same value and the same leading whitespace as if only the newline had been written.", "quantifier": "every comment text without newline, every continuation of the source, every lexer position", "why_tests_cant": "the comment text and the continuation are arbitrary", "anchors": [{"file": "crates/seam/src/parse/lexer.rs", "symbols": ["Lexer::consume_whitespace", "Lexer::consume"]}]}
{"id": "C09", "title": "The parser accepts exactly the grammar", "statement": "Parser::parse succeeds with a tree if and only if the token sequence of the source is derived by the grammar (expr = symbol | number | string | '(' expr* ')' | keyword expr; program = expr*) and the tree is the one the derivation describes; the tree is unique.", "quantifier": "every source text that lexes to the end", "why_tests_cant": "acceptance and rejection over all nestings needs induction", "anchors": [{"file": "crates/seam/src/parse/parser.rs", "symbols": ["Parser::parse", "Parser::parse_expr", "Parser::parse_list", "Parser::parse_keyword", "Parser::parse_atomic"]}]}
{"id": "C10", "title": "Syntax errors are reported where they are", "statement": "An unclosed string is reported at its opening quote, an unclosed list at the last `(` left open, a stray `)` at that parenthesis, and a keyword without value at the keyword.", "quantifier": "every source text rejected for these reasons", "why_tests_cant": "positions must be right for every prefix of the source", "anchors": [{"file": "crates/seam/src/parse/lexer.rs", "symbols": ["Lexer::consume_string"]}, {"file": "crates/seam/src/parse/parser.rs", "symbols": ["Parser::parse_list", "Parser::parse_expr", "Parser::parse_keyword"]}]}
{"id": "C11", "title": "Escapes in symbols", "statement": "A symbol or number written without backslash has exactly the written text as value; a backslash makes the next character part of the symbol whatever it is, and disappears from the value; an escaped backslash stands for a backslash.", "quantifier": "every identifier text", "why_tests_cant": "escapes may occur anywhere and any number of times", "anchors": [{"file": "crates/seam/src/parse/parser.rs", "symbols": ["escape_sanitize"]}, {"file": "crates/seam/src/parse/lexer.rs", "symbols": ["Lexer::consume_identifier_string"]}]}
{"id": "C12", "title": "String literals keep their contents", "statement": "A string literal ends at its first unescaped closing quote (three quotes for a triple-quoted string), and if it contains no backslash its value is exactly the text between the quotes, newlines included.", "quantifier": "every string contents and every continuation of the source", "why_tests_cant": "contents are arbitrary", "anchors": [{"file": "crates/seam/src/parse/lexer.rs", "symbols": ["Lexer::consume_string"]}, {"file": "crates/seam/src/parse/parser.rs", "symbols": ["escape_string", "Parser::parse_atomic"]}]}
{"id": "C13", "title": "S-expression output reproduces an unprocessed source", "statement": "For a source without comments, backslashes and trailing blanks whose strings need no escaping, printing the parse tree with the S-expression formatter gives back the source character for character.", "quantifier": "every such source text", "why_tests_cant": "exact layout preservation must hold for any layout", "anchors": [{"file": "crates/seam/src/assemble/sexp.rs", "symbols": ["SExpFormatter::generate_node"]}, {"file": "crates/seam/src/parse/parser.rs", "symbols": ["Parser::parse"]}]}
{"id": "C14", "title": "S-expression output reads back as the same tree", "statement": "The text produced by the S-expression formatter parses, and yields a tree equal to the printed one, including whitespace.", "quantifier": "every tree whose symbols and keywords are plain identifiers and in which adjacent identifiers are separated", "why_tests_cant": "a round trip over all trees of any depth; two neighbours that run together are only seen in a test that has exactly this pair", "anchors": [{"file": "crates/seam/src/assemble/sexp.rs", "symbols": ["SExpFormatter::generate_node"]}, {"file": "crates/seam/src/parse/parser.rs", "symbols": ["Parser::parse", "ParseNode::eq"]}]}
{"id": "C15", "title": "Node equality is an equivalence and hashing respects it", "statement": "== on parse nodes is reflexive, symmetric and transitive, ignores positions and whitespace, and equal nodes feed the same data to the hasher, so nodes may be used as HashMap keys.", "quantifier": "all nodes", "why_tests_cant": "an implication over all pairs and triples of trees", "anchors": [{"file": "crates/seam/src/parse/parser.rs", "symbols": ["ParseNode::eq", "ParseNode::hash", "Node::eq", "Node::hash"]}]}
{"id": "C16", "title": "search_node finds the first match within the depth limit", "statement": "search_node returns a node iff some node within the given depth matches the query, and then it is the first one in document order.", "quantifier": "all trees, queries, case sensitivity and levels", "why_tests_cant": "both directions over all trees and depths", "anchors": [{"file": "crates/seam/src/parse/parser.rs", "symbols": ["SearchTree::search_node"]}]}
{"id": "C17", "title": "escape_xml is sound and reversible", "statement": "The result of escape_xml contains none of < > \" ' and every & in it starts one of the five entities; decoding the entities gives the input back, so distinct inputs have distinct escapes; escaping distributes over concatenation.", "quantifier": "every string", "why_tests_cant": "ranges over all strings; injectivity and decoding are statements about all pairs of strings, and one missed character in one context is a security hole", "anchors": [{"file": "crates/seam/src/assemble/mod.rs", "symbols": ["escape_xml"]}]}
{"id": "C18", "title": "escape_xml always builds valid UTF-8", "statement": "The bytes that escape_xml passes to String::from_utf8_unchecked are always valid UTF-8 and are the encoding of the character-wise escaped string: the unsafe block is sound.", "quantifier": "every string", "why_tests_cant": "undefined behaviour cannot be observed reliably by a test", "anchors": [{"file": "crates/seam/src/assemble/mod.rs", "symbols": ["escape_xml"]}]}
{"id": "C19", "title": "HTML text can never become markup", "statement": "The text a symbol, number or string contributes to HTML element content contains no < or >, no quotes and no bare &, and decodes to the node's value.", "quantifier": "every text node in every normal element", "why_tests_cant": "the text is chosen by an attacker, who looks for the one case the tests do not have", "anchors": [{"file": "crates/seam/src/assemble/html.rs", "symbols": ["HTMLFormatter::generate_html_node"]}, {"file": "crates/seam/src/assemble/mod.rs", "symbols": ["escape_xml"]}]}
{"id": "C20", "title": "HTML output is well nested", "statement": "The HTML produced from a tree of ordinary elements is a properly nested sequence of opening and closing tags: every non-void element that is opened is closed exactly once, in order, and no other tags occur.", "quantifier": "every tree of ordinary elements that is generated without error", "why_tests_cant": "nesting is unbounded, and the generator is recursive with several special elements; every combination of parents and children would have to be tested", "anchors": [{"file": "crates/seam/src/assemble/html.rs", "symbols": ["HTMLFormatter::generate_html_node"]}]}
{"id": "C21", "title": "Void elements are never closed and never have content", "statement": "An element is treated as void iff its name, ignoring ASCII case, is one of the fourteen listed; a void element produces its opening tag only, and giving it content is an error.", "quantifier": "every element name, attributes and children", "why_tests_cant": "the table is consulted by binary search which is only right for a sorted table", "anchors": [{"file": "crates/seam/src/assemble/html.rs", "symbols": ["VOID_ELEMENTS", "HTMLFormatter::generate_html_node"]}]}
{"id": "C22", "title": "HTML attribute values cannot break out of their quotes", "statement": "In generated HTML (and XML) every attribute is written as key=\"value\" where the value text contains no unescaped quote, so that the attribute value read by a browser is the value given in the source.", "quantifier": "every attribute value", "why_tests_cant": "the value is chosen by an attacker, who looks for the one case the tests do not have", "anchors": [{"file": "crates/seam/src/assemble/html.rs", "symbols": ["HTMLFormatter::generate_html_node"]}, {"file": "crates/seam/src/assemble/xml.rs", "symbols": ["display_attribute"]}]}
{"id": "C23", "title": "HTML document wrapper", "statement": "HTMLFormatter::document displays a tree with a top-level list headed by !doctype (in any case) unchanged. To any other tree it adds a doctype and, unless some top-level list is headed by html, an html wrapper around the display, in which an empty head and a body wrapper are added iff no list headed by head, or body, is found at the top level or one level below. An empty tree gives the default document, an error is passed on.", "quantifier": "every tree", "why_tests_cant": "ranges over all trees and all combinations of present parts, in any order and letter case", "anchors": [{"file": "crates/seam/src/assemble/html.rs", "symbols": ["HTMLFormatter::document"]}]}
{"id": "C24", "title": "%raw text passes through HTML unchanged", "statement": "A raw node contributes its value to HTML verbatim after its leading whitespace, and is rejected in XML.", "quantifier": "every raw value", "why_tests_cant": "ranges over all values, including those that look like markup or entities", "anchors": [{"file": "crates/seam/src/assemble/html.rs", "symbols": ["HTMLFormatter::generate_html_node"]}, {"file": "crates/seam/src/assemble/xml.rs", "symbols": ["XMLFormatter::generate_xml_node"]}]}
{"id": "C25", "title": "HTML and XML generation never panics", "statement": "Generating HTML or XML from an expanded tree returns text or a GenerationError; it never panics.", "quantifier": "every tree", "why_tests_cant": "panics need unusual heads or positions in combination with macros that move nodes between files", "anchors": [{"file": "crates/seam/src/assemble/html.rs", "symbols": ["HTMLFormatter::generate_html_node", "HTMLFormatter::raw_text"]}, {"file": "crates/seam/src/assemble/xml.rs", "symbols": ["XMLFormatter::generate_xml_node"]}]}
{"id": "C26", "title": "pre shows its source verbatim", "statement": "For a pre element straight from the source, the text between the tags is exactly the source text between the element's head and attributes and its closing parenthesis, minus one leading blank.", "quantifier": "every source and every pre element in it", "why_tests_cant": "offset arithmetic between four positions that has to be right for every layout, including multi-byte characters and comments", "anchors": [{"file": "crates/seam/src/assemble/html.rs", "symbols": ["HTMLFormatter::raw_text"]}]}
{"id": "C27", "title": "XML declaration is added exactly when missing", "statement": "XMLFormatter::document starts with the default XML declaration iff the first node is not a list headed by ?xml in any case, followed by the display of the tree.", "quantifier": "every tree", "why_tests_cant": "ranges over all trees; the absence of a second declaration is a statement about every tree", "anchors": [{"file": "crates/seam/src/assemble/xml.rs", "symbols": ["XMLFormatter::document"]}]}
{"id": "C28", "title": "XML output is well nested", "statement": "The XML produced from a tree without declarations is a properly nested sequence of tags whose closing names equal their opening names, with all text escaped.", "quantifier": "every tree generated without error", "why_tests_cant": "nesting is unbounded and names are arbitrary; a mismatch needs a particular nesting", "anchors": [{"file": "crates/seam/src/assemble/xml.rs", "symbols": ["XMLFormatter::generate_xml_node"]}]}
{"id": "C29", "title": "CSS rules have the documented shape", "statement": "A list of selectors followed by properties is printed as selectors, an opening brace, one `  key: value;` line per property in order, and a closing brace.", "quantifier": "all numbers of selectors and properties", "why_tests_cant": "any number of selectors and properties with values of several shapes", "anchors": [{"file": "crates/seam/src/assemble/css.rs", "symbols": ["generate_css_rule"]}]}
{"id": "C30", "title": "CSS braces are balanced", "statement": "The braces in generated CSS are balanced whenever no value contains a brace.", "quantifier": "every tree generated without error", "why_tests_cant": "nesting and number of rules are unbounded, and balance is a property of the whole output", "anchors": [{"file": "crates/seam/src/assemble/css.rs", "symbols": ["generate_special_selector", "generate_css_rule"]}]}
{"id": "C31", "title": "CSS generation never panics", "statement": "Generating CSS from any tree returns text or a GenerationError.", "quantifier": "every tree", "why_tests_cant": "the panics need a rule without selector or with an unusual head, which no example has", "anchors": [{"file": "crates/seam/src/assemble/css.rs", "symbols": ["generate_css_rule"]}]}
{"id": "C32", "title": "Plain-text output is the values with their layout", "statement": "Plain-text output never fails and is the concatenation, in document order, of each node's leading whitespace and value.", "quantifier": "every tree", "why_tests_cant": "ranges over all trees, including ones that other targets reject", "anchors": [{"file": "crates/seam/src/assemble/text.rs", "symbols": ["PlainTextFormatter::generate_node"]}]}
{"id": "C33", "title": "Documents without macros are unchanged by expansion", "statement": "Expanding a tree in which no symbol starts with % returns exactly the same tree, and defines nothing.", "quantifier": "every macro-free tree of any depth, in every scope", "why_tests_cant": "ranges over all trees of any depth and all scopes", "anchors": [{"file": "crates/seam/src/parse/expander.rs", "symbols": ["Expander::expand_node", "Expander::expand_nodes"]}]}
{"id": "C34", "title": "Expansion is deterministic", "statement": "If expansion of a document finishes, its outcome is unique: it does not depend on how much work is allowed, and, in a run in which no double-ampersand rest parameter is filled, it does not depend on hash-table iteration order.", "quantifier": "every document and every scope", "why_tests_cant": "the order of a hash table differs per process; a test run sees one order, and a dependence would show as a rare flaky failure", "anchors": [{"file": "crates/seam/src/parse/expander.rs", "symbols": ["Expander::expand_node", "Expander::bind_list", "Expander::expand_namespace_macro"]}]}
{"id": "C35", "title": "A defined variable expands to its value", "statement": "After (%define x body), %x expands to what body expanded to at definition time, the first node taking the whitespace of the use; redefinition replaces the value.", "quantifier": "every name, body and scope", "why_tests_cant": "bodies are arbitrary programs and may redefine what they use", "anchors": [{"file": "crates/seam/src/parse/expander.rs", "symbols": ["Expander::expand_define_macro", "Expander::expand_node"]}]}
{"id": "C36", "title": "Definitions do not leak out of inner scopes", "statement": "Calling a user macro, %match, %for or %namespace leaves every variable of the caller as it was after the arguments were evaluated; parameters and definitions made in the body are not visible afterwards (except under the namespace prefix).", "quantifier": "every body, every scope, every nesting", "why_tests_cant": "bodies are arbitrary programs", "anchors": [{"file": "crates/seam/src/parse/expander.rs", "symbols": ["Expander::apply_macro", "Expander::expand_match_macro", "Expander::expand_for_macro", "Expander::expand_namespace_macro", "Expander::create_subcontext"]}]}
{"id": "C37", "title": "Nothing is ever undefined", "statement": "Once a name is defined in a scope it stays defined for the rest of that scope, whatever is expanded.", "quantifier": "every document and scope", "why_tests_cant": "later expansions are arbitrary programs", "anchors": [{"file": "crates/seam/src/parse/expander.rs", "symbols": ["Expander::insert_variable", "Expander::expand_ifdef_macro"]}]}
{"id": "C38", "title": "Argument count is checked exactly", "statement": "Binding a parameter list of plain names to arguments succeeds iff the number of positional arguments is the number of names, and then each name is bound to its argument and nothing else changes.", "quantifier": "every parameter list and argument list", "why_tests_cant": "ranges over all lengths and shapes of both lists", "anchors": [{"file": "crates/seam/src/parse/expander.rs", "symbols": ["Expander::bind_list", "Expander::bind"]}]}
{"id": "C39", "title": "Rest parameters collect exactly what is left", "statement": "With a `&rest` parameter the positional arguments left after the other parameters are bound, in order and unchanged; without arguments left it is the empty list.", "quantifier": "every parameter and argument list", "why_tests_cant": "ranges over all lengths, including no arguments left", "anchors": [{"file": "crates/seam/src/parse/expander.rs", "symbols": ["Expander::bind_list"]}]}
{"id": "C40", "title": "Named arguments", "statement": "A named parameter is bound to the argument given under its keyword wherever it stands, to its default when missing; an unknown keyword is an error unless `&&` collects it.", "quantifier": "every parameter and argument list", "why_tests_cant": "positions and order are arbitrary", "anchors": [{"file": "crates/seam/src/parse/expander.rs", "symbols": ["Expander::bind_list"]}]}
{"id": "C41", "title": "%match takes the first matching pattern", "statement": "%match expands the body of the first pattern that binds, never looks at later ones, gives nothing when no pattern binds, and failed patterns have no effect.", "quantifier": "every value and pattern list", "why_tests_cant": "any number of patterns of any depth; that later patterns are not looked at is an absence", "anchors": [{"file": "crates/seam/src/parse/expander.rs", "symbols": ["Expander::expand_match_macro"]}]}
{"id": "C42", "title": "%ifdef expands only the selected branch", "statement": "%ifdef expands to the first branch if the name is defined and to the second (or nothing) otherwise; the other branch is not expanded at all and cannot have effects or errors.", "quantifier": "every name, branches and scope", "why_tests_cant": "the other branch is an arbitrary program", "anchors": [{"file": "crates/seam/src/parse/expander.rs", "symbols": ["Expander::expand_ifdef_macro"]}]}
{"id": "C43", "title": "%for expands its body once per item in order", "statement": "%for concatenates, in order, the expansions of the body with the pattern bound to each item.", "quantifier": "every list and body", "why_tests_cant": "any number of items and arbitrary bodies with effects", "anchors": [{"file": "crates/seam/src/parse/expander.rs", "symbols": ["Expander::expand_for_macro"]}]}
{"id": "C44", "title": "%reverse reverses and keeps layout", "statement": "%reverse yields the elements in reverse order while the n-th element printed keeps the n-th leading whitespace; reversing twice gives the original list.", "quantifier": "every list", "why_tests_cant": "ranges over all lists and all layouts", "anchors": [{"file": "crates/seam/src/parse/expander.rs", "symbols": ["Expander::expand_reverse_macro"]}]}
{"id": "C45", "title": "%sort sorts", "statement": "%sort yields a permutation of its elements that is ordered by the key, keeps equal keys in their order, and keeps the sequence of leading whitespace.", "quantifier": "every list and keys", "why_tests_cant": "all lengths; ordering laws quantify over triples", "anchors": [{"file": "crates/seam/src/parse/expander.rs", "symbols": ["Expander::expand_sort_macro"]}]}
{"id": "C46", "title": "%join, %concat and %string concatenate", "statement": "%concat is %join with the empty separator; %join puts the separator exactly between consecutive items.", "quantifier": "every list of literals", "why_tests_cant": "ranges over all numbers of items, including none and one", "anchors": [{"file": "crates/seam/src/parse/expander.rs", "symbols": ["Expander::expand_join_macro", "Expander::expand_concat_macro", "Expander::expand_string_macro"]}]}
{"id": "C47", "title": "%get follows paths compositionally", "statement": "Getting a path of several components equals getting the first component and then the rest from the result.", "quantifier": "every path and value", "why_tests_cant": "ranges over all depths of paths and data", "anchors": [{"file": "crates/seam/src/parse/expander.rs", "symbols": ["Expander::expand_get_macro"]}]}
{"id": "C48", "title": "Attribute values may expand to anything without a crash", "statement": "Expanding an attribute whose value is a macro call yields an attribute or an error, never a panic.", "quantifier": "every attribute value and scope", "why_tests_cant": "needs a macro that expands to nothing inside an attribute", "anchors": [{"file": "crates/seam/src/parse/expander.rs", "symbols": ["Expander::expand_node"]}]}
{"id": "C49", "title": "%namespace exports exactly its definitions under the prefix", "statement": "After (%namespace ns body), the names defined in the body are available as ns/name and nothing else is added.", "quantifier": "every body and scope", "why_tests_cant": "arbitrary bodies; hash order", "anchors": [{"file": "crates/seam/src/parse/expander.rs", "symbols": ["Expander::expand_namespace_macro"]}]}
{"id": "C50", "title": "%apply, %map, %filter and %lambda agree with direct calls", "statement": "(%apply f a b) has the outcome of calling f on a and b; %map calls f on each element in order; %filter does the same but leaves out the results that are just the empty list.", "quantifier": "every function and list", "why_tests_cant": "ranges over all functions, which may have effects, and all lists", "anchors": [{"file": "crates/seam/src/parse/expander.rs", "symbols": ["Expander::expand_apply_macro", "Expander::expand_map_macro", "Expander::expand_filter_macro", "Expander::expand_lambda_macro"]}]}
{"id": "C51", "title": "%list, %splat, %do and %strip", "statement": "(%splat (%list a ...)) is a ..., %do concatenates, %strip trims, none loses or reorders nodes.", "quantifier": "every argument list", "why_tests_cant": "ranges over all argument lists; that nothing is lost is an absence", "anchors": [{"file": "crates/seam/src/parse/expander.rs", "symbols": ["Expander::expand_list_macro", "Expander::expand_splat_macro", "Expander::expand_do_macro", "Expander::expand_strip_macro"]}]}
{"id": "C52", "title": "%include takes the first file found", "statement": "%include reads the file from the first include directory that contains it (with the .sex extension tried for each), expands its contents in the current scope, and is an error iff no directory has it.", "quantifier": "every set of include directories and every file system", "why_tests_cant": "ranges over all file systems and directory lists; that earlier directories are preferred needs many of both", "anchors": [{"file": "crates/seam/src/parse/expander.rs", "symbols": ["Expander::expand_include_macro", "Expander::register_parser"]}]}
{"id": "C53", "title": "Checked macro arguments can be used without further failure", "statement": "If argument parsing of a macro call succeeds, all mandatory arguments are present and every extracted argument has its declared type, so extraction never fails.", "quantifier": "every rule set and argument list", "why_tests_cant": "ranges over all calls and all rule sets; the failure would be a panic in a rarely used combination of options", "anchors": [{"file": "crates/seam/src/parse/macros.rs", "symbols": ["ArgParser::new", "ArgRules", "ArgType::check"]}, {"file": "crates/seam_argparse_proc_macro/src/lib.rs", "symbols": ["arguments"]}]}
{"id": "C54", "title": "%yaml builds the documented list and variables", "statement": "%yaml turns every YAML document with scalar keys into nested lists and attributes of the same shape, and defines one variable per path.", "quantifier": "every YAML document", "why_tests_cant": "all nestings; event-driven state machine", "anchors": [{"file": "crates/seam/src/parse/expander.rs", "symbols": ["Expander::expand_yaml_macro", "expand_yaml"]}]}
{"id": "C55", "title": "%toml builds the documented list and variables", "statement": "%toml turns every TOML document into nested lists and attributes of the same shape and defines one variable per path.", "quantifier": "every TOML document", "why_tests_cant": "ranges over all nestings of tables and arrays; every path has to be named right", "anchors": [{"file": "crates/seam/src/parse/expander.rs", "symbols": ["Expander::expand_toml"]}]}
{"id": "C56", "title": "%glob order", "statement": "%glob lists every matching file exactly once, ordered by the requested key and direction.", "quantifier": "every set of files and options", "why_tests_cant": "ranges over all sets of files; an order that is wrong only for some pairs of files needs these pairs", "anchors": [{"file": "crates/seam/src/parse/expander.rs", "symbols": ["Expander::expand_glob_macro"]}]}
{"id": "C57", "title": "Timezone offsets are converted exactly", "statement": "An offset in hours given to %date/%timestamp is applied as that many hours rounded to the nearest second.", "quantifier": "every decimal offset in range", "why_tests_cant": "there are more than two hundred million decimals in range; rounding goes wrong for few of them", "anchors": [{"file": "crates/seam/src/parse/expander.rs", "symbols": ["Expander::expand_date_macro"]}]}
{"id": "C58", "title": "Command-line options", "statement": "The last target option wins, --nodocument turns document generation off, every other non-option argument is an input file kept in order, - or no file means standard input, and an unknown option or missing file aborts with status 1. Apart from that it makes no difference where the options stand between the files and each other.", "quantifier": "every argument list", "why_tests_cant": "ranges over all orders and lengths of argument lists, with repeated and contradicting options", "anchors": [{"file": "crates/seam/src/bin.rs", "symbols": ["main", "argument_fatal"]}]}
{"id": "C59", "title": "Include directories are searched in the order given", "statement": "-I directories are searched in the order in which they are given on the command line.", "quantifier": "every argument list", "why_tests_cant": "the order is that of a sorted set, which agrees with the order given in most examples", "anchors": [{"file": "crates/seam/src/bin.rs", "symbols": ["main"]}, {"file": "crates/seam/src/parse/expander.rs", "symbols": ["Expander::add_includes"]}]}
{"id": "C60", "title": "Nothing is printed for a failing input", "statement": "Inputs are processed in order; an input that fails prints nothing to standard output and stops the run with status 1; earlier inputs have been printed completely.", "quantifier": "every list of inputs and every point of failure", "why_tests_cant": "ranges over all lists of inputs and all points of failure", "anchors": [{"file": "crates/seam/src/bin.rs", "symbols": ["generate_and_print"]}, {"file": "crates/seam/src/lib.rs", "symbols": ["tree_builder_file", "tree_builder_stream"]}]}
{"id": "C61", "title": "The node of a macro call stays valid during its expansion", "statement": "The node reference handed to a macro stays valid until the macro has been expanded.", "quantifier": "every nesting of macro calls", "why_tests_cant": "undefined behaviour is not reliably observable; a dangling reference usually still shows the old contents", "anchors": [{"file": "crates/seam/src/parse/expander.rs", "symbols": ["Expander::register_invocation", "Expander::expand_node"]}]}
{"id": "C62", "title": "The lexer never splits a character", "statement": "Whatever Unicode text is given, the byte offsets at which the lexer slices the source lie between characters: every token text and every run of blanks is valid UTF-8, no slice panics, no undefined behaviour arises from the unchecked conversions, and the tokens are those of the text read character by character.", "quantifier": "every source text of any length, with characters of one to four bytes at any place, and every state of the lexer while reading it", "why_tests_cant": "the offsets are computed byte by byte from text that is cut without checks; undefined behaviour on one unlucky combination of multi-byte characters, comments and ends of lines would not show in tests", "anchors": [{"file": "crates/seam/src/parse/lexer.rs", "symbols": ["Lexer::consume", "Lexer::eof", "Lexer::consume_whitespace", "Lexer::consume_identifier_string", "Lexer::consume_string", "Lexer::consume_char"]}]}
{"id": "C63", "title": "Errors can be printed, and mark the text they are about", "statement": "Every error of reading, expanding or generating can be printed without a panic: the message shows a line of the main source or of a readable file, marks below it exactly the columns of the piece of text the error is about, and names path, line and column. The same holds of the place printed by %log.", "quantifier": "every source, every set of files, every target, every error", "why_tests_cant": "an offset that does not fit the file would panic inside the error message; errors arise at nodes that were moved by macros between files", "anchors": [{"file": "crates/seam/src/parse/tokens.rs", "symbols": ["Site::line_slice", "Site::line_column", "Site::width"]}, {"file": "crates/seam/src/parse/lexer.rs", "symbols": ["LexError"]}, {"file": "crates/seam/src/parse/parser.rs", "symbols": ["ParseError"]}, {"file": "crates/seam/src/parse/expander.rs", "symbols": ["ExpansionError", "Expander::expand_log_macro"]}, {"file": "crates/seam/src/assemble/mod.rs", "symbols": ["GenerationError"]}]}
{"id": "C64", "title": "Every node of the expanded tree points to its source text", "statement": "The site of every node and closing parenthesis in the expanded tree marks a piece of text in the main source or in a file that can be read, with the path of that file; its slices never panic.", "quantifier": "every source, every set of files, every nesting of macros and includes", "why_tests_cant": "macros copy, rebuild and move nodes between files; every builtin would have to be tested in every context", "anchors": [{"file": "crates/seam/src/parse/expander.rs", "symbols": ["Expander::expand", "Expander::expand_nodes"]}, {"file": "crates/seam/src/parse/tokens.rs", "symbols": ["Site"]}]}
{"id": "C65", "title": "%markdown renders the text and defines its front matter", "statement": "(%markdown \"text\") leaves the rendered HTML of the text as raw text and defines every value of the front matter (YAML with scalar keys and without aliases, or TOML) as a variable under its path; with :only content nothing is defined, with :only frontmatter nothing is left and missing front matter is an error at the argument. Without :only, a fault in the front matter is no error: the text is rendered, and what was defined before the fault stays defined.", "quantifier": "every text, every front matter, every separator, every state", "why_tests_cant": "the front matter may be nested without bound and the definitions must be those of %yaml and %toml on the same text; a test sees a few documents", "anchors": [{"file": "crates/seam/src/parse/expander.rs", "symbols": ["Expander::expand_markdown_macro"]}]}
{"id": "C66", "title": "%log prints exactly its words", "statement": "(%log ...) prints one line with the values of its arguments separated by single spaces and the place of the call, leaves nothing in the document and changes no definition; a list as an argument is an error; lines that have been printed stay printed whatever happens later.", "quantifier": "every list of arguments after expansion, every state, every later outcome", "why_tests_cant": "the last part ranges over all continuations, including failing ones inside macros whose other effects are undone", "anchors": [{"file": "crates/seam/src/parse/expander.rs", "symbols": ["Expander::expand_log_macro"]}]}
{"id": "C67", "title": "%os/env gives the value of an environment variable", "statement": "(%os/env name) leaves the value of the variable as a string in the place of the call, with the blanks before the call; an unset variable is an error at the argument.", "quantifier": "every name, every environment, every layout of the call", "why_tests_cant": "ranges over all environments and all layouts; the missing blank shows only in the middle of a text", "anchors": [{"file": "crates/seam/src/parse/expander.rs", "symbols": ["Expander::expand_os_env_macro"]}]}
{"id": "C68", "title": "Expanding does not crash", "statement": "Expanding any source with any files, data and environment gives a tree or an error, never a crash.", "quantifier": "every source, every set of files, all data, every depth of macro nesting", "why_tests_cant": "a crash may hide in any combination of macros; there are finitely many tests and infinitely many documents", "anchors": [{"file": "crates/seam/src/parse/expander.rs", "symbols": ["Expander::expand", "Expander::expand_node", "Expander::expand_invocation"]}]}
{"id": "C69", "title": "The S-expression output can be processed again", "statement": "Expanding the text printed with --sexp gives the same tree and prints the same text: expansion leaves nothing that would be expanded a second time, and raw text stays raw.", "quantifier": "every expanded tree of any depth, every layout", "why_tests_cant": "ranges over all results of all programs; whether the printed text is read back as the same tree depends on every neighbour and every blank", "anchors": [{"file": "crates/seam/src/assemble/sexp.rs", "symbols": ["SExpFormatter::generate_node"]}, {"file": "crates/seam/src/parse/expander.rs", "symbols": ["Expander::expand", "Expander::expand_raw_macro"]}]}
{"id": "C70", "title": "%number and %symbol keep the text of their arguments", "statement": "(%number a...) and (%symbol a...) yield exactly one number (symbol) per argument, in order, with the argument's text, place and leading blanks unchanged; anything that is not a literal is an error.", "quantifier": "all argument lists of any length, all texts and layouts, all states", "why_tests_cant": "ranges over all argument lists; that nothing is lost, merged or reordered is a statement about every length", "anchors": [{"file": "crates/seam/src/parse/expander.rs", "symbols": ["Expander::expand_number_macro", "Expander::expand_symbol_macro"]}]}
{"id": "C71", "title": "%format substitutes each value exactly as given", "statement": "%format passes the values of its arguments to the template in order, named ones under their name, and yields the formatted text as a string in the place of the call. A format string that is invalid or does not fit is an error at the format string, an argument that cannot be formatted an error at this argument.", "quantifier": "all templates, all numbers of positional and named arguments in any order", "why_tests_cant": "ranges over all mixtures of positional and named arguments and all places where an error can be", "anchors": [{"file": "crates/seam/src/parse/expander.rs", "symbols": ["Expander::expand_format_macro"]}]}
{"id": "C72", "title": "An error inside an expanded part is reported unchanged", "statement": "If an argument of a macro that expands its arguments, an element of a list, the value of a keyword or of a variable, or the value examined by %match fails to expand, the whole fails with that same error at that same place, and nothing behind it is expanded.", "quantifier": "every macro of this kind, every nesting, every error, all states", "why_tests_cant": "a swallowed or relocated error needs the particular macro with the particular failing argument; effects of what comes later are absences", "anchors": [{"file": "crates/seam/src/parse/expander.rs", "symbols": ["Expander::expand_nodes", "Expander::expand_node", "Expander::expand_invocation", "Expander::expand_macro"]}]}
{"id": "C73", "title": "Expansion is complete: nothing of the macro language is left in the result", "statement": "If expanding a document succeeds, the result contains no macro call and no macro variable at any depth, so expanding it again in any state returns it unchanged without effect. The one exception is %symbol, which can make a symbol that starts with % from a string: it stays in the result and would be expanded by a second pass.", "quantifier": "all documents, all states of the expander, all runs that succeed and in which no %symbol call makes a name that starts with %", "why_tests_cant": "the result of a run is unbounded and every macro contributes to it; a leftover shows only for the one macro and nesting that leaves it", "anchors": [{"file": "crates/seam/src/parse/expander.rs", "symbols": ["Expander::expand_nodes", "Expander::expand_node", "Expander::expand_macro", "Expander::expand_symbol_macro"]}]}
{"id": "C74", "title": "Documents without recursion are always expanded to an end", "statement": "If the names in a document can be ranked so that the body of every macro, lambda and included file uses only names of smaller rank, and functions passed to %apply, %map, %filter and %sort are named in the text, then expansion always finishes: with a result free of macros, an error or a panic, but not in an endless loop or unbounded recursion. A macro that calls itself, or one that is applied to its own name, can run forever.", "quantifier": "all such documents of any size and nesting, all states reached by them, all environments", "why_tests_cant": "termination is a statement about all runs; a test that finishes says nothing about other documents", "anchors": [{"file": "crates/seam/src/parse/expander.rs", "symbols": ["Expander::expand_nodes", "Expander::expand_node", "Expander::expand_invocation", "Expander::expand_macro", "Expander::apply_macro"]}]}
{"id": "C75", "title": "CSS output is given exactly by a grammar", "statement": "CSS is generated for exactly those trees that the style sheet grammar covers (plain rules, one-line and block at-rules, values, calls, operators), and the output is the one text the grammar assigns to the tree; everything else is an error.", "quantifier": "all trees, every way of quoting strings, all texts", "why_tests_cant": "both directions range over all trees; a test compares one tree with one text and never shows that nothing else is accepted", "anchors": [{"file": "crates/seam/src/assemble/css.rs", "symbols": ["CSSFormatter::generate", "CSSFormatter::document", "generate_css_rule", "generate_special_selector", "css_value", "convert_value"]}]}
{"id": "C76", "title": "XML output is given exactly by a grammar", "statement": "XML is generated for exactly those trees that the XML grammar covers (declarations, elements with attributes before content, escaped text), and the output is the one text the grammar assigns to the tree, including blanks and line breaks around content.", "quantifier": "all trees, all texts", "why_tests_cant": "whitespace and nesting combine without bound; tests compare single documents", "anchors": [{"file": "crates/seam/src/assemble/xml.rs", "symbols": ["XMLFormatter::generate", "XMLFormatter::generate_xml_node", "display_attribute"]}]}
{"id": "C77", "title": "HTML output is given exactly by a grammar", "statement": "HTML is generated for exactly those trees that the HTML grammar covers (declarations, void elements without content, elements with special content such as style, script, pre, title, svg, and ordinary elements), and the output is the one text the grammar assigns to the tree.", "quantifier": "all trees, every way of quoting strings, all texts", "why_tests_cant": "the elements, their content models and the whitespace combine without bound; tests compare single documents", "anchors": [{"file": "crates/seam/src/assemble/html.rs", "symbols": ["HTMLFormatter::generate", "HTMLFormatter::generate_html_node", "raw_text"]}]}
{"id": "C78", "title": "Plain text and S-expression output are given exactly by a grammar", "statement": "Every tree has plain text and S-expression output: exactly the text that the respective grammar assigns to it.", "quantifier": "all trees, every way of quoting strings", "why_tests_cant": "tests compare single documents", "anchors": [{"file": "crates/seam/src/assemble/text.rs", "symbols": ["PlainTextFormatter::generate"]}, {"file": "crates/seam/src/assemble/sexp.rs", "symbols": ["SExpFormatter::generate"]}]}
{"id": "C79", "title": "The output of a sequence is the sequence of the outputs", "statement": "In every format, output for one sequence of nodes followed by another succeeds exactly if both parts succeed, and is the output of the first followed by the output of the second. Nothing at top level depends on neighbours.", "quantifier": "all pairs of trees of any size, all five formats", "why_tests_cant": "independence of neighbours is a statement about all contexts", "anchors": [{"file": "crates/seam/src/assemble/css.rs", "symbols": ["CSSFormatter::generate"]}, {"file": "crates/seam/src/assemble/xml.rs", "symbols": ["XMLFormatter::generate"]}, {"file": "crates/seam/src/assemble/html.rs", "symbols": ["HTMLFormatter::generate"]}, {"file": "crates/seam/src/assemble/text.rs", "symbols": ["PlainTextFormatter::generate"]}, {"file": "crates/seam/src/assemble/sexp.rs", "symbols": ["SExpFormatter::generate"]}]}
{"id": "C80", "title": "Output does not depend on where the nodes come from", "statement": "Two trees with the same texts, whitespace and structure have the same CSS, XML, plain text and S-expression output, whatever file, line and column their nodes come from. For HTML the same holds without pre elements; the text of a pre element is cut out of the source.", "quantifier": "all pairs of trees that differ only in positions, all five formats, with and without the document frame", "why_tests_cant": "a dependence on positions shows only for the one combination of files, lines and nodes that triggers it", "anchors": [{"file": "crates/seam/src/assemble/css.rs", "symbols": ["CSSFormatter::generate", "CSSFormatter::document"]}, {"file": "crates/seam/src/assemble/xml.rs", "symbols": ["XMLFormatter::generate", "XMLFormatter::document"]}, {"file": "crates/seam/src/assemble/html.rs", "symbols": ["HTMLFormatter::generate", "HTMLFormatter::document"]}, {"file": "crates/seam/src/assemble/text.rs", "symbols": ["PlainTextFormatter::generate"]}, {"file": "crates/seam/src/assemble/sexp.rs", "symbols": ["SExpFormatter::generate"]}]}
{"id": "C81", "title": "Positions do not matter to expansion", "statement": "Expanding the same nodes at other positions, with the same definitions made at other positions, gives the same tree or the same error message at the corresponding place, the same definitions and the same log, and so the same output in every format (pre elements in HTML apart), as long as %lambda is not called. The names that %lambda makes do depend on the position.", "quantifier": "all pairs of trees and of states that differ only in positions, any relation between old and new positions, all runs that finish", "why_tests_cant": "a dependence on positions shows only for the combination of file, line and macro that triggers it; there are unboundedly many", "anchors": [{"file": "crates/seam/src/parse/expander.rs", "symbols": ["Expander::expand_node", "Expander::expand_nodes", "Expander::expand_invocation", "Expander::expand_lambda_macro"]}, {"file": "crates/seam/src/parse/tokens.rs", "symbols": ["Site::uuid"]}]}
{"id": "C82", "title": "Comments do not matter", "statement": "A document with its comments left out, the newline at the end of each kept, has the same tokens. Two texts with the same tokens and the same blanks in front of each token, apart from comments, are read to the same tree or the same error at the corresponding token, expanded to the same tree or the same error at the corresponding token, and give the same output in every format (pre elements in HTML apart), as long as %lambda is not called.", "quantifier": "all pairs of source texts with the same tokens apart from comments, all definitions of the outside world, all runs that finish", "why_tests_cant": "comments can stand between any two tokens of any document; tests place a few", "anchors": [{"file": "crates/seam/src/parse/lexer.rs", "symbols": ["Lexer::consume_whitespace", "Lexer::consume"]}, {"file": "crates/seam/src/parse/parser.rs", "symbols": ["Parser::parse"]}, {"file": "crates/seam/src/parse/expander.rs", "symbols": ["Expander::expand"]}, {"file": "crates/seam/src/assemble/css.rs", "symbols": ["CSSFormatter::generate"]}, {"file": "crates/seam/src/assemble/xml.rs", "symbols": ["XMLFormatter::generate"]}, {"file": "crates/seam/src/assemble/html.rs", "symbols": ["HTMLFormatter::generate"]}, {"file": "crates/seam/src/assemble/text.rs", "symbols": ["PlainTextFormatter::generate"]}, {"file": "crates/seam/src/assemble/sexp.rs", "symbols": ["SExpFormatter::generate"]}]}
{"id": "C83", "title": "The expanded tree refers to source text that is still there", "statement": "Every node, definition, log line and error of an expansion refers to the text of a file that has been read. The text of files included while the body of a user macro is expanded is freed when the call returns, so nodes and definitions left by the call must not refer to it. This holds for definitions always and for the nodes if the body includes no file. If the body is an %include, every node of the result refers to freed text. The same is true of %for, %match and %namespace, which also work on a copy of the context; a %namespace around an %include even leaves definitions that refer to freed text.", "quantifier": "all trees, states and file systems, all calls of user macros, all runs that finish", "why_tests_cant": "reading freed memory is undefined behaviour that usually still shows the old text; error messages and pre elements are where it would show", "anchors": [{"file": "crates/seam/src/parse/expander.rs", "symbols": ["Expander::register_parser", "Expander::create_subcontext", "Expander::remove_subcontext", "Expander::apply_macro", "Expander::expand_include_macro"]}]}
{"id": "C84", "title": "Anonymous macros do not get in each other's way", "statement": "The macros that the %lambda calls of a source text make have different names, whatever the hash of their positions is, so that none replaces another, and each is defined with its own parameters and body where the call is made. For calls in different files names agree only if offset and hash do. A macro made by %lambda can be used wherever its name is passed: false, one made in the body of a macro is gone when the call returns, and applying the returned name is an error.", "quantifier": "all %lambda calls, all parameters and bodies, all states, all hash functions, all source texts", "why_tests_cant": "names are made from a hash and an offset; whether two can clash depends on all positions and on the hash", "anchors": [{"file": "crates/seam/src/parse/expander.rs", "symbols": ["Expander::expand_lambda_macro", "Expander::apply_macro"]}, {"file": "crates/seam/src/parse/tokens.rs", "symbols": ["Site::uuid"]}]}
{"id": "C85", "title": "A macro call is its body with the arguments filled in", "statement": "If the body of a macro is a template (text, lists and keywords with %x for parameters and for variables with plain values), a call with as many arguments as parameters gives the template with each %x replaced by its argument, the first node of which takes the blanks of the %x; a &rest parameter is replaced by all arguments left over. Nothing else changes. %for with a template gives the template filled with each item, in order.", "quantifier": "all templates, all parameter names and arguments whose values contain no macros, all states", "why_tests_cant": "templates and arguments are arbitrary trees; tests fill in a few", "anchors": [{"file": "crates/seam/src/parse/expander.rs", "symbols": ["Expander::expand_macro", "Expander::apply_macro", "Expander::bind_list", "Expander::expand_for_macro", "Expander::expand_node"]}]}
{"id": "C86", "title": "The layout of a program does not matter", "statement": "Two texts with the same tokens, however blanks, line breaks and comments are put between them, are read and expanded alike: to the same tree up to blanks and positions, or to the same error at the corresponding token, with the same definitions and the same log. The outputs agree in every format once blanks are removed. Every text can be written with a single space before every token. Excepted are programs that call %lambda (whose name is made from its position), %string and %raw (which keep the blanks between their arguments), and in HTML the content of pre elements.", "quantifier": "all pairs of texts with the same tokens, all outside worlds, all runs of the expander without these three macros", "why_tests_cant": "ranges over all layouts of all programs; a macro that looks at blanks it should not look at shows only with particular layouts", "anchors": [{"file": "crates/seam/src/parse/lexer.rs", "symbols": ["Lexer::consume", "Lexer::consume_whitespace"]}, {"file": "crates/seam/src/parse/expander.rs", "symbols": ["Expander::expand_nodes", "Expander::apply_macro", "Expander::expand_string_macro", "Expander::expand_raw_macro"]}, {"file": "crates/seam/src/assemble/xml.rs", "symbols": ["XMLFormatter"]}, {"file": "crates/seam/src/assemble/html.rs", "symbols": ["HTMLFormatter"]}, {"file": "crates/seam/src/assemble/css.rs", "symbols": ["CSSFormatter"]}]}
{"id": "C87", "title": "A generation error is reported at the first node that cannot be written", "statement": "For every tree, HTMLFormatter, XMLFormatter and CSSFormatter write the document or report exactly one error: the one about the first node, in document order, that cannot be written. The message is the one for what is wrong with that node (a raw node in XML, an attribute among content, an empty list, a head that is no symbol, an attribute value that is no atom, a wrong item in a declaration, content in a void element, a string beside other content in a style element, a rule without properties, a property that is no attribute, an attribute inside a value, a node that is no rule) and the place is that of the offending node. Trees whose first fault is an empty head, a list in place of a rule that is empty or starts with no atom, or the content of a pre element that stands elsewhere crash instead, and no others do.", "quantifier": "all trees, over all places and combinations of several faults", "why_tests_cant": "which of several faults is reported, and with which place, depends on everything that precedes it in the tree; tests try single faults", "anchors": [{"file": "crates/seam/src/assemble/html.rs", "symbols": ["HTMLFormatter::document", "generate_html_node"]}, {"file": "crates/seam/src/assemble/xml.rs", "symbols": ["XMLFormatter::document", "generate_xml_node"]}, {"file": "crates/seam/src/assemble/css.rs", "symbols": ["CSSFormatter::document", "convert_value", "generate_special_selector"]}]}
{"id": "C88", "title": "Defining more does not change what already works", "statement": "If a program is expanded without error with some definitions in force, it has the same result, logs the same lines and makes the same definitions when more is defined beforehand. So a program or an included file that works on its own gives the same after any other program and wherever it is included, even if the names it uses were defined differently before. Excepted are calls of %ifdef for a name that is not defined, and of %namespace (which exports what is defined outside of it too).", "quantifier": "all programs, all states and all states with more definitions, all outside worlds, all runs without these calls", "why_tests_cant": "ranges over all programs and everything that could be defined before; a lookup in the wrong scope or a clash of names shows only with particular definitions", "anchors": [{"file": "crates/seam/src/parse/expander.rs", "symbols": ["Expander::expand_node", "Expander::expand_macro", "Expander::apply_macro", "Expander::get_variable", "Expander::insert_variable", "Expander::expand_include_macro", "Expander::expand_ifdef_macro", "Expander::expand_namespace_macro"]}]}
{"id": "C89", "title": "Texts can be joined", "statement": "If a text can be read, then the text continued on a new line with another text is read as what the first says followed by what the second says. If the second can be read too, the nodes are those of the first, at the same places, followed by those of the second, with the same blanks (the first of them may get the line break and blanks around it) and with the same columns, at offsets later by the length of the first text and one. If the second text has an error, the same error is reported at the shifted place. The joined text can be read exactly if the second can. The line break is needed (`a` and `b` next to each other are one symbol), and two texts that cannot be read may be readable when joined (`(a` and `b)`).", "quantifier": "all pairs of texts of which the first can be read, whatever comments or strings they end and begin with", "why_tests_cant": "ranges over all pairs of texts; what goes wrong would depend on how the first ends (in a comment, a symbol, a string) and how the second begins", "anchors": [{"file": "crates/seam/src/parse/parser.rs", "symbols": ["Parser::parse", "Parser::parse_expr"]}, {"file": "crates/seam/src/parse/lexer.rs", "symbols": ["Lexer::peek", "Lexer::consume"]}]}
{"id": "C90", "title": "Joined programs do one after the other", "statement": "The text of one program continued on a new line with the text of another is expanded as the first program and then the second with the definitions of the first: to the trees of the first followed by those of the second, with the same log, or to the same error at the corresponding place. If the first is in error, so is the joined program, in the same way. If both work on their own, and the second does not ask what is undefined (C88), the joined program gives what the first gives followed by what the second gives, even if they define the same names, and so in every format the output is, up to blanks, the output of the first followed by that of the second. Excepted are %lambda, whose names depend on positions, up to blanks also %string and %raw, and in HTML pre elements.", "quantifier": "all pairs of texts that can be read, and all outcomes of expanding them", "why_tests_cant": "ranges over all pairs of programs; no test covers all ways in which the first could disturb the second", "anchors": [{"file": "crates/seam/src/parse/expander.rs", "symbols": ["Expander::expand", "Expander::expand_nodes", "Expander::expand_node", "Expander::get_variable", "Expander::insert_variable"]}, {"file": "crates/seam/src/parse/parser.rs", "symbols": ["Parser::parse"]}]}
{"id": "C91", "title": "Reading the output back gives the document", "statement": "A reader that cuts XML or HTML output into tags and text, replaces the entities and builds the tree of elements finds the document that was written: the same elements with the same attributes and values (where a value contains an entity, what it stands for), nested in the same way, with exactly the texts (and the layout) between them. So two documents with the same output are the same document. An XML document without declaration is read with the default declaration in front of it.", "quantifier": "all trees of ordinary elements (names are names, no raw text, attribute values without quotes; in HTML no pre, title, textarea, style, script, math, svg)", "why_tests_cant": "needs the inverse of the generator on every tree; a test compares one output with one expected text", "anchors": [{"file": "crates/seam/src/assemble/xml.rs", "symbols": ["XMLFormatter::generate_xml_node", "XMLFormatter::document"]}, {"file": "crates/seam/src/assemble/html.rs", "symbols": ["HTMLFormatter::generate_html_node"]}, {"file": "crates/seam/src/assemble/mod.rs", "symbols": ["escape_xml"]}]}
{"id": "C92", "title": "The whitespace in front of a macro call is kept by some macros and means nothing to the others", "statement": "Expanding (%ifdef ...), %include, %embed, %markdown, %date, %timestamp, %format, %raw, %string, %sort, %join, %concat, %list and %lambda gives nodes of which the first has exactly the whitespace in front of the call; written with other whitespace in front, the call gives the same nodes with that whitespace in front of the first. All other macros, built in or defined by the user, give the same nodes whatever the whitespace in front of the call. %apply does as the macro it calls; %map puts the whitespace in front of the result for each element if the macro it calls keeps it. In no case does the whitespace in front of a call change anything inside the nodes it gives, the definitions, the log, or whether and where there is an error.", "quantifier": "all macro calls with all arguments, all whitespace in front of them, all states of definitions, any functions given to %apply and %map, and all worlds of files", "why_tests_cant": "ranges over all programs a macro may call; that whitespace has no further effect is an absence, also through the :key function of %sort, which is given the same call", "anchors": [{"file": "crates/seam/src/parse/expander.rs", "symbols": ["Expander::expand_invocation", "Expander::expand_ifdef_macro", "Expander::expand_include_macro", "Expander::expand_list_macro", "Expander::expand_sort_macro", "Expander::expand_map_macro", "Expander::expand_apply_macro", "Expander::apply_macro"]}, {"file": "crates/seam/src/parse/parser.rs", "symbols": ["ParseNode::set_leading_whitespace", "ParseNode::leading_whitespace"]}]}
{"id": "C93", "title": "Renaming a macro consistently changes nothing", "statement": "If in a program a macro, variable or parameter is given another name that is not used yet, everywhere it is defined, called, passed to %apply, %map or %filter, asked for by %ifdef or used as a parameter or keyword, the program gives the same document, logs the same lines, and fails in the same way at the same place if it fails. More generally, with two names exchanged everywhere, the outcome and all later definitions are the same with the names exchanged. The names must not be built in, not be the word in, and be used only as names: not turned into text or made from text (%string, %symbol, %concat and the like applied to them, %namespace, variables from data).", "quantifier": "all programs, all pairs of names, all states of definitions, all worlds of files, all runs in which the names are used only as names", "why_tests_cant": "ranges over all programs and all ways to nest and pass on macros; a test renames one macro in one program", "anchors": [{"file": "crates/seam/src/parse/expander.rs", "symbols": ["Macro", "Expander::expand_node", "Expander::expand_macro", "Expander::expand_invocation", "Expander::insert_variable", "Expander::get_variable", "Expander::has_variable", "Expander::expand_define_macro", "Expander::expand_ifdef_macro", "Expander::expand_apply_macro", "Expander::expand_map_macro", "Expander::expand_filter_macro"]}]}
{"id": "C94", "title": "Reading the style sheet back gives the rules", "statement": "A reader that cuts a style sheet at braces and semicolons (outside of brackets and quotes) finds exactly the rules of the document, in order: for each rule its selectors with blanks between them and a declaration of each property with its value, for an @-rule on one line its text, and for an @-rule with nested rules its arguments and the rules in it. So two documents with the same style sheet have the same rules. Words with white space are quoted and may contain anything; in other words brackets and quotes must be closed, and semicolons and braces inside of them.", "quantifier": "all trees of rules, nested to any depth, with any values, all ways to quote that leave no quote open", "why_tests_cant": "needs the inverse of the generator on every tree; a test compares one output with one expected text", "anchors": [{"file": "crates/seam/src/assemble/css.rs", "symbols": ["CSSFormatter::generate", "CSSFormatter::document", "generate_css_rule", "generate_special_selector", "css_value", "convert_value"]}]}
{"id": "C95", "title": "Files that include each other in a circle, and macros that are sure to use themselves, never give a document", "statement": "If a document cannot be expanded without including one of some files, and none of these files can be expanded without including one of them again, its expansion gives no document, whatever is defined: the inclusion may stand at any depth in lists, attribute values and arguments of macros, in the value of a definition, the items of a loop, or in both branches of a condition. The same holds for macros and variables as long as they are not redefined in another way. The circle is not reported: a file that consists of nothing but its own inclusion has no outcome at all. A guard helps: a file that consists of (%ifdef guard one other) is expanded to its first branch once the guard is defined.", "quantifier": "all documents, all sets of files and macros, all states, all depths of nesting and lengths of the circle", "why_tests_cant": "says that no run succeeds, over unboundedly many documents and circles; a test of a run that does not end never ends", "anchors": [{"file": "crates/seam/src/parse/expander.rs", "symbols": ["Expander::expand_include_macro", "Expander::expand_node", "Expander::expand_nodes", "Expander::expand_macro", "Expander::expand_invocation", "Expander::expand_ifdef_macro", "Expander::expand_define_macro", "Expander::expand_match_macro", "Expander::expand_for_macro", "Expander::expand_namespace_macro"]}]}
{"id": "C96", "title": "The list macros obey the expected laws together", "statement": "%sort does not change a list that is in order already, so that sorting twice is sorting once; if no two different values rank the same, the result does not depend on the order in which the values were given, and :order descending gives the values of the ascending order backwards. Element i of (%reverse l) is element n-1-i of l, up to the whitespace in front. (%concat (%concat as...) bs...) is (%concat as... bs...), and (%join sep (%join sep as...) bs...) is (%join sep as... bs...) if as is not empty. (%list (%splat l)) has the elements of l, and (%strip (%strip args...)) is (%strip args...). (%for x in (ys...) template...) gives the same nodes as (%map (%lambda x template...) ys...), for bodies that are templates; a body that defines something may tell them apart, since one item of %for sees the definitions made for the items before. A %for over two lists, one after the other, does the same (result, error, log, definitions) as the %for over the first followed by the %for over the second, if the body defines nothing; with a body that defines something it need not.", "quantifier": "all lists, values, separators, templates and states", "why_tests_cant": "equations between different programs over lists of every length; a test compares them on a few lists", "anchors": [{"file": "crates/seam/src/parse/expander.rs", "symbols": ["Expander::expand_sort_macro", "Expander::expand_reverse_macro", "Expander::expand_get_macro", "Expander::expand_concat_macro", "Expander::expand_join_macro", "Expander::expand_list_macro", "Expander::expand_splat_macro", "Expander::expand_strip_macro", "Expander::expand_for_macro", "Expander::expand_map_macro", "Expander::expand_lambda_macro"]}]}
{"id": "C97", "title": "An expansion depends on finitely many files, patterns and environment variables, the ones it asks for", "statement": "Take any expansion that finishes, with a result, an error or a crash. There are finitely many files, environment variables and glob patterns such that in every other world in which these read the same, the expansion goes the same way: same result or error, same log, same definitions. In particular, if the macros %include, %embed, %glob and %os/env are only called with certain first arguments, then only the answers to these calls matter: which file the search along the include directories finds and what its text is, which paths the pattern matches, which value the variable has. The clock, the time zone and the linked libraries are taken to be the same in both worlds.", "quantifier": "all documents or lists of nodes, all states (definitions, file counters, hash orders), all worlds (files, environment variables, answers to glob patterns), all finished runs of any length", "why_tests_cant": "a test runs a document in one or two worlds; the claim is about all worlds that agree on what the run asks for, and that this is a finite set for every run", "anchors": [{"file": "crates/seam/src/parse/expander.rs", "symbols": ["Expander::expand_include_macro", "Expander::expand_embed_macro", "Expander::expand_glob_macro", "Expander::expand_os_env_macro", "Expander::expand_invocation"]}]}
{"id": "C98", "title": "An expansion depends on finitely many definitions, the ones it looks up", "statement": "A use of a variable %x looks up x, a call of a macro that is not built in looks up its name, and %ifdef looks up its first argument. Take any expansion that finishes, with a result, an error or a crash, and calls no %namespace (which exports every definition there is). It looks up finitely many names. From every other state with the same definitions for these names it goes the same way: same outcome, same log lines, and there is one set of names, the same for all these states, such that the names in the set get the same meaning and all other names keep what they had. So a function definition that is not looked up can be deleted without any change but to that name, and two programs can be run in either order if neither looks up what the other defines, they do not define the same name, and they log nothing, include nothing and collect no keyword arguments; in particular two definitions of different functions can be written in either order even if one calls the other.", "quantifier": "all documents or lists of nodes, all states (definitions, logs, file counters, hash orders), all sets of names, all finished runs of any length", "why_tests_cant": "a test runs a document with one set of definitions; the claim is about all sets that agree on what the run looks up", "anchors": [{"file": "crates/seam/src/parse/expander.rs", "symbols": ["Expander::get_variable", "Expander::has_variable", "Expander::insert_variable", "Expander::expand_invocation", "Expander::expand_macro", "Expander::expand_ifdef_macro", "Expander::expand_node", "Expander::expand_namespace_macro"]}]}
{"id": "C99", "title": "Variables and %get agree on the data of YAML, JSON and TOML documents", "statement": "After (%yaml text), (%json text) or (%toml text) every path of keys and indices into the document, such as a/b/0, is the name of a variable, and (%get \"a/b/0\" (%yaml text)) follows the same path in the list that the macro gives. For every path into the document both give the node for the same part of it, up to the whitespace in front, whatever the depth and size of the document. Excepted are documents in which a table has the same key twice, a key with the separator in it, or a key that is a number below the number of entries; there the two can differ.", "quantifier": "all documents (trees of tables, arrays and scalars of any size), all paths into them, all states", "why_tests_cant": "documents and paths are unbounded; a test looks at a few paths of one document", "anchors": [{"file": "crates/seam/src/parse/expander.rs", "symbols": ["Expander::expand_yaml_macro", "Expander::expand_toml_macro", "Expander::expand_get_macro", "Expander::insert_variable", "Expander::get_variable"]}]}
{"id": "C100", "title": "Including a file is the same as pasting its text", "statement": "Replacing a line with a call of %include by the contents of the file it names (at the top level of a program, in elements, or as the value of an attribute; also for the files that this file includes in turn) does not change the outcome of the program, up to blanks: the same output in every format, the same definitions and log, or the same error at the corresponding place, which is a place of the file if it is one of the pasted text. And the other way around. Exceptions: the program must not call %lambda, %string or %raw, which look at the layout; HTML output without pre elements; and in the arguments of a macro call the file counts as one argument.", "quantifier": "all texts before and after the call, all files that can be read as programs, all worlds of files", "why_tests_cant": "ranges over all programs and all files, and over two programs at a time; definitions and errors have to agree, too", "anchors": [{"file": "crates/seam/src/parse/expander.rs", "symbols": ["Expander::expand_include_macro", "Expander::expand_nodes", "Expander::expand_node", "Expander::expand_invocation"]}, {"file": "crates/seam/src/parse/parser.rs", "symbols": ["Parser::parse", "Parser::parse_list"]}, {"file": "crates/seam/src/parse/lexer.rs", "symbols": ["Lexer::consume", "Lexer::consume_whitespace"]}]}
{"id": "C101", "title": "HTML and XML output agree for ordinary elements", "statement": "Let a tree contain no raw text, and only elements whose names are in lower case, start neither with `!` nor with `?`, and are neither void elements of HTML nor `pre`, `textarea`, `title`, `style` or `script` (what stands inside `svg` and `math` does not matter). If every attribute is preceded by nothing or a single space, the HTML and the XML written for it are the same characters, or both are refused because of the same place in the source; with other blanks before attributes they are the same up to blanks. In particular a page with a top-level `html` is the same document in both forms but for its first line. Each exception is necessary: there is a tree showing the difference.", "quantifier": "all trees, all element and attribute names, any nesting", "why_tests_cant": "two separately written generators are compared on every tree, of any shape and depth", "anchors": [{"file": "crates/seam/src/assemble/html.rs", "symbols": ["HTMLFormatter::generate_html_node", "HTMLFormatter::document"]}, {"file": "crates/seam/src/assemble/xml.rs", "symbols": ["XMLFormatter::generate_xml_node", "XMLFormatter::document"]}]}
{"id": "C102", "title": "The stack needed for a document grows with its nesting, not with its length", "statement": "Reading, expanding and writing are recursive, and a stack overflow aborts the process without an error message. Count the calls for nodes that are active at the same time: a source that is read needs exactly as many as its tree is deep (an atom is one deep, a list one more than its deepest element, an attribute one more than its value); a source that is refused needs at most one more than the parentheses and keywords that are open at any token; the expansion of a tree without macros needs exactly its depth; and writing a tree as text, S-expressions, XML, HTML or CSS needs at most its depth. With that many levels every outcome is the one without a bound, whatever the number of nodes; with fewer it is the same or the process aborts. No fixed stack suffices for every source: n+1 opening and n+1 closing parentheses, or n keywords in a row, need more than n levels.", "quantifier": "all sources, all trees of any size and depth, all stack sizes", "why_tests_cant": "ranges over all lengths and depths; a test that does not overflow says nothing about longer documents, and one that does aborts the test process", "anchors": [{"file": "crates/seam/src/parse/parser.rs", "symbols": ["Parser::parse", "Parser::parse_expr", "Parser::parse_list", "Parser::parse_keyword"]}, {"file": "crates/seam/src/parse/expander.rs", "symbols": ["Expander::expand_node", "Expander::expand_nodes"]}, {"file": "crates/seam/src/assemble/text.rs", "symbols": ["PlainTextFormatter::generate_node"]}, {"file": "crates/seam/src/assemble/sexp.rs", "symbols": ["SExpFormatter::generate_node"]}, {"file": "crates/seam/src/assemble/xml.rs", "symbols": ["XMLFormatter::generate_xml_node"]}, {"file": "crates/seam/src/assemble/html.rs", "symbols": ["HTMLFormatter::generate_html_node"]}, {"file": "crates/seam/src/assemble/css.rs", "symbols": ["CSSFormatter::generate", "generate_css_rule", "generate_special_selector", "convert_value"]}]}
{"id": "C103", "title": "Without macros the output is at most a constant factor longer than the source", "statement": "A source that is read and in which no symbol starts with `%` is written in at most as many bytes as it has itself as plain text, in at most six times as many as S-expressions or XML, in at most eleven times as many as HTML or CSS, and a whole document has at most 120 bytes more. So memory for the output of untrusted markup is bounded by the size of the upload. With macros there is no such bound: for every n there is a program of 27 + 5n bytes that is expanded without error to a tree whose plain text has at least 2^n bytes.", "quantifier": "all sources, all formats, all n", "why_tests_cant": "ranges over all sources; a blow-up in one nesting of elements, functions or operators is not seen on others", "anchors": [{"file": "crates/seam/src/assemble/text.rs", "symbols": ["PlainTextFormatter::generate"]}, {"file": "crates/seam/src/assemble/sexp.rs", "symbols": ["SExpFormatter::generate"]}, {"file": "crates/seam/src/assemble/xml.rs", "symbols": ["XMLFormatter::generate", "XMLFormatter::document"]}, {"file": "crates/seam/src/assemble/html.rs", "symbols": ["HTMLFormatter::generate", "HTMLFormatter::document"]}, {"file": "crates/seam/src/assemble/css.rs", "symbols": ["CSSFormatter::generate", "convert_value"]}, {"file": "crates/seam/src/parse/expander.rs", "symbols": ["Expander::expand_macro", "Expander::expand_define_macro"]}, {"file": "crates/seam/src/assemble/mod.rs", "symbols": ["escape_xml"]}]}
{"id": "C104", "title": "Data only becomes text: names, keywords and raw markup come from the program", "statement": "Every name (symbol), every keyword and all raw text in the tree that a program is expanded to, and in the macros it defines, stands in the program itself or in a file it can include, or is a key (or a truth value or date) of TOML data or a key or index of YAML data it reads, or is made by %raw, %markdown, %symbol or %lambda; and each of these only if the program can call the macro in question, that is names it with a `%`, or names it without and can call %apply, %map, %filter or %sort. So for a source that uses none of %raw, %markdown, %symbol, %include, %yaml and %toml, no text from environment variables, embedded files, dates or file names becomes anything else than text: all keywords and names of the result stand in the source (apart from the names that %lambda gives), and there is no raw text. The names of elements and attributes that a reader finds in the HTML or XML output all have such an origin.", "quantifier": "all programs, states, environments and files, all HTML and XML trees of ordinary elements", "why_tests_cant": "injection through data needs the one path on which a text turns into a name or into raw markup; tests show that the tested paths do not", "anchors": [{"file": "crates/seam/src/parse/expander.rs", "symbols": ["Expander::expand_node", "Expander::expand_raw_macro", "Expander::expand_symbol_macro", "Expander::expand_apply_macro", "Expander::expand_map_macro", "Expander::expand_yaml", "Expander::expand_toml", "Expander::expand_markdown_macro", "Expander::expand_lambda_macro"]}, {"file": "crates/seam/src/assemble/html.rs", "symbols": ["HTMLFormatter::generate"]}, {"file": "crates/seam/src/assemble/xml.rs", "symbols": ["XMLFormatter::generate"]}]}
{"id": "C105", "title": "Windows line ends make no difference", "statement": "A source file in which every newline is preceded by a carriage return is read like the file without: as the same tree up to carriage returns between the nodes, every node at the same line and column, or with the same error at the same line and column. It is expanded alike (if %lambda, %string and %raw, which look at positions and blanks, are not called), and the output for every target, as fragment or document, is the same up to carriage returns (in HTML if there is no pre element); errors are printed with the same line, marks, place and message, and %log prints the same. The one exception are newlines inside tokens: in a string over several lines the carriage returns are part of the text.", "quantifier": "all sources whose closed tokens stand on one line each, with comments anywhere, read or refused; all programs that do not call the three macros; all targets", "why_tests_cant": "carriage returns can stand at every place where a newline can; a column or a comment that is off by one shows only for one of these places", "anchors": [{"file": "crates/seam/src/parse/lexer.rs", "symbols": ["Lexer::consume", "Lexer::consume_whitespace", "is_whitespace"]}, {"file": "crates/seam/src/parse/parser.rs", "symbols": ["Parser::parse"]}, {"file": "crates/seam/src/parse/expander.rs", "symbols": ["Expander::expand_nodes"]}, {"file": "crates/seam/src/assemble/html.rs", "symbols": ["HTMLFormatter::document"]}, {"file": "crates/seam/src/assemble/xml.rs", "symbols": ["XMLFormatter::document"]}, {"file": "crates/seam/src/assemble/css.rs", "symbols": ["CSSFormatter::document"]}, {"file": "crates/seam/src/parse/tokens.rs", "symbols": ["Site::line_column"]}]}
{"id": "C106", "title": "There is a program for every document", "statement": "For every HTML document made of texts and elements, with any characters in the texts and any attribute values (quotes, angle brackets, ampersands and backslashes included), there is a source text for which seam prints a document that a reader (C91) takes for exactly that one: the same elements, attributes, values and texts, without a blank more or less. The same holds for XML, and every text can be printed as text. When whole documents are asked for, the reader finds the same with the doctype and a line break in front if there is an html element at the top, in the body of a page with an empty head if there is no html, head or body element at the top or one level below, and in XML with the XML declaration and a line break in front. For every style sheet made of rules with any selectors and any values (with closed brackets and quotes), of @-rules on one line and of @-rules around further rules there is a source text for which seam prints a sheet that a reader (C94) takes for exactly these rules.", "quantifier": "all documents: lists of characters and elements, with names that are words and do not start with %, void elements empty; in HTML without pre, title, textarea, style, script, math, svg; all style sheets of rules with at least one declaration and nested @-rules with at least one rule; all environments whose unescaping takes backslash-quote and backslash-backslash for a quote and a backslash", "why_tests_cant": "expressiveness is a claim about all documents and asks for a source for each of them; a test shows one document that can be written", "anchors": [{"file": "crates/seam/src/parse/parser.rs", "symbols": ["Parser::parse"]}, {"file": "crates/seam/src/parse/lexer.rs", "symbols": ["Lexer::consume_string"]}, {"file": "crates/seam/src/parse/expander.rs", "symbols": ["Expander::expand_node"]}, {"file": "crates/seam/src/assemble/html.rs", "symbols": ["HTMLFormatter::generate", "HTMLFormatter::document"]}, {"file": "crates/seam/src/assemble/xml.rs", "symbols": ["XMLFormatter::generate", "XMLFormatter::document"]}, {"file": "crates/seam/src/assemble/css.rs", "symbols": ["CSSFormatter::generate", "CSSFormatter::document"]}, {"file": "crates/seam/src/assemble/mod.rs", "symbols": ["escape_xml"]}]}
{"id": "C107", "title": "Reading takes a number of steps proportional to the length of the source", "statement": "For every source on which the reader returns, whether it accepts it or reports an error, the steps that the lexer and parser make (bytes passed over, and looks at the next character, all lookahead counted as often as it is repeated) are at most twenty for each byte of the source and twenty more. Nesting, long chains of keywords, long comments, unclosed strings and lists do not change this. A source that is accepted has been read to its last byte.", "quantifier": "all sources, accepted or refused, except those on which the reader does not return (C06); all unescape functions", "why_tests_cant": "the parser looks ahead at every level and reads tokens again; that this never multiplies with the depth is a claim about all nestings, and a measurement only shows some of them", "anchors": [{"file": "crates/seam/src/parse/lexer.rs", "symbols": ["Lexer::consume", "Lexer::peek", "Lexer::eof", "Lexer::consume_whitespace"]}, {"file": "crates/seam/src/parse/parser.rs", "symbols": ["Parser::parse", "Parser::parse_expr", "Parser::parse_keyword", "Parser::parse_list"]}]}
{"id": "C108", "title": "The macro language can compute everything", "statement": "For every machine with two counters (whose instructions add one to a counter, take one from it or jump if it is zero, and halt) and all starting values there is a document, given explicitly, that seam prints if and only if the machine halts, and then it prints the number in the first counter; seam reports an error if and only if the machine jumps to where there is no instruction; and seam never finishes if and only if the machine never stops. So whatever can be computed can be computed by a document, and whether seam finishes is as hard to tell as whether a machine halts.", "quantifier": "all two-counter machines, of any length, with any starting values; all environments, orders of hash maps, paths; no bound on the number of steps", "why_tests_cant": "it is a claim about infinitely many machines and runs of any length, and one direction is about runs that never end", "anchors": [{"file": "crates/seam/src/parse/expander.rs", "symbols": ["Expander::expand_macro", "Expander::expand_invocation", "Expander::expand_match_macro", "Expander::expand_define_macro", "Expander::expand_list_macro", "Expander::apply_macro", "Expander::bind", "Expander::bind_list"]}, {"file": "crates/seam/src/parse/parser.rs", "symbols": ["Parser::parse"]}, {"file": "crates/seam/src/assemble/sexp.rs", "symbols": ["SExpFormatter::document"]}]}
{"id": "C109", "title": "Every computable function has a document, and no program can check documents for endless loops or errors", "statement": "For every partial recursive function on numbers there is a document with a place for the argument (written in brackets) such that seam prints the value where the function is defined, and does not finish where it is not. Consequently no program can decide, for every document, whether seam finishes on it, whether seam reports an error for it, or whether seam prints () for it: an exact checker that only reads the document cannot exist.", "quantifier": "all partial recursive functions and all arguments; all environments, orders of hash maps and paths; all programs that could be such a checker", "why_tests_cant": "it is a claim about all functions and, for the checkers, a claim that something does not exist", "anchors": [{"file": "crates/seam/src/parse/expander.rs", "symbols": ["Expander::expand_macro", "Expander::expand_invocation", "Expander::expand_match_macro", "Expander::expand_define_macro", "Expander::expand_list_macro", "Expander::apply_macro", "Expander::bind", "Expander::bind_list"]}, {"file": "crates/seam/src/parse/parser.rs", "symbols": ["Parser::parse"]}, {"file": "crates/seam/src/assemble/sexp.rs", "symbols": ["SExpFormatter::document"]}]}
{"id": "C110", "title": "A short document without recursion can expand to a huge one", "statement": "For every n there is a document of at most 40(n+1)^2 characters, given explicitly, in which no macro calls itself directly or through others, and which seam prints (as HTML, XML, text or s-expressions, without a wrapping document in the first two cases) with at least 2^(2^n) characters: the text printed is an element with two elements inside, each with two elements inside, and so on 2^n times. So the guarantee that expansion finishes (C74) bounds neither the time nor the memory in a practical way.", "quantifier": "all n; all environments, orders of hash maps, paths and quoting functions", "why_tests_cant": "the outputs are longer than any computer can hold from n = 6 on, where the source has 249 characters", "anchors": [{"file": "crates/seam/src/parse/expander.rs", "symbols": ["Expander::expand_macro", "Expander::expand_invocation", "Expander::expand_define_macro", "Expander::apply_macro", "Expander::bind_list"]}, {"file": "crates/seam/src/parse/parser.rs", "symbols": ["Parser::parse"]}, {"file": "crates/seam/src/assemble/html.rs", "symbols": ["HTMLFormatter::generate"]}, {"file": "crates/seam/src/assemble/xml.rs", "symbols": ["XMLFormatter::generate"]}, {"file": "crates/seam/src/assemble/text.rs", "symbols": ["PlainTextFormatter::generate"]}, {"file": "crates/seam/src/assemble/sexp.rs", "symbols": ["SExpFormatter::document"]}]}
{"id": "C111", "title": "Loops run on a fixed stack, recursion does not", "statement": "Expanding is recursive, and a stack overflow aborts the process. Count the calls for nodes and for macros that are active at the same time. Nodes one after the other need no more than the most demanding of them; %for, %map and %filter need exactly two levels more than the most demanding of their rounds (and their argument list), however many items there are, so (%for x in (a ... a) %x) runs on four levels for a list of any length; a call of a user macro needs exactly two levels more than its arguments and its body. There is no such bound for macros that call themselves: the document for a two-counter machine that makes m steps (C108) overflows a stack of m levels, and for every number of levels there is a document that seam prints, as (), on a larger stack and that overflows one of this size.", "quantifier": "all numbers of levels, bodies, item lists of any length, states, environments; for the lower bound all two-counter machines", "why_tests_cant": "a test runs loops of some lengths on a stack of some size; that no length matters, and that no size is enough for recursion, are claims about all of them", "anchors": [{"file": "crates/seam/src/parse/expander.rs", "symbols": ["Expander::expand_node", "Expander::expand_nodes", "Expander::expand_invocation", "Expander::expand_for_macro", "Expander::expand_map_macro", "Expander::expand_filter_macro", "Expander::expand_macro", "Expander::apply_macro"]}]}
{"id": "C112", "title": "A macro means the same wherever it is called", "statement": "A call of a macro expands the body with the definitions that are in force at the call, except that the parameters stand for the arguments, and afterwards the definitions are as before the call. So a macro called with the same values in two places gives the same result and logs the same lines, whatever was defined in between, as long as the names its body looks up (other than its parameters) were not redefined; in particular a macro that uses only its parameters gives the same result everywhere. (Without that condition it is false: a name used in the body can be caught by a parameter of the caller.)", "quantifier": "Every macro whose parameters are names, every pair of places (states) in which it is called with the same values, every outcome of the body.", "why_tests_cant": "Macros are called in unboundedly many places under unboundedly many different sets of definitions; a test calls one in a few.", "anchors": [{"file": "crates/seam/src/parse/expander.rs", "symbols": ["Expander::apply_macro", "Expander::expand_macro", "Expander::bind_list"]}]}
{"id": "C113", "title": "Errors far to the right can be printed up to the limit on format widths", "statement": "With a Rust version that limits format widths (to 65535; the project asks for the current nightly version, which does), an error can be printed exactly if the text to its left on the line, the text it marks and the framed line number are at most that many columns wide, and then the printed text is the same as without a limit. So every error can be printed if the source files are at most that wide in total. For an error further to the right, as in a source with a mistake behind 65536 blanks, printing panics and the user does not learn what is wrong.", "quantifier": "Every source, every set of files and macros, every error, every limit, every way of measuring columns that gives printable ASCII characters one column.", "why_tests_cant": "No test has lines of 65536 columns, and which errors are affected depends on positions in all sources.", "anchors": [{"file": "crates/seam/src/parse/lexer.rs", "symbols": ["LexError"]}, {"file": "crates/seam/src/parse/parser.rs", "symbols": ["ParseError"]}, {"file": "crates/seam/src/parse/expander.rs", "symbols": ["ExpansionError"]}, {"file": "crates/seam/src/assemble/mod.rs", "symbols": ["GenerationError"]}, {"file": "crates/seam/src/parse/tokens.rs", "symbols": ["Site::line_column", "Site::width"]}]}
{"id": "C114", "title": "A program that is cut off or lacks a parenthesis is not accepted", "statement": "If a program is accepted, then no beginning of it that ends inside a list is accepted, wherever it is cut, also inside of words, strings and comments; nor is one that ends inside a string literal (except right behind the first two of three opening quotes, which is an empty string), or after the beginning of a keyword and before its value. And the program is not accepted any more when one of the parentheses of a list is overwritten with a blank. So a file that was only partly written or copied does not silently become a shorter document, unless it was cut between the expressions on the outermost level or inside a word there.", "quantifier": "Every accepted program, every list, string and keyword in it, every place to cut inside, every blank character; whatever escapes the reader takes as valid.", "why_tests_cant": "The places to cut are all characters of all programs, including those inside of escapes, of the quotes of triple-quoted strings and of comments.", "anchors": [{"file": "crates/seam/src/parse/lexer.rs", "symbols": ["Lexer::consume"]}, {"file": "crates/seam/src/parse/parser.rs", "symbols": ["Parser::parse", "Parser::parse_list"]}]}
{"id": "C115", "title": "Include guards work", "statement": "Let a file be written (%ifdef guard \"skip\" (%do (%define guard value) content)). Including it where the guard is not defined has the outcome of its content, in a state in which the guard is defined and nothing else has changed. Including it where the guard is defined gives the text skip and does nothing else. So once an inclusion has succeeded, any later one in the same scope adds only that text, whatever the content of the file is and whatever is expanded in between. Guarded files may include each other in circles: if their contents are macro-free nodes and inclusions of these files, every document of this kind is expanded to an end without an error, and each file is taken once, at the place where it is first included. (The guard is a definition: inclusions inside a loop body or a macro do not count afterwards.)", "quantifier": "all guarded files, contents, guards and texts; all calls of %include for them; all states; for circles all finite families of guarded files and all documents of macro-free nodes, lists and inclusions of them", "why_tests_cant": "that circles end is a claim about every family of files and every way they include each other; a test runs one family", "anchors": [{"file": "crates/seam/src/parse/expander.rs", "symbols": ["Expander::expand_include_macro", "Expander::expand_ifdef_macro", "Expander::expand_do_macro", "Expander::expand_define_macro"]}]}
{"id": "C116", "title": "Parts of a program that do the same can be exchanged", "statement": "Call two sequences of nodes equivalent if from every state they have the same outcome (result, error, crash or none) and leave the same state. Exchanging any number of parts of a program for equivalent ones, in places where nodes are expanded, does not change the outcome of the program or what it prints. These places are, nested in any way: lists that are no macro calls, values of keywords, arguments of macros that expand their arguments (built-in ones, %namespace, and the user's), values of variables, bodies of macros and of %lambda, branches of %ifdef, the list and the body of %for, the value, the patterns and the clause bodies of %match. In particular (%do a b) can be replaced by a b in all of these places, (%strip (%strip a)) by (%strip a), (%splat (%list a)), written on one line, by (%strip a), (%apply f a) by (%f a) if a is free of macros, the clauses of %match after a clause whose pattern is a name by any others, and a part that has the same macro-free result from every state and changes nothing by that result. If the program has a result, it is enough that the parts that are put in do the same whenever the parts that are taken out have a result: an error that does not happen need not be kept; for example (%concat (%concat a) b) can then be replaced by (%concat a b), (%reverse (%reverse a)) by a, and (%concat a) by (%join \"\" a). It is also enough that the parts do the same in the states in which they are expanded in the run of the program; for example, if x is defined whenever (%ifdef x a b) is expanded, then b can be replaced by anything, or left out, and if x is not defined then a can be replaced by anything. The name in the condition of %ifdef is not such a place.", "quantifier": "all programs, all choices of parts and replacements, all states, and all states in which bodies of macros were exchanged; all file systems and other outside answers", "why_tests_cant": "equivalence is a claim about every state, and the places are nested without a bound; macros keep bodies and expand them later in other states, so that comparing a few programs before and after says nothing about the rest", "anchors": [{"file": "crates/seam/src/parse/expander.rs", "symbols": ["Expander::expand_node", "Expander::expand_nodes", "Expander::expand_invocation", "Expander::expand_macro", "Expander::expand_define_macro", "Expander::expand_lambda_macro", "Expander::expand_ifdef_macro", "Expander::expand_for_macro", "Expander::expand_match_macro", "Expander::expand_namespace_macro"]}]}
{"id": "C117", "title": "Named constants can be written out, and parts can be worked out beforehand", "statement": "If x has the same macro-free value whenever %x is expanded in a run of a program, also in bodies of macros and in included files, then any number of these uses can be replaced by the value (with the whitespace in front of the use) without changing the outcome of the program or what it prints; and if nothing looks up x after that, the definition can be dropped. More generally, a part that, whenever it is expanded in a run, has one and the same macro-free result and changes nothing can be replaced by that result, in all places where C116 allows exchanging. The condition is needed: in (%define x 1) (%define (f x) %x) (%f 2) the use means the parameter.", "quantifier": "all programs that finish (with a result, an error or a crash), all names, values and choices of uses, all parts and results; all states and outside answers", "why_tests_cant": "whether the value is the same at each use depends on the whole run; the uses may be in stored bodies that are expanded later in other states, at any depth", "anchors": [{"file": "crates/seam/src/parse/expander.rs", "symbols": ["Expander::expand_node", "Expander::expand_nodes", "Expander::expand_macro", "Expander::expand_define_macro", "Expander::expand_invocation"]}]}
{"id": "C118", "title": "Printing lines for debugging does not change the document", "statement": "Call a part of a program one that only prints if from every state it has the empty result and does nothing but print some lines (while the program is expanded, to the standard error stream). Taking any number of such parts out of a program, or putting them in, in any place where nodes are expanded (the places of C116, nested in any way, also bodies of macros), does not change the outcome: the same nodes, the same error, the same crash, or neither program comes to an end. The names that are defined at the end and their parameters are the same, and the program without the parts prints some of the lines that the other one prints, in the same order. Calls of %log with words, strings and numbers are such parts. A call that uses a variable need not be: (%log %x) is an error if x is not defined. But if a part only prints whenever it is expanded in a run of the program, as (%log %x) does where x is a literal, it can be taken out of this program in the same way; and if the program has a result, so can all calls of %log whose arguments, whenever they have a result, change nothing.", "quantifier": "all programs, all choices of parts and places; all states and outside answers", "why_tests_cant": "a %log call may sit in a body that is expanded many times, at any depth and in any state; that it has no effect on what follows is a claim about all of these runs", "anchors": [{"file": "crates/seam/src/parse/expander.rs", "symbols": ["Expander::expand_log_macro", "Expander::expand_node", "Expander::expand_nodes", "Expander::expand_macro"]}]}
