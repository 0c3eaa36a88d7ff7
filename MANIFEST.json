{
 "claims": [
  {
   "property": "C01",
   "status": "proved",
   "theorems": [
    "Seam.C01_site_selects_own_text",
    "Seam.C01_close_selects_paren"
   ],
   "note": ""
  },
  {
   "property": "C02",
   "status": "proved",
   "theorems": [
    "Seam.C02_columns_from_line_start"
   ],
   "note": ""
  },
  {
   "property": "C03",
   "status": "partial",
   "theorems": [
    "Seam.C03_line_numbers_false",
    "Seam.C03_line_numbers_partial",
    "Seam.C03_line_exact",
    "Seam.C03_right_exactly"
   ],
   "note": "False as stated: newlines inside tokens are counted twice (C03_line_numbers_false is a witness). Proved for tokens before which (and in which) no token contains a newline. C03_line_exact gives the reported line in every case (one more than the newlines before the token, plus the newlines inside earlier tokens that are counted twice), and C03_right_exactly says exactly when it is right."
  },
  {
   "property": "C04",
   "status": "proved",
   "theorems": [
    "Seam.C04_leading_whitespace",
    "Seam.C04_leading_whitespace_close",
    "Seam.C04_lead_is_blank"
   ],
   "note": ""
  },
  {
   "property": "C05",
   "status": "proved",
   "theorems": [
    "Seam.C05_lossless"
   ],
   "note": ""
  },
  {
   "property": "C06",
   "status": "partial",
   "theorems": [
    "Seam.C06_terminates_false",
    "Seam.C06_terminates_partial",
    "Seam.C06_diverges_exactly"
   ],
   "note": "False as stated: a source ending in an unfinished identifier escape makes the lexer loop (C06_terminates_false). Proved for every source that does not end in a backslash, and C06_diverges_exactly characterises non-termination exactly."
  },
  {
   "property": "C07",
   "status": "proved",
   "theorems": [
    "Seam.C07_never_panics"
   ],
   "note": ""
  },
  {
   "property": "C08",
   "status": "proved",
   "theorems": [
    "Seam.C08_comment_is_newline"
   ],
   "note": ""
  },
  {
   "property": "C09",
   "status": "proved",
   "theorems": [
    "Seam.C09_accepts_exactly_grammar",
    "Seam.C09_tokens_unique",
    "Seam.C09_tree_unique"
   ],
   "note": ""
  },
  {
   "property": "C10",
   "status": "proved",
   "theorems": [
    "Seam.C10_error_places",
    "Seam.C10_errors_exactly",
    "Seam.C10_unclosed_string_site"
   ],
   "note": ""
  },
  {
   "property": "C11",
   "status": "partial",
   "theorems": [
    "Seam.C11_escaped_backslash_false",
    "Seam.C11_symbol_escapes_partial",
    "Seam.C11_exactly",
    "Seam.C11_plain_symbol"
   ],
   "note": "False for escaped backslashes (C11_escaped_backslash_false: they vanish). Proved for all other escapes. C11_exactly gives the value in every case, and says exactly when it is right."
  },
  {
   "property": "C12",
   "status": "proved",
   "theorems": [
    "Seam.C12_string_ends_at_quote",
    "Seam.C12_closing_quote_found",
    "Seam.C12_plain_string"
   ],
   "note": "The unescaping of string contents is the external crate descape, a parameter; assumed to leave backslash-free text unchanged."
  },
  {
   "property": "C13",
   "status": "proved",
   "theorems": [
    "Seam.C13_sexp_reproduces_source",
    "Seam.C13_display_reproduces_source"
   ],
   "note": ""
  },
  {
   "property": "C14",
   "status": "proved",
   "theorems": [
    "Seam.C14_sexp_reads_back"
   ],
   "note": ""
  },
  {
   "property": "C15",
   "status": "proved",
   "theorems": [
    "Seam.C15_eq_is_same_value",
    "Seam.C15_equivalence",
    "Seam.C15_hash"
   ],
   "note": ""
  },
  {
   "property": "C16",
   "status": "proved",
   "theorems": [
    "Seam.C16_search_first",
    "Seam.C16_search_none",
    "Seam.C16_letters",
    "Seam.C16_lower",
    "Seam.C16_unicode"
   ],
   "note": ""
  },
  {
   "property": "C17",
   "status": "proved",
   "theorems": [
    "Seam.C17_escapes",
    "Seam.C17_no_markup",
    "Seam.C17_decodes_uniquely",
    "Seam.C17_injective",
    "Seam.C17_append",
    "Seam.C17_plain"
   ],
   "note": ""
  },
  {
   "property": "C18",
   "status": "proved",
   "theorems": [
    "Seam.C18_bytes"
   ],
   "note": ""
  },
  {
   "property": "C19",
   "status": "proved",
   "theorems": [
    "Seam.C19_text_is_escaped",
    "Seam.C19_output_shows_tree"
   ],
   "note": ""
  },
  {
   "property": "C20",
   "status": "proved",
   "theorems": [
    "Seam.C20_well_nested"
   ],
   "note": ""
  },
  {
   "property": "C21",
   "status": "proved",
   "theorems": [
    "Seam.C21_void_is_opening_tag",
    "Seam.C21_void_content_error",
    "Seam.C21_other_is_closed"
   ],
   "note": ""
  },
  {
   "property": "C22",
   "status": "partial",
   "theorems": [
    "Seam.C22_attributes_false",
    "Seam.C22_html_attributes_partial",
    "Seam.C22_xml_attributes_partial",
    "Seam.C22_html_exactly",
    "Seam.C22_xml_exactly"
   ],
   "note": "False: attribute values are not escaped (C22_attributes_false). Proved for values without quotes, in HTML and XML. C22_html_exactly and C22_xml_exactly: a browser (which also decodes entities) finds the attributes given exactly if no value contains a double quote or one of the five entities."
  },
  {
   "property": "C23",
   "status": "proved",
   "theorems": [
    "Seam.C23_default",
    "Seam.C23_error",
    "Seam.C23_doctype",
    "Seam.C23_html",
    "Seam.C23_wrapped"
   ],
   "note": "C23_html and C23_wrapped give the exact document in the two cases without a doctype."
  },
  {
   "property": "C24",
   "status": "proved",
   "theorems": [
    "Seam.C24_raw_html",
    "Seam.C24_raw_xml"
   ],
   "note": ""
  },
  {
   "property": "C25",
   "status": "partial",
   "theorems": [
    "Seam.C25_never_panics_false",
    "Seam.C25_xml_partial",
    "Seam.C25_any_html_partial",
    "Seam.C25_html_partial",
    "Seam.C25_pre_elsewhere_false",
    "Seam.C25_xml_exact",
    "Seam.C25_html_exact"
   ],
   "note": "False: an empty symbol as head (C25_never_panics_false), and pre with content from elsewhere (C25_pre_elsewhere_false). Proved for XML for all trees with non-empty heads, for HTML for all trees with non-empty heads, rules inside style and the content of pre standing where it was written, in particular for all trees read from a source without macros. C25_xml_exact and C25_html_exact give the exact condition."
  },
  {
   "property": "C26",
   "status": "partial",
   "theorems": [
    "Seam.C26_pre_text_partial",
    "Seam.C26_pre_exact_partial",
    "Seam.C26_exactly",
    "Seam.C26_pre_exact_false"
   ],
   "note": "False for contents ending in blanks, which are doubled (C26_pre_exact_false). Proved: the text is the source between head and closing parenthesis followed by the blanks before it; exact without such blanks. C26_exactly says exactly when the content is shown as written."
  },
  {
   "property": "C27",
   "status": "proved",
   "theorems": [
    "Seam.C27_default",
    "Seam.C27_declared",
    "Seam.C27_added"
   ],
   "note": ""
  },
  {
   "property": "C28",
   "status": "proved",
   "theorems": [
    "Seam.C28_output_shows_tree",
    "Seam.C28_well_nested"
   ],
   "note": ""
  },
  {
   "property": "C29",
   "status": "proved",
   "theorems": [
    "Seam.C29_rule_shape",
    "Seam.C29_no_properties",
    "Seam.C29_word_value",
    "Seam.C29_call_value"
   ],
   "note": ""
  },
  {
   "property": "C30",
   "status": "partial",
   "theorems": [
    "Seam.C30_balanced_false",
    "Seam.C30_balanced_partial",
    "Seam.C30_balanced_exactly"
   ],
   "note": "False for an at-rule without a rule (C30_balanced_false); proved for trees without at-rules of this kind. C30_balanced_exactly: the braces balance exactly if the stylesheet has no bare @media-like rule with an empty body, and otherwise there are too few opening braces, never too many."
  },
  {
   "property": "C31",
   "status": "partial",
   "theorems": [
    "Seam.C31_never_panics_false",
    "Seam.C31_never_panics_partial",
    "Seam.C31_exact"
   ],
   "note": "False for () and rules whose head is no symbol (C31_never_panics_false); proved for all other trees. C31_exact gives the exact condition."
  },
  {
   "property": "C32",
   "status": "proved",
   "theorems": [
    "Seam.C32_text_is_pieces",
    "Seam.C32_text_of_source"
   ],
   "note": ""
  },
  {
   "property": "C33",
   "status": "proved",
   "theorems": [
    "Seam.C33_macro_free",
    "Seam.C33_document"
   ],
   "note": ""
  },
  {
   "property": "C34",
   "status": "proved",
   "theorems": [
    "Seam.C34_unique",
    "Seam.C34_fuel",
    "Seam.C34_hash_order",
    "Seam.C34_no_kwrest",
    "Seam.C34_no_kwrest_params",
    "Seam.C34_kwrest_order_matters"
   ],
   "note": "The order of hash maps is a parameter of the state; independence is proved for runs in which no && parameter is filled, and C34_kwrest_order_matters shows that this is needed."
  },
  {
   "property": "C35",
   "status": "partial",
   "theorems": [
    "Seam.C35_define",
    "Seam.C35_use",
    "Seam.C35_undefined",
    "Seam.C35_not_variable",
    "Seam.C35_exactly",
    "Seam.C35_variable_partial",
    "Seam.C35_redefine",
    "Seam.C35_variable_false"
   ],
   "note": "False as stated: the stored value is expanded again at each use (C35_variable_false). Proved for values without macros (C35_variable_partial); C35_define and C35_use describe definition and use exactly."
  },
  {
   "property": "C36",
   "status": "proved",
   "theorems": [
    "Seam.C36_user",
    "Seam.C36_match",
    "Seam.C36_match_body",
    "Seam.C36_for",
    "Seam.C36_namespace"
   ],
   "note": ""
  },
  {
   "property": "C37",
   "status": "proved",
   "theorems": [
    "Seam.C37_stays_defined",
    "Seam.C37_later",
    "Seam.C37_log"
   ],
   "note": ""
  },
  {
   "property": "C38",
   "status": "proved",
   "theorems": [
    "Seam.C38_binding_exact",
    "Seam.C38_call_matching",
    "Seam.C38_call_not_matching",
    "Seam.C38_reserved",
    "Seam.C38_call_ok",
    "Seam.C38_call_error"
   ],
   "note": ""
  },
  {
   "property": "C39",
   "status": "proved",
   "theorems": [
    "Seam.C39_rest",
    "Seam.C39_too_few",
    "Seam.C39_too_many",
    "Seam.C39_names_rest",
    "Seam.C39_names_rest_error"
   ],
   "note": ""
  },
  {
   "property": "C40",
   "status": "proved",
   "theorems": [
    "Seam.C40_named",
    "Seam.C40_anywhere",
    "Seam.C40_unknown",
    "Seam.C40_kwrest"
   ],
   "note": ""
  },
  {
   "property": "C41",
   "status": "proved",
   "theorems": [
    "Seam.C41_binds_or_rejects",
    "Seam.C41_everywhere",
    "Seam.C41_names",
    "Seam.C41_exact",
    "Seam.C41_first",
    "Seam.C41_none"
   ],
   "note": ""
  },
  {
   "property": "C42",
   "status": "proved",
   "theorems": [
    "Seam.C42_defined",
    "Seam.C42_undefined",
    "Seam.C42_undefined_nothing"
   ],
   "note": ""
  },
  {
   "property": "C43",
   "status": "proved",
   "theorems": [
    "Seam.C43_exact",
    "Seam.C43_concatenation",
    "Seam.C43_syntax"
   ],
   "note": ""
  },
  {
   "property": "C44",
   "status": "proved",
   "theorems": [
    "Seam.C44_reverse",
    "Seam.C44_twice",
    "Seam.C44_rejects"
   ],
   "note": ""
  },
  {
   "property": "C45",
   "status": "partial",
   "theorems": [
    "Seam.C45_sorts_partial",
    "Seam.C45_elements",
    "Seam.C45_integers",
    "Seam.C45_words",
    "Seam.C45_keys_false",
    "Seam.C45_rejects",
    "Seam.C45_key_fails",
    "Seam.C45_any_algorithm",
    "Seam.C45_run_false"
   ],
   "note": "The comparison of keys is not an order in general (C45_keys_false, C45_run_false); proved for keys on which it is one, and then every stable sorting algorithm gives this result (C45_any_algorithm), so the choice of merge sort in the model does not matter. For all keys the elements and the layout are kept (C45_elements), unless sort_by panics, which Rust allows for a comparison that is not an order."
  },
  {
   "property": "C46",
   "status": "proved",
   "theorems": [
    "Seam.C46_join",
    "Seam.C46_join_rejects",
    "Seam.C46_concat",
    "Seam.C46_concat_rejects",
    "Seam.C46_concat_join",
    "Seam.C46_string",
    "Seam.C46_string_rejects"
   ],
   "note": ""
  },
  {
   "property": "C47",
   "status": "proved",
   "theorems": [
    "Seam.C47_get",
    "Seam.C47_unique",
    "Seam.C47_paths",
    "Seam.C47_compose",
    "Seam.C47_compose_attribute",
    "Seam.C47_rejects"
   ],
   "note": ""
  },
  {
   "property": "C48",
   "status": "partial",
   "theorems": [
    "Seam.C48_attribute_partial",
    "Seam.C48_attribute_false"
   ],
   "note": "False as stated: an attribute whose value expands to nothing panics (C48_attribute_false). C48_attribute_partial gives the outcome in all cases."
  },
  {
   "property": "C49",
   "status": "partial",
   "theorems": [
    "Seam.C49_namespace_partial",
    "Seam.C49_nothing_else_partial",
    "Seam.C49_syntax",
    "Seam.C49_namespace_false"
   ],
   "note": "False as stated: definitions inherited from before the namespace are exported under the prefix too (C49_namespace_false). The exact set of exported names is C49_namespace_partial and C49_nothing_else_partial."
  },
  {
   "property": "C50",
   "status": "partial",
   "theorems": [
    "Seam.C50_apply_partial",
    "Seam.C50_apply_direct",
    "Seam.C50_apply_plain",
    "Seam.C50_apply_false",
    "Seam.C50_map",
    "Seam.C50_filter",
    "Seam.C50_element",
    "Seam.C50_map_length",
    "Seam.C50_rejects",
    "Seam.C50_lambda",
    "Seam.C50_lambda_rejects",
    "Seam.C50_define_function",
    "Seam.C50_apply_lambda"
   ],
   "note": "False as stated for arguments whose values contain macros, since %apply expands them twice (C50_apply_false). C50_apply_partial gives the exact outcome; C50_apply_plain the stated form for arguments without macros. (%f a) drops blanks before its first argument, (%apply f a) keeps them; the theorems compare calls with the same arguments."
  },
  {
   "property": "C51",
   "status": "proved",
   "theorems": [
    "Seam.C51_list",
    "Seam.C51_splat",
    "Seam.C51_splat_list",
    "Seam.C51_do",
    "Seam.C51_strip",
    "Seam.C51_same_nodes"
   ],
   "note": ""
  },
  {
   "property": "C52",
   "status": "proved",
   "theorems": [
    "Seam.C52_include",
    "Seam.C52_not_found",
    "Seam.C52_found",
    "Seam.C52_earlier",
    "Seam.C52_syntax_error",
    "Seam.C52_rejects",
    "Seam.C52_embed"
   ],
   "note": ""
  },
  {
   "property": "C53",
   "status": "partial",
   "theorems": [
    "Seam.C53_check_partial",
    "Seam.C53_mandatory_partial",
    "Seam.C53_optional_partial",
    "Seam.C53_absent",
    "Seam.C53_trailing_partial",
    "Seam.C53_mandatory_keyword_false",
    "Seam.C53_macros",
    "Seam.C53_rejects",
    "Seam.C53_fails"
   ],
   "note": "False for rule sets with mandatory named arguments (C53_mandatory_keyword_false), of which the code has none (C53_macros)."
  },
  {
   "property": "C54",
   "status": "partial",
   "theorems": [
    "Seam.C54_yaml_partial",
    "Seam.C54_invalid_partial",
    "Seam.C54_aliases_partial",
    "Seam.C54_alias_false",
    "Seam.C54_alias_panics",
    "Seam.C54_complex_key_false",
    "Seam.C54_complex_key_panics"
   ],
   "note": "Proved for documents with scalar keys and without aliases. False with aliases (C54_alias_false): the code ignores them, and C54_aliases_partial gives the exact outcome, unless a collection comes in the place of a key. Then the code panics (C54_complex_key_panics, C54_alias_panics) or, inside a sequence, gives wrong names (C54_complex_key_false)."
  },
  {
   "property": "C55",
   "status": "proved",
   "theorems": [
    "Seam.C55_toml",
    "Seam.C55_invalid"
   ],
   "note": ""
  },
  {
   "property": "C56",
   "status": "partial",
   "theorems": [
    "Seam.C56_sorted_partial",
    "Seam.C56_unique",
    "Seam.C56_unsorted",
    "Seam.C56_pattern",
    "Seam.C56_unreadable",
    "Seam.C56_dangling_panics",
    "Seam.C56_time_false",
    "Seam.C56_type_false"
   ],
   "note": "Proved for files that have the time stamp asked for or, for :sort type, are regular files or directories; false otherwise (C56_time_false, C56_type_false). Unreadable metadata panics (C56_dangling_panics). Without :sort the exact order is C56_unsorted."
  },
  {
   "property": "C57",
   "status": "partial",
   "theorems": [
    "Seam.C57_date_partial",
    "Seam.C57_timestamp_partial",
    "Seam.C57_close",
    "Seam.C57_overflow_panics",
    "Seam.C57_format_panics",
    "Seam.C57_digits_false"
   ],
   "note": "Proved for up to 9 digits after the point (nearest second) and, to half a second plus 0.42 microseconds, for any number of digits (C57_close); false for 10 digits (C57_digits_false). Assumes that the fixed-point parser rounds to nearest. Offsets of 596524 hours overflow (C57_overflow_panics)."
  },
  {
   "property": "C58",
   "status": "partial",
   "theorems": [
    "Seam.C58_any_place",
    "Seam.C58_options_partial",
    "Seam.C58_no_target_partial",
    "Seam.C58_unknown_partial",
    "Seam.C58_version",
    "Seam.C58_every_argument",
    "Seam.C58_one_meaning",
    "Seam.C58_exactly",
    "Seam.C58_meaning",
    "Seam.C58_unknown_false",
    "Seam.C58_dir_false"
   ],
   "note": "Proved for argument lists in which every argument is documented, up to the first unknown one or -v; C58_every_argument shows which arguments are left out. The full statement is false: -x--html is accepted as --html and -Ia--b is fatal (C58_unknown_false, C58_dir_false). C58_exactly gives the outcome for every argument list (Meant, Stops), and C58_meaning says that every argument has exactly one meaning."
  },
  {
   "property": "C59",
   "status": "partial",
   "theorems": [
    "Seam.C59_any_order",
    "Seam.C59_names_partial",
    "Seam.C59_sorted_partial",
    "Seam.C59_ascending_partial",
    "Seam.C59_order_false",
    "Seam.C59_path"
   ],
   "note": "False as stated (C59_order_false): the directories are kept in a BTreeSet. Proved instead: exactly the directories given plus the current one are searched, in path order without repetitions; the order given is kept if it is ascending."
  },
  {
   "property": "C60",
   "status": "proved",
   "theorems": [
    "Seam.C60_prefix",
    "Seam.C60_failure",
    "Seam.C60_panic",
    "Seam.C60_success",
    "Seam.C60_one_outcome"
   ],
   "note": "For all inputs and every supported target; includes the case of a panic."
  },
  {
   "property": "C61",
   "status": "partial",
   "theorems": [
    "Seam.C61_valid_partial",
    "Seam.C61_copy_partial",
    "Seam.C61_first_call_false",
    "Seam.C61_every_context_false"
   ],
   "note": "False (C61_first_call_false, C61_every_context_false): the reference dangles once the vector of registered nodes grows. C61_valid_partial says exactly when it is valid, for arguments without macros."
  },
  {
   "property": "C62",
   "status": "proved",
   "theorems": [
    "Seam.C62_tokens",
    "Seam.C62_safe",
    "Seam.C62_text",
    "Seam.C62_utf8_exact"
   ],
   "note": "The byte-level model follows lexer.rs with every slice checked; fuel as large as the text is enough."
  },
  {
   "property": "C63",
   "status": "proved",
   "theorems": [
    "Seam.C63_expansion_errors",
    "Seam.C63_generation_errors",
    "Seam.C63_log_lines"
   ],
   "note": "The width function of the crate unicode-width is a parameter that gives printable ASCII one column per character; colours are left out. The line number is that of C03, which is not always the true one."
  },
  {
   "property": "C64",
   "status": "proved",
   "theorems": [
    "Seam.C64_tree",
    "Seam.C64_slices"
   ],
   "note": "Files are those of the model's file system, fixed during the run."
  },
  {
   "property": "C65",
   "status": "proved",
   "theorems": [
    "Seam.C65_markdown",
    "Seam.C65_no_front",
    "Seam.C65_only_content",
    "Seam.C65_only_frontmatter",
    "Seam.C65_missing_frontmatter",
    "Seam.C65_not_rendered",
    "Seam.C65_faults"
   ],
   "note": "The markdown crate is a parameter (rendered text, front matter). Without :only, errors in the front matter are ignored (C65_no_front, C65_faults) and what was defined before the error stays."
  },
  {
   "property": "C66",
   "status": "proved",
   "theorems": [
    "Seam.C66_log",
    "Seam.C66_not_literal",
    "Seam.C66_only_grows"
   ],
   "note": "The place of the call is printed as in C63."
  },
  {
   "property": "C67",
   "status": "partial",
   "theorems": [
    "Seam.C67_env_partial",
    "Seam.C67_unset",
    "Seam.C67_arguments",
    "Seam.C67_blanks_false"
   ],
   "note": "False for the blanks (C67_blanks_false): the string takes the blanks before the argument. Everything else is C67_env_partial and C67_unset."
  },
  {
   "property": "C68",
   "status": "partial",
   "theorems": [
    "Seam.C68_no_other_crash_partial",
    "Seam.C68_crash_false"
   ],
   "note": "False: a keyword whose value expands to nothing crashes (C68_crash_false); so do a YAML collection in the place of a key (C54), a timezone offset that overflows and a bad date format (C57) and an unreadable path in %glob (C56). C68_no_other_crash_partial: with these five replaced by ordinary outcomes the expander never crashes and otherwise behaves the same, so there is no other crash. Not covered: sort_by may panic on the intransitive order of %sort keys (C45), running out of stack."
  },
  {
   "property": "C69",
   "status": "partial",
   "theorems": [
    "Seam.C69_output_again_partial",
    "Seam.C69_symbol_false"
   ],
   "note": "False for symbols made by %symbol or %concat that are no words or start with % (C69_symbol_false). Proved for trees whose symbols are words that do not start with %, and whose neighbours are apart (Printables)."
  },
  {
   "property": "C70",
   "status": "proved",
   "theorems": [
    "Seam.C70_converts",
    "Seam.C70_rejects"
   ],
   "note": ""
  },
  {
   "property": "C71",
   "status": "proved",
   "theorems": [
    "Seam.C71_format",
    "Seam.C71_fails",
    "Seam.C71_compound",
    "Seam.C71_no_string"
   ],
   "note": "The crate formatx is a parameter: whether a template is valid, and the text for a template and a list of values."
  },
  {
   "property": "C72",
   "status": "proved",
   "theorems": [
    "Seam.C72_argument",
    "Seam.C72_user_argument",
    "Seam.C72_inside",
    "Seam.C72_first"
   ],
   "note": "For the macros listed in Spec.eager and for user macros; %ifdef, %for and %namespace are covered by C42, C43 and C49."
  },
  {
   "property": "C73",
   "status": "partial",
   "theorems": [
    "Seam.C73_no_macro_left_partial",
    "Seam.C73_again_partial",
    "Seam.C73_same_run",
    "Seam.C73_symbol_false"
   ],
   "note": "Partial because of %symbol; the run in which %symbol makes no name with % is the ordinary one (C73_same_run), and C73_symbol_false shows that the restriction is needed."
  },
  {
   "property": "C74",
   "status": "proved",
   "theorems": [
    "Seam.C74_finishes",
    "Seam.C74_document",
    "Seam.C74_recursion",
    "Seam.C74_self_application"
   ],
   "note": "Ranks are given by the reader (any function from names to numbers). %sort only with its list written out; %include only with its path written out and a file on which the parser finishes (C06). C74_recursion and C74_self_application show that the conditions cannot simply be dropped."
  },
  {
   "property": "C75",
   "status": "proved",
   "theorems": [
    "Seam.C75_sheet",
    "Seam.C75_document",
    "Seam.C75_value"
   ],
   "note": ""
  },
  {
   "property": "C76",
   "status": "proved",
   "theorems": [
    "Seam.C76_xml"
   ],
   "note": ""
  },
  {
   "property": "C77",
   "status": "proved",
   "theorems": [
    "Seam.C77_html"
   ],
   "note": ""
  },
  {
   "property": "C78",
   "status": "proved",
   "theorems": [
    "Seam.C78_text",
    "Seam.C78_sexp"
   ],
   "note": ""
  },
  {
   "property": "C79",
   "status": "proved",
   "theorems": [
    "Seam.C79_css",
    "Seam.C79_xml",
    "Seam.C79_html",
    "Seam.C79_text",
    "Seam.C79_sexp"
   ],
   "note": ""
  },
  {
   "property": "C80",
   "status": "partial",
   "theorems": [
    "Seam.C80_css",
    "Seam.C80_xml",
    "Seam.C80_text",
    "Seam.C80_html_partial",
    "Seam.C80_html_false"
   ],
   "note": "Partial because of pre elements in HTML, whose text is a slice of the source (C80_html_false)."
  },
  {
   "property": "C81",
   "status": "proved",
   "theorems": [
    "Seam.C81_positions",
    "Seam.C81_named",
    "Seam.C81_lambda",
    "Seam.C81_unplaced",
    "Seam.C81_output",
    "Seam.C81_lambda_false"
   ],
   "note": "Hash maps (only the order of &&rest and of YAML/TOML tables) are assumed to be iterated in an order that depends on the keys alone (ByKeys). Runs that call %lambda are covered by C81_lambda if the names agree; C81_lambda_false shows that they need not."
  },
  {
   "property": "C82",
   "status": "proved",
   "theorems": [
    "Seam.C82_reads",
    "Seam.C82_removable",
    "Seam.C82_expands",
    "Seam.C82_output"
   ],
   "note": "Same conditions as C81. SameSource is the relation 'same tokens, same blanks after the last comment in front of each'; C82_removable shows that every text is related to one without comments."
  },
  {
   "property": "C83",
   "status": "partial",
   "theorems": [
    "Seam.C83_loaded",
    "Seam.C83_start",
    "Seam.C83_call_partial",
    "Seam.C83_nothing_read_partial",
    "Seam.C83_definitions",
    "Seam.C83_call_false",
    "Seam.C83_namespace_false",
    "Seam.C83_branches_false"
   ],
   "note": "Files are numbered in the order in which they are read, so the files that a call drops are an interval of numbers (Spec/Loaded). C83_call_false shows for every macro whose body is an %include of a file without macros that all nodes of the result refer to dropped text. %for, %match and %namespace also work in a copy that they drop; C83_nothing_read_partial covers them if no file is included."
  },
  {
   "property": "C84",
   "status": "partial",
   "theorems": [
    "Seam.C84_apart",
    "Seam.C84_files",
    "Seam.C84_source",
    "Seam.C84_defined_partial",
    "Seam.C84_escape",
    "Seam.C84_escape_false"
   ],
   "note": "Names are hash-offset of the position; hash functions are arbitrary (siteHash). C84_source: positions of tokens in one text differ. C84_escape is the general law for lambdas made in a macro body, C84_escape_false the witness."
  },
  {
   "property": "C85",
   "status": "proved",
   "theorems": [
    "Seam.C85_template",
    "Seam.C85_call",
    "Seam.C85_call_rest",
    "Seam.C85_call_matching",
    "Seam.C85_call_patterns",
    "Seam.C85_match",
    "Seam.C85_document",
    "Seam.C85_for"
   ],
   "note": "Templates are trees without macro calls; Fills (Spec/Fill) is substitution. C85_call_matching is for parameters of every kind, C85_match for the clauses of %match. For bodies with calls, C38_call_matching gives the outcome as the expansion of the body."
  },
  {
   "property": "C86",
   "status": "proved",
   "theorems": [
    "Seam.C86_reads",
    "Seam.C86_spaced",
    "Seam.C86_trees",
    "Seam.C86_blind",
    "Seam.C86_expands",
    "Seam.C86_written",
    "Seam.C86_documents",
    "Seam.C86_output",
    "Seam.C86_string_false"
   ],
   "note": "Hash maps as in C81 (ByKeys). C86_string_false is the witness that %string looks at the blanks. The trees agree exactly up to blanks between nodes (C86_expands); the outputs are compared without blanks (C86_output), so blanks inside strings are covered by the tree statement."
  },
  {
   "property": "C87",
   "status": "proved",
   "theorems": [
    "Seam.C87_xml",
    "Seam.C87_css",
    "Seam.C87_html",
    "Seam.C87_one",
    "Seam.C87_some"
   ],
   "note": "The faults are described independently of the generators by inductive relations (Spec.Snag); a tree has a text (C75 to C77) or exactly one fault (C87_one, C87_some). The same relations give the exact conditions for panics in C25 and C31."
  },
  {
   "property": "C88",
   "status": "proved",
   "theorems": [
    "Seam.C88_more",
    "Seam.C88_sure",
    "Seam.C88_after",
    "Seam.C88_include",
    "Seam.C88_ifdef_false",
    "Seam.C88_namespace_false"
   ],
   "note": "SureEvals is Evals of a run in which no call asks whether something is undefined; C88_sure says that it is a run of the expander. C88_ifdef_false and C88_namespace_false are the witnesses for the exceptions. File numbers and the iteration order of hash maps are the same in both states (More)."
  },
  {
   "property": "C89",
   "status": "proved",
   "theorems": [
    "Seam.C89_reads",
    "Seam.C89_error",
    "Seam.C89_exactly",
    "Seam.C89_directly_false",
    "Seam.C89_apart_false"
   ],
   "note": "The texts are those of three buffers (files) a, b and c, of which c holds the two joined. The number of lines by which the second text moves is not one more than the newlines of the first if that contains strings with newlines (C03); it is only said to be more than the number of newlines."
  },
  {
   "property": "C90",
   "status": "proved",
   "theorems": [
    "Seam.C90_in_turn",
    "Seam.C90_first_fails",
    "Seam.C90_blanks",
    "Seam.C90_own",
    "Seam.C90_output"
   ],
   "note": "C90_own and C90_output assume that the first program reads no file and iterates over no hash map (these are numbered through). C90_in_turn and C90_blanks have no such assumption."
  },
  {
   "property": "C91",
   "status": "proved",
   "theorems": [
    "Seam.C91_xml",
    "Seam.C91_html",
    "Seam.C91_values",
    "Seam.C91_same",
    "Seam.C91_same_xml",
    "Seam.C91_xml_document",
    "Seam.C91_title_false"
   ],
   "note": "C91_title_false shows that for title, one of the elements left out, the claim is false."
  },
  {
   "property": "C92",
   "status": "proved",
   "theorems": [
    "Seam.C92_kept",
    "Seam.C92_lost",
    "Seam.C92_apply",
    "Seam.C92_map",
    "Seam.C92_only",
    "Seam.C92_errors"
   ],
   "note": "keepSpace lists the macros that keep the whitespace, passSpace those that hand the call on (apply, map, filter); %filter is covered by C92_only."
  },
  {
   "property": "C93",
   "status": "proved",
   "theorems": [
    "Seam.C93_expands",
    "Seam.C93_runs",
    "Seam.C93_document",
    "Seam.C93_errors",
    "Seam.C93_text_false",
    "Seam.C93_namespace_false"
   ],
   "note": "The condition on the use of names is a restricted run (SwapEvals, Spec/Rename), which C93_runs shows to be a run of the expander; C93_text_false and C93_namespace_false show that the condition is needed."
  },
  {
   "property": "C94",
   "status": "proved",
   "theorems": [
    "Seam.C94_sheet",
    "Seam.C94_same",
    "Seam.C94_values",
    "Seam.C94_words",
    "Seam.C94_words_false"
   ],
   "note": "The reader (readCss, Spec/Styles) takes no comments and no escapes outside of quotes. C94_words_false: a value like red;width:4 is not quoted and is read as two properties (excepted in the statement). Quoting is the parameter dbg."
  },
  {
   "property": "C95",
   "status": "proved",
   "theorems": [
    "Seam.C95_files",
    "Seam.C95_macros",
    "Seam.C95_same_run",
    "Seam.C95_endless",
    "Seam.C95_guard"
   ],
   "note": "Forced (Spec/Circle) says where a use cannot be avoided; C95_files is about files, C95_macros about macros whose definitions are watched during the run (WatchEvals, which C95_same_run shows to be a run of the expander)."
  },
  {
   "property": "C96",
   "status": "proved",
   "theorems": [
    "Seam.C96_sort_ordered",
    "Seam.C96_sort_twice",
    "Seam.C96_sort_any_order",
    "Seam.C96_sort_descending",
    "Seam.C96_get_reverse",
    "Seam.C96_concat_nested",
    "Seam.C96_join_nested",
    "Seam.C96_list_splat",
    "Seam.C96_strip_twice",
    "Seam.C96_for_map",
    "Seam.C96_for_map_false",
    "Seam.C96_for_split",
    "Seam.C96_for_split_false"
   ],
   "note": "C96_for_map_false shows the two programs that a definition in the body tells apart; the other laws hold as stated. %sort needs keys whose order is one (Comparable), see C45."
  },
  {
   "property": "C97",
   "status": "proved",
   "theorems": [
    "Seam.C97_same_run",
    "Seam.C97_unread",
    "Seam.C97_finite",
    "Seam.C97_world",
    "Seam.C97_document"
   ],
   "note": "askRun is the expander that stops (without outcome) when one of the four reading macros is called with an argument that is not allowed; C97_same_run shows that it is the expander. C97_finite and C97_world need no such restriction: every finished run has a finite list of questions, and C97_world states the result in terms of files, variables and patterns only. Clock, time zone and library functions are kept fixed."
  },
  {
   "property": "C98",
   "status": "proved",
   "theorems": [
    "Seam.C98_same_run",
    "Seam.C98_makes",
    "Seam.C98_finite",
    "Seam.C98_unused",
    "Seam.C98_define",
    "Seam.C98_either_order"
   ],
   "note": "lookRun is the expander that has no outcome when a name that is not allowed is looked up or %namespace is called; C98_same_run shows that it is the expander. Makes (Spec/Looks) says which names a run defines, uniformly over all states that agree. The names of %lambda macros count as names like others."
  },
  {
   "property": "C99",
   "status": "proved",
   "theorems": [
    "Seam.C99_paths",
    "Seam.C99_agree",
    "Seam.C99_yaml",
    "Seam.C99_toml",
    "Seam.C99_repeated_false",
    "Seam.C99_position_false"
   ],
   "note": "Tidy (Spec/Access) is the condition on keys; C99_repeated_false and C99_position_false show what happens without it (excepted in the statement). YAML documents as in C54: scalar keys, no aliases."
  },
  {
   "property": "C100",
   "status": "proved",
   "theorems": [
    "Seam.C100_trees",
    "Seam.C100_back",
    "Seam.C100_texts",
    "Seam.C100_output",
    "Seam.C100_argument_false"
   ],
   "note": "Pasted and PastedAt (Spec/Paste) say which programs are compared and which places correspond; blindRun (Spec/Layout, C86) is the expander without the macros that look at the layout. C100_argument_false: in the arguments of a macro call it is not the same (excepted in the statement)."
  },
  {
   "property": "C101",
   "status": "proved",
   "theorems": [
    "Seam.C101_same",
    "Seam.C101_blanks",
    "Seam.C101_pages",
    "Seam.C101_void_false",
    "Seam.C101_capitals_false",
    "Seam.C101_instruction_false",
    "Seam.C101_text_false",
    "Seam.C101_raw_false",
    "Seam.C101_attribute_false"
   ],
   "note": "Proved for trees of any shape, with the exceptions listed one by one in the statement and witnessed by the _false theorems. Complaints are compared by place, not by wording."
  },
  {
   "property": "C102",
   "status": "proved",
   "theorems": [
    "Seam.C102_same",
    "Seam.C102_reads",
    "Seam.C102_enough",
    "Seam.C102_writes",
    "Seam.C102_writes_same",
    "Seam.C102_expands",
    "Seam.C102_deep",
    "Seam.C102_deep_keywords"
   ],
   "note": "One level is one active call for one node; the size of a frame in bytes is not modelled. Expansion is counted for trees without macros only (C102_expands); with macros the fuel of the model is this count. The search for html, head and body looks two levels deep at most and is not counted."
  },
  {
   "property": "C103",
   "status": "proved",
   "theorems": [
    "Seam.C103_sizes",
    "Seam.C103_documents",
    "Seam.C103_macros"
   ],
   "note": "Assumes that removing escapes does not lengthen a text and that {:?} gives at most 6 bytes per byte and two quotes (DESIGN section 5). The factors are upper bounds, not claimed to be least."
  },
  {
   "property": "C104",
   "status": "proved",
   "theorems": [
    "Seam.C104_marks",
    "Seam.C104_source",
    "Seam.C104_text_only",
    "Seam.C104_html",
    "Seam.C104_xml"
   ],
   "note": "Keys of YAML data are over-approximated by all scalars of the stream and all indices. HTML and XML for the trees of C91."
  },
  {
   "property": "C105",
   "status": "proved",
   "theorems": [
    "Seam.C105_reads",
    "Seam.C105_expands",
    "Seam.C105_written",
    "Seam.C105_output",
    "Seam.C105_reports",
    "Seam.C105_strings_false"
   ],
   "note": "Hash maps as in C81 (ByKeys). C105_strings_false is the witness for newlines inside strings. A text that breaks off after a backslash (on which the reader does not return) is excepted."
  },
  {
   "property": "C106",
   "status": "proved",
   "theorems": [
    "Seam.C106_html_document",
    "Seam.C106_html_wrapped",
    "Seam.C106_xml_document",
    "Seam.C106_css",
    "Seam.C106_html",
    "Seam.C106_xml",
    "Seam.C106_text"
   ],
   "note": "Assumes UnescapesQuotes of the string unescaping: a backslash before a quote or a backslash is dropped, other characters stay."
  },
  {
   "property": "C107",
   "status": "proved",
   "theorems": [
    "Seam.C107_same",
    "Seam.C107_linear",
    "Seam.C107_at_least"
   ],
   "note": "The counted reader is a second version of the parser (Model/Steps), proved to have the same outcome (C107_same). A step is a byte passed over or a look at a character; work of a fixed size between them is not counted."
  },
  {
   "property": "C108",
   "status": "proved",
   "theorems": [
    "Seam.C108_computes",
    "Seam.C108_strays",
    "Seam.C108_forever"
   ],
   "note": "The limits of a real computer (memory, stack depth, see C83 and C102) are not part of the statement. That two-counter machines are universal is Minsky's theorem and is not proved here."
  },
  {
   "property": "C109",
   "status": "proved",
   "theorems": [
    "Seam.C109_computes",
    "Seam.C109_errs",
    "Seam.C109_halting",
    "Seam.C109_errors",
    "Seam.C109_output"
   ],
   "note": "Partial recursive functions, codes for them and decidable predicates are those of Mathlib. The limits of a real computer (memory, stack depth, see C83 and C102) are not part of the statement."
  },
  {
   "property": "C110",
   "status": "proved",
   "theorems": [
    "Seam.C110_html",
    "Seam.C110_xml",
    "Seam.C110_expressions",
    "Seam.C110_sizes",
    "Seam.C110_short",
    "Seam.C110_no_recursion"
   ],
   "note": "The programs and what they print are written out in Spec/Blow.lean. That they have no recursion is said with the ranks of C74."
  },
  {
   "property": "C111",
   "status": "proved",
   "theorems": [
    "Seam.C111_enough",
    "Seam.C111_sequence",
    "Seam.C111_for",
    "Seam.C111_map",
    "Seam.C111_filter",
    "Seam.C111_turn",
    "Seam.C111_call",
    "Seam.C111_recursion",
    "Seam.C111_no_bound",
    "Seam.C111_long_loop"
   ],
   "note": "Levels are counted as in C102 (active calls for nodes and for macros); the size of their stack frames is not modelled. The lower bound is for the documents of C108."
  },
  {
   "property": "C112",
   "status": "partial",
   "theorems": [
    "Seam.C112_call_time",
    "Seam.C112_same_partial",
    "Seam.C112_self_contained",
    "Seam.C112_call_time_patterns",
    "Seam.C112_same_patterns_partial",
    "Seam.C112_capture_false"
   ],
   "note": "The name of a definition is looked up at the time of the call (the source has a TODO to store the scope of the definition), so the unconditional statement is false: C112_capture_false is a document in which a parameter of the caller catches a name of the called macro. C112_same_partial is the statement with the condition, C112_self_contained its case without conditions on the definitions. The compared states may differ in what was logged before; files read and hash maps made before are taken to be the same number. C112_call_time_patterns and C112_same_patterns_partial are the same for parameters of every kind except &&."
  },
  {
   "property": "C113",
   "status": "proved",
   "theorems": [
    "Seam.C113_exactly",
    "Seam.C113_short_files",
    "Seam.C113_long_line"
   ],
   "note": "The limit is a parameter (limit = 65535 since Rust 1.87). C63 is about versions without a limit."
  },
  {
   "property": "C114",
   "status": "proved",
   "theorems": [
    "Seam.C114_cut_off",
    "Seam.C114_overwritten",
    "Seam.C114_deleted_false",
    "Seam.C114_cut_string",
    "Seam.C114_cut_keyword",
    "Seam.C114_two_quotes"
   ],
   "note": "Not accepted means that reading gives an error or, if the cut is behind a backslash, does not end (C06). Deleting a parenthesis instead of overwriting it can go unnoticed, see C114_deleted_false."
  },
  {
   "property": "C115",
   "status": "proved",
   "theorems": [
    "Seam.C115_first",
    "Seam.C115_again",
    "Seam.C115_twice",
    "Seam.C115_circle",
    "Seam.C115_once",
    "Seam.C115_inner_scope"
   ],
   "note": "The guard is a definition in a scope: C115_inner_scope shows that an inclusion inside of a loop does not count afterwards."
  },
  {
   "property": "C116",
   "status": "proved",
   "theorems": [
    "Seam.C116_where",
    "Seam.C116_defined_branch",
    "Seam.C116_undefined_branch",
    "Seam.C116_catch_all",
    "Seam.C116_concat",
    "Seam.C116_concat_join",
    "Seam.C116_reverse",
    "Seam.C116_exchange",
    "Seam.C116_outcome",
    "Seam.C116_do",
    "Seam.C116_strip",
    "Seam.C116_result",
    "Seam.C116_condition_false",
    "Seam.C116_refined",
    "Seam.C116_splat_list",
    "Seam.C116_strip_splat",
    "Seam.C116_apply"
   ],
   "note": "Equivalent parts give errors at the same places. The places are listed in the definition of Exchanged (Spec/Exchange); C116_condition_false shows one that is not among them."
  },
  {
   "property": "C117",
   "status": "proved",
   "theorems": [
    "Seam.C117_watched",
    "Seam.C117_worked_out",
    "Seam.C117_constant",
    "Seam.C117_dropped",
    "Seam.C117_shadowed_false"
   ],
   "note": "The run that is watched is that of the program with the uses; what is watched is a test on the node and the state at each node that is expanded (Watched, Spec/Fold). C117_shadowed_false shows that the condition is needed."
  },
  {
   "property": "C118",
   "status": "proved",
   "theorems": [
    "Seam.C118_succeeds",
    "Seam.C118_log_succeeds",
    "Seam.C118_silenced",
    "Seam.C118_outcome",
    "Seam.C118_log",
    "Seam.C118_variable_false",
    "Seam.C118_watched",
    "Seam.C118_variable"
   ],
   "note": "Spec/Silent says which parts only print. C118_variable_false: a %log call with a variable cannot be taken out in general."
  }
 ]
}