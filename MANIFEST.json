{
 "claims": [
  {
   "property": "C01",
   "status": "partial",
   "theorems": [
    "Verif.Props.C01_exact",
    "Verif.Props.C01_functions",
    "Verif.Props.C01_normalize_identifier_partial",
    "Verif.Props.C01_normalize_identifier_ascii_partial",
    "Verif.Props.C01_normalize_identifier_false"
   ],
   "note": "False in general: '\u00b2' is alphanumeric but not XID_Continue (witness). Exact: it holds if and only if all letters and digits of the text may occur in identifiers and the first one, unless a digit, may start one (so for all ASCII texts)."
  },
  {
   "property": "C02",
   "status": "proved",
   "theorems": [
    "Verif.Props.C02_functions",
    "Verif.Props.C02_normalize_preserves_alnum"
   ],
   "note": "normalize loses and invents no letters or digits"
  },
  {
   "property": "C03",
   "status": "proved",
   "theorems": [
    "Verif.Props.C03_functions",
    "Verif.Props.C03_normalize_no_double_underscore",
    "Verif.Props.C03_normalize_fixes_identifiers"
   ],
   "note": "normalize inserts no doubled underscores"
  },
  {
   "property": "C04",
   "status": "partial",
   "theorems": [
    "Verif.Props.C04_exact",
    "Verif.Props.C04_normalize_leading_partial",
    "Verif.Props.C04_normalize_trailing_partial",
    "Verif.Props.C04_normalize_trailing_false"
   ],
   "note": "False as documented (a__ -> a_, witness). Proved: exact description of when a leading/trailing underscore can remain. C04_exact: the result ends with '_', without being '_', iff the text ends with an underscore, special characters and one last character that is no letter or digit, after some letter or digit."
  },
  {
   "property": "C05",
   "status": "partial",
   "theorems": [
    "Verif.Props.C05_exact",
    "Verif.Props.C05_normalize_idempotent_partial",
    "Verif.Props.C05_normalize_idempotent_false"
   ],
   "note": "False (a__). Proved: idempotent at s iff the normal form is '_' or does not end in '_'; C05_exact: iff the text does not end with an underscore, special characters and one last character that is no letter or digit, after some letter or digit."
  },
  {
   "property": "C06",
   "status": "proved",
   "theorems": [
    "Verif.Props.C06_no_percent_unchanged",
    "Verif.Props.C06_in_code"
   ],
   "note": "strings without a percent sign are never altered"
  },
  {
   "property": "C07",
   "status": "proved",
   "theorems": [
    "Verif.Props.C07_placeholder_replaced",
    "Verif.Props.C07_in_code"
   ],
   "note": "placeholders are replaced by the alias value, ignoring whitespace"
  },
  {
   "property": "C08",
   "status": "proved",
   "theorems": [
    "Verif.Props.C08_unknown_placeholders_verbatim",
    "Verif.Props.C08_in_code"
   ],
   "note": "unknown and unterminated placeholders are kept verbatim"
  },
  {
   "property": "C09",
   "status": "partial",
   "theorems": [
    "Verif.Props.C09_exact",
    "Verif.Props.C09_escape_partial",
    "Verif.Props.C09_percent_run_partial",
    "Verif.Props.C09_escape_false"
   ],
   "note": "False for runs of 3+ percents or after a placeholder (witnesses). Proved: escaping any text without adjacent percents round-trips; exact law for runs. C09_exact: escaping round-trips iff no two percents are adjacent."
  },
  {
   "property": "C10",
   "status": "proved",
   "theorems": [
    "Verif.Props.C10_format_characterised",
    "Verif.Props.C10_in_code"
   ],
   "note": "string formatting is completely characterised by its percent-delimited pieces"
  },
  {
   "property": "C11",
   "status": "proved",
   "theorems": [
    "Verif.Props.C11_structural_map",
    "Verif.Props.C11_code",
    "Verif.Props.C11_succeeds",
    "Verif.Props.C11_result_valid"
   ],
   "note": "substitution is one simultaneous pass over the tokens"
  },
  {
   "property": "C12",
   "status": "partial",
   "theorems": [
    "Verif.Props.C12_exact",
    "Verif.Props.C12_untouched_partial",
    "Verif.Props.C12_untouched_plain_partial",
    "Verif.Props.C12_untouched_false"
   ],
   "note": "False to the letter: every string literal is rebuilt, so raw string literals are respelled (witness). Proved: the same tokens up to the spelling of string literals; exact: literally the same tokens if and only if the string literals are spelled plainly."
  },
  {
   "property": "C13",
   "status": "proved",
   "theorems": [
    "Verif.Props.C13_inserted_verbatim",
    "Verif.Props.C13_inserted_text_verbatim"
   ],
   "note": "inserted code is not expanded again"
  },
  {
   "property": "C14",
   "status": "proved",
   "theorems": [
    "Verif.Props.C14_groups_preserved"
   ],
   "note": "grouping structure is preserved"
  },
  {
   "property": "C15",
   "status": "proved",
   "theorems": [
    "Verif.Props.C15_walk_terminates",
    "Verif.Props.C15_substitution_terminates",
    "Verif.Props.C15_entry_rewriting_diverges"
   ],
   "note": "Bound 2*tokens+1 iterations for every visitor that does not rewrite on entry; a diverging visitor shows that the condition is needed."
  },
  {
   "property": "C16",
   "status": "proved",
   "theorems": [
    "Verif.Props.C16_success_iff",
    "Verif.Props.C16_error_names_last_alias",
    "Verif.Props.C16_error_names_breaking_alias"
   ],
   "note": "Exact success condition, the alias named in the error, and the case (only string literals replaced before) where the code panics instead."
  },
  {
   "property": "C17",
   "status": "partial",
   "theorems": [
    "Verif.Props.C17_all_but_where",
    "Verif.Props.C17_whole_block_partial",
    "Verif.Props.C17_succeeds",
    "Verif.Props.C17_false",
    "Verif.Props.C17_contextual_keyword_false",
    "Verif.Props.C17_attributes_once"
   ],
   "note": "False: where-clauses of structs, enums, unions, traits and impls are lost, and an alias called union is not replaced as an item keyword (witnesses). Proved: the result is exactly the token-level substitution of the block without those where-clauses; it succeeds iff every piece does."
  },
  {
   "property": "C18",
   "status": "partial",
   "theorems": [
    "Verif.Props.C18_piece_exact",
    "Verif.Props.C18_exact",
    "Verif.Props.C18_piece",
    "Verif.Props.C18_no_panic_partial",
    "Verif.Props.C18_false"
   ],
   "note": "False for inner attributes (panic for every grammar and surrounding code). Exact, for a grammar that does not look into string literals: there is a panic if and only if the first piece that does not succeed is a list of attributes that are not outer ones and in which no alias comes before the first string literal."
  },
  {
   "property": "C19",
   "status": "proved",
   "theorems": [
    "Verif.Props.C19_accepted_iff",
    "Verif.Props.C19_costs"
   ],
   "note": "implicit coercions are exactly the documented ones"
  },
  {
   "property": "C20",
   "status": "partial",
   "theorems": [
    "Verif.Props.C20_exact",
    "Verif.Props.C20_coercions_succeed_partial",
    "Verif.Props.C20_coercions_succeed_other",
    "Verif.Props.C20_coercions_succeed_false"
   ],
   "note": "False for identifiers that are keywords (concat(f, n) = fn, coerced to a type; witness). Exact: an accepted coercion fails if and only if it makes a type or expression of an identifier that the grammar does not accept as one. With the built-in table the failing coercion is never selected (see C23)."
  },
  {
   "property": "C21",
   "status": "proved",
   "theorems": [
    "Verif.Props.C21_grammar_casts",
    "Verif.Props.C21_to_int",
    "Verif.Props.C21_to_ident",
    "Verif.Props.C21_to_str",
    "Verif.Props.C21_round_trip",
    "Verif.Props.C21_to_tokens_raw"
   ],
   "note": "explicit casts preserve the text"
  },
  {
   "property": "C22",
   "status": "proved",
   "theorems": [
    "Verif.Props.C22_chosen_is_first",
    "Verif.Props.C22_fails_only_if_none_applicable",
    "Verif.Props.C22_order_independent",
    "Verif.Props.C22_builtin_ids"
   ],
   "note": "Recorded overload is applicable and strictly first in (cost, variadic, parameters, declaration); errors only if none is applicable; permuting overload lists leaves every result identical. Reordering overloads changes the error of a call that fits none only in the order of the signatures listed."
  },
  {
   "property": "C23",
   "status": "proved",
   "theorems": [
    "Verif.Props.C23_no_internal_failure",
    "Verif.Props.C23_definitions"
   ],
   "note": "For the built-in function table and any external parsers: after a successful check the only failures are ordinary errors, or a panic inside an applied built-in function on arguments of its parameter types (C36)."
  },
  {
   "property": "C24",
   "status": "proved",
   "theorems": [
    "Verif.Props.C24_types_and_costs",
    "Verif.Props.C24_values",
    "Verif.Props.C24_exact"
   ],
   "note": "Side-table implementation simulates a pure typing/evaluation without ids, tables or scopes; the only divergence is cost overflow (C29)."
  },
  {
   "property": "C25",
   "status": "proved",
   "theorems": [
    "Verif.Props.C25_names_distinct",
    "Verif.Props.C25_duplicate_fails",
    "Verif.Props.C25_redefined",
    "Verif.Props.C25_duplicate_reported",
    "Verif.Props.C25_expansion",
    "Verif.Props.C25_expansion_fails"
   ],
   "note": "For the definition list of one iteration and for whole invocations: success implies distinct names in every iteration, a repeated name makes the expansion fail; with no iteration (empty loop list) duplicates go unreported."
  },
  {
   "property": "C26",
   "status": "proved",
   "theorems": [
    "Verif.Props.C26_prefix",
    "Verif.Props.C26_only_used_aliases",
    "Verif.Props.C26_undefined_is_literal",
    "Verif.Props.C26_alias_as_value"
   ],
   "note": "Errors are compared without the definition they quote."
  },
  {
   "property": "C27",
   "status": "proved",
   "theorems": [
    "Verif.Props.C27_in_code",
    "Verif.Props.C27_reported",
    "Verif.Props.C27_wrong_count_rejected"
   ],
   "note": "calls with the wrong number of arguments are rejected"
  },
  {
   "property": "C28",
   "status": "proved",
   "theorems": [
    "Verif.Props.C28_read_as_value",
    "Verif.Props.C28_only_syntax_errors",
    "Verif.Props.C28_never_undefined"
   ],
   "note": "For the parser: such input is read as a value, and its only error is a syntax error. For whole invocations: no input, on any thread and after any history, makes a macro report an undefined function."
  },
  {
   "property": "C29",
   "status": "partial",
   "theorems": [
    "Verif.Props.C29_false",
    "Verif.Props.C29_no_overflow_partial",
    "Verif.Props.C29_exact"
   ],
   "note": "False: 30 nested concat calls overflow u32 (witness for every seed). Proved: no overflow while 5*nodes*2^nesting < 2^32."
  },
  {
   "property": "C30",
   "status": "proved",
   "theorems": [
    "Verif.Props.C30_concat_idents",
    "Verif.Props.C30_concat_strings",
    "Verif.Props.C30_concat_tokens",
    "Verif.Props.C30_concat_mixed",
    "Verif.Props.C30_flatten"
   ],
   "note": "concat is plain concatenation"
  },
  {
   "property": "C31",
   "status": "partial",
   "theorems": [
    "Verif.Props.C31_flatten_exact",
    "Verif.Props.C31_concat_ints",
    "Verif.Props.C31_number",
    "Verif.Props.C31_concat_signed",
    "Verif.Props.C31_flatten_partial",
    "Verif.Props.C31_flatten_false"
   ],
   "note": "Digits in order: proved. Flattening is false for an inner concatenation with a leading zero (witness); exact: it holds if and only if there is none or the inner one is just 0."
  },
  {
   "property": "C32",
   "status": "proved",
   "theorems": [
    "Verif.Props.C32_hash",
    "Verif.Props.C32_test_vectors",
    "Verif.Props.C32_hashed_bytes"
   ],
   "note": "hash is deterministic within one invocation and always yields an identifier"
  },
  {
   "property": "C33",
   "status": "proved",
   "theorems": [
    "Verif.Props.C33_own_seed",
    "Verif.Props.C33_seed_in_use",
    "Verif.Props.C33_wraps"
   ],
   "note": "Ids are drawn by an atomic counter: any total order of the draws of all invocations. Bound 2^64 is tight."
  },
  {
   "property": "C34",
   "status": "proved",
   "theorems": [
    "Verif.Props.C34_arguments_ignored",
    "Verif.Props.C34_value"
   ],
   "note": "Errors are compared without the definition they quote."
  },
  {
   "property": "C35",
   "status": "proved",
   "theorems": [
    "Verif.Props.C35_value_type",
    "Verif.Props.C35_kinds",
    "Verif.Props.C35_argument_types"
   ],
   "note": "Values have the recorded type, calls the output type of the chosen overload; every function application gets arguments of exactly its parameter types."
  },
  {
   "property": "C36",
   "status": "partial",
   "theorems": [
    "Verif.Props.C36_normalize_exact",
    "Verif.Props.C36_concat_exact",
    "Verif.Props.C36_concat_partial",
    "Verif.Props.C36_case_functions",
    "Verif.Props.C36_hash",
    "Verif.Props.C36_normalize_partial",
    "Verif.Props.C36_crashes_false"
   ],
   "note": "False: raw identifiers, identifiers emptied by a case function, negative integers, characters such as '\u00b2' (witnesses). Proved: exact crash conditions of the case functions, concat and normalize; hash never crashes."
  },
  {
   "property": "C37",
   "status": "proved",
   "theorems": [
    "Verif.Props.C37_cross_product_enumerates",
    "Verif.Props.C37_combinations_complete"
   ],
   "note": "loops generate the full cross product in order"
  },
  {
   "property": "C38",
   "status": "proved",
   "theorems": [
    "Verif.Props.C38_combinations_count",
    "Verif.Props.C38_one_copy_per_combination",
    "Verif.Props.C38_copy_contents",
    "Verif.Props.C38_succeeds_if_bindable",
    "Verif.Props.C38_no_loops_once",
    "Verif.Props.C38_empty_list_nothing"
   ],
   "note": "the number of generated copies is the product of the list lengths"
  },
  {
   "property": "C39",
   "status": "proved",
   "theorems": [
    "Verif.Props.C39_size_hint_exact",
    "Verif.Props.C39_size_hint_overflow",
    "Verif.Props.C39_total_combinations"
   ],
   "note": "size_hint of the cross product is exact at every point"
  },
  {
   "property": "C40",
   "status": "partial",
   "theorems": [
    "Verif.Props.C40_reset_partial",
    "Verif.Props.C40_reset_false",
    "Verif.Props.C40_exact"
   ],
   "note": "False for zero sources (witness); proved for one or more sources at every iteration state. C40_exact: reset restores the initial sequence iff there is a source."
  },
  {
   "property": "C41",
   "status": "proved",
   "theorems": [
    "Verif.Props.C41_destructuring_by_position",
    "Verif.Props.C41_simple"
   ],
   "note": "tuple destructuring binds by position"
  },
  {
   "property": "C42",
   "status": "partial",
   "theorems": [
    "Verif.Props.C42_exact",
    "Verif.Props.C42_mismatch_accepted_false",
    "Verif.Props.C42_flat_mismatch_rejected_partial",
    "Verif.Props.C42_kind_or_count_mismatch_rejected_partial"
   ],
   "note": "False: match_tuples compares breadth-first shapes level-wise only (witness). Exact: accepted if and only if the level-by-level readings have values and tuples at the same positions, and then bound in that order; for flat patterns this is equality of shapes."
  },
  {
   "property": "C43",
   "status": "proved",
   "theorems": [
    "Verif.Props.C43_in_order"
   ],
   "note": "For every world, history, schedule and input that gives code."
  },
  {
   "property": "C44",
   "status": "proved",
   "theorems": [
    "Verif.Props.C44_longest_match"
   ],
   "note": "For every behaviour of the Rust grammar (how many tokens each syntactic category reads is a parameter)."
  },
  {
   "property": "C45",
   "status": "partial",
   "theorems": [
    "Verif.Props.C45_exact",
    "Verif.Props.C45_function_like",
    "Verif.Props.C45_accepted",
    "Verif.Props.C45_attribute_partial",
    "Verif.Props.C45_false"
   ],
   "note": "Proved for compose!/compose_idents!, including the separator after the block. False for compose_item, whose extra trailing separator may differ (witness). C45_exact: definitions of an attribute are accepted iff their separators agree and at most one separator, of either kind, follows."
  },
  {
   "property": "C46",
   "status": "partial",
   "theorems": [
    "Verif.Props.C46_exact",
    "Verif.Props.C46_same_tree",
    "Verif.Props.C46_same_tree_back",
    "Verif.Props.C46_false",
    "Verif.Props.C46_expansion_partial",
    "Verif.Props.C46_expansion_no_hash_partial"
   ],
   "note": "Same syntax trees (both directions), and equal outputs for equal seeds, or for any seeds if hash is not called. False for definitions ending in ';' when the value is not a call (witness: a = x;); on a fresh thread the warnings of the two forms name different macros. Assumes that the Rust grammar reads no path/type/expression across a ',' (StopsAtSep), and that the definitions do not end with a fragment inserted by macro_rules! (Solid). C46_exact: the outputs agree if and only if the definitions can be read up to their end (ReadsClosed), or are not read in either form."
  },
  {
   "property": "C47",
   "status": "proved",
   "theorems": [
    "Verif.Props.C47_trailing_separator"
   ],
   "note": "Assumes that the Rust grammar reads no path, type or expression beyond a block followed by the separator (StopsAtBlock); shown for the example grammar."
  },
  {
   "property": "C48",
   "status": "partial",
   "theorems": [
    "Verif.Props.C48_exact",
    "Verif.Props.C48_raw",
    "Verif.Props.C48_arguments_partial",
    "Verif.Props.C48_dropped",
    "Verif.Props.C48_left_over",
    "Verif.Props.C48_false",
    "Verif.Props.C48_pieces"
   ],
   "note": "Raw argument: proved. Arguments are the pieces between commas when each piece is read completely; otherwise all arguments are silently dropped (witness lower(a) b, c), which is also characterised exactly. C48_exact: the arguments are read from the pieces iff nothing is left over after any piece."
  },
  {
   "property": "C49",
   "status": "partial",
   "theorems": [
    "Verif.Props.C49_exact",
    "Verif.Props.C49_calls_partial",
    "Verif.Props.C49_false"
   ],
   "note": "Proved for definitions whose values are function calls; false otherwise (witness a = x; b = y). C49_exact: with ';' definitions are accepted iff all values are calls (values without separators of their own)."
  },
  {
   "property": "C50",
   "status": "proved",
   "theorems": [
    "Verif.Props.C50_ids_unique",
    "Verif.Props.C50_ids_unique_attribute",
    "Verif.Props.C50_ids_not_reused",
    "Verif.Props.C50_ids_disjoint"
   ],
   "note": "For every schedule of draws of concurrent invocations, every input, every behaviour of the Rust grammar; also disjoint between invocations."
  },
  {
   "property": "C51",
   "status": "proved",
   "theorems": [
    "Verif.Props.C51_no_leak",
    "Verif.Props.C51_own_warning"
   ],
   "note": "For every history, including failing and panicking invocations."
  },
  {
   "property": "C52",
   "status": "partial",
   "theorems": [
    "Verif.Props.C52_exact",
    "Verif.Props.C52_partial",
    "Verif.Props.C52_false"
   ],
   "note": "False: the prefix is that of the first invocation on the thread (witness). Exact: the warnings start with the name of the macro first invoked on the thread."
  },
  {
   "property": "C53",
   "status": "proved",
   "theorems": [
    "Verif.Props.C53_only_inserts",
    "Verif.Props.C53_handed_out",
    "Verif.Props.C53_no_second_attribute",
    "Verif.Props.C53_warnings_are_a_set"
   ],
   "note": "deprecation only adds attributes, one per warning, never a second #[deprecated]"
  },
  {
   "property": "C54",
   "status": "proved",
   "theorems": [
    "Verif.Props.C54_all_or_nothing",
    "Verif.Props.C54_first_failure",
    "Verif.Props.C54_unbindable",
    "Verif.Props.C54_unreadable"
   ],
   "note": "Code iff every iteration succeeds; otherwise the failure of the first failing iteration, a type error if some combination cannot be bound, a parse error if the input cannot be read. A panic (see C36, C29) is reported by the compiler as an error as well."
  },
  {
   "property": "C55",
   "status": "partial",
   "theorems": [
    "Verif.Props.C55_exact",
    "Verif.Props.C55_no_history_partial",
    "Verif.Props.C55_same_seed_partial",
    "Verif.Props.C55_false"
   ],
   "note": "False because of the prefix of warnings (witness, see C52). Proved without ';' or for the same first macro: no dependence on history, ids and hash map orders; with hash only through the seed. C55_exact: with the same seed or without hash, two histories give the same output iff they start with the same macro or the output has no warnings."
  },
  {
   "property": "C56",
   "status": "proved",
   "theorems": [
    "Verif.Props.C56_order_independent",
    "Verif.Props.C56_substitution_same"
   ],
   "note": "expansion does not depend on hash-map iteration order"
  },
  {
   "property": "C57",
   "status": "proved",
   "theorems": [
    "Verif.Props.C57_first_error",
    "Verif.Props.C57_error_is_first"
   ],
   "note": "The error of a block is the error of the first piece (in text order) that does not succeed, whatever follows it, even if that would panic."
  },
  {
   "property": "C58",
   "status": "proved",
   "theorems": [
    "Verif.Props.C58_function_like",
    "Verif.Props.C58_attribute"
   ],
   "note": "Soundness and completeness of the parser model against a declarative grammar, both forms."
  },
  {
   "property": "C59",
   "status": "proved",
   "theorems": [
    "Verif.Props.C59_code",
    "Verif.Props.C59_meaning",
    "Verif.Props.C59_warned"
   ],
   "note": "Composition of C17, C43, C53 and C58 from input tokens to output tokens; hypotheses on syn: blocks print as parsed, statements in braces are blocks (demo instance meets them). No alias named like a contextual item keyword (see C17)."
  },
  {
   "property": "C60",
   "status": "proved",
   "theorems": [
    "Verif.Props.C60_unrolled",
    "Verif.Props.C60_empty"
   ],
   "note": "loops are unrolling"
  },
  {
   "property": "C61",
   "status": "proved",
   "theorems": [
    "Verif.Props.C61_added",
    "Verif.Props.C61_unused_definition"
   ],
   "note": "Leaving out: for invocations that succeed with the definition (an ill-typed unused definition makes an invocation fail). Adding (C61_added): that the definition has a value is said by an invocation in which it is the last one."
  },
  {
   "property": "C62",
   "status": "proved",
   "theorems": [
    "Verif.Props.C62_order"
   ],
   "note": "order of definitions"
  },
  {
   "property": "C63",
   "status": "proved",
   "theorems": [
    "Verif.Props.C63_same_macro"
   ],
   "note": "compose_idents! is compose!"
  },
  {
   "property": "C64",
   "status": "proved",
   "theorems": [
    "Verif.Props.C64_definitions",
    "Verif.Props.C64_code",
    "Verif.Props.C64_same_output",
    "Verif.Props.C64_text"
   ],
   "note": "Definitions: same values or the same failure. Output: for invocations that both give code, with commas as separators (no warning positions). Arguments of raw and normalize are tokens and are not renamed; where-clauses that the visitor drops (C17) are not looked at. Errors are compared without the definition they quote. C64_text renames the alias in the tokens of the input (names, and placeholders in strings), by way of C92."
  },
  {
   "property": "C65",
   "status": "proved",
   "theorems": [
    "Verif.Props.C65_says_what_is_wrong",
    "Verif.Props.C65_parse_iff",
    "Verif.Props.C65_never_internal",
    "Verif.Props.C65_panics"
   ],
   "note": "Proved for whole invocations (C65_says_what_is_wrong, C65_parse_iff, C65_never_internal, C65_panics). The kind and arguments of the error are modelled; the wording of messages is not."
  },
  {
   "property": "C66",
   "status": "proved",
   "theorems": [
    "Verif.Props.C66_fields",
    "Verif.Props.C66_fields_warned",
    "Verif.Props.C66_printed",
    "Verif.Props.C66_printed_by_warnings",
    "Verif.Props.C66_text",
    "Verif.Props.C66_warned",
    "Verif.Props.C66_unchanged",
    "Verif.Props.C66_succeeds"
   ],
   "note": "Text of blocks and items stated as a relation of its own (Spec/Text); syn is assumed to parse by it up to spacing, except `trait T: {}`, which syn prints without the colon. C66_fields needs less of syn: `t.0.1` may be printed as `t . 0 . 1`, which syn does. Where-clauses: C17_false. C66_warned is the same with semicolons, where each copy may get one attribute with the warning."
  },
  {
   "property": "C67",
   "status": "proved",
   "theorems": [
    "Verif.Props.C67_kind",
    "Verif.Props.C67_kind_told",
    "Verif.Props.C67_names",
    "Verif.Props.C67_wording",
    "Verif.Props.C67_types_differ",
    "Verif.Props.C67_types_told",
    "Verif.Props.C67_signature_told",
    "Verif.Props.C67_builtins_differ",
    "Verif.Props.C67_overloads_listed",
    "Verif.Props.C67_arguments_listed",
    "Verif.Props.C67_substitution_told"
   ],
   "note": "Messages of syn itself (parse errors, the last line of cast and substitution errors) are parameters. Spans: C76, C77, C85."
  },
  {
   "property": "C68",
   "status": "partial",
   "theorems": [
    "Verif.Props.C68_quotes_call_partial",
    "Verif.Props.C68_quotes_call_false",
    "Verif.Props.C68_arguments_dropped_false",
    "Verif.Props.C68_exact"
   ],
   "note": "False of the code: string literals are quoted without escapes, integers in base ten, and arguments that cannot be read are left out (C68_quotes_call_false, C68_arguments_dropped_false). Proved: calls with one argument, and calls whose arguments are identifiers, paths, types, expressions, tokens, plain literals or calls with one argument, are quoted as written; C68_exact says for every call what is quoted, from its tokens."
  },
  {
   "property": "C69",
   "status": "partial",
   "theorems": [
    "Verif.Props.C69_shown_partial",
    "Verif.Props.C69_paths_false",
    "Verif.Props.C69_exact"
   ],
   "note": "Proved for values of every kind; of the paths only for those that consist of names. False otherwise: Vec<u8> and Vec<u16> are both shown as Vec. Exact: a path is shown by the names of its segments, so two paths are shown alike iff these are the same."
  },
  {
   "property": "C70",
   "status": "proved",
   "theorems": [
    "Verif.Props.C70_argument",
    "Verif.Props.C70_call",
    "Verif.Props.C70_list",
    "Verif.Props.C70_block"
   ],
   "note": "Reading of syn's look-through of groups without delimiters is modelled for single tokens and delimited groups. Longer fragments (Vec<u8>) are values with the group kept."
  },
  {
   "property": "C71",
   "status": "proved",
   "theorems": [
    "Verif.Props.C71_never",
    "Verif.Props.C71_others",
    "Verif.Props.C71_refused"
   ],
   "note": "gen, reserved in edition 2024, counts as a name, as in syn 2."
  },
  {
   "property": "C72",
   "status": "partial",
   "theorems": [
    "Verif.Props.C72_partial",
    "Verif.Props.C72_exact",
    "Verif.Props.C72_false"
   ],
   "note": "False for type (refused as a keyword: the arm \"type\" cannot be reached), expr and raw (no arm) and all variadic types; proved for the other five. Only their names are read (C72_exact)."
  },
  {
   "property": "C73",
   "status": "partial",
   "theorems": [
    "Verif.Props.C73_partial",
    "Verif.Props.C73_false",
    "Verif.Props.C73_hash"
   ],
   "note": "False for hash of a string: by itself this is a string, where an identifier, a path, a type or an expression is expected the overload for tokens is used (C73_false; C73_hash says exactly which overload is used where). Proved for all expressions without hash of a string."
  },
  {
   "property": "C74",
   "status": "partial",
   "theorems": [
    "Verif.Props.C74_partial",
    "Verif.Props.C74_or_refused_partial",
    "Verif.Props.C74_false"
   ],
   "note": "False for hash of a string, and one of the two may be an error: to_ident(to_ident(to_ident(f))) makes the other overload of concat win, which refuses keywords (C74_false). Proved for definitions without hash of a string: if both succeed the output is the same (C74_partial); if one succeeds the other one gives the same code, or concat refuses its arguments in it, or it panics (C74_or_refused_partial). raw(...) and normalize(...) take tokens, not expressions; nothing is replaced inside them."
  },
  {
   "property": "C75",
   "status": "proved",
   "theorems": [
    "Verif.Props.C75_no_conflict",
    "Verif.Props.C75_released",
    "Verif.Props.C75_copies"
   ],
   "note": "The other RefCell, that of the deprecation service, is only borrowed for single operations that do not come back to it."
  },
  {
   "property": "C76",
   "status": "partial",
   "theorems": [
    "Verif.Props.C76_same_outcome",
    "Verif.Props.C76_redefined",
    "Verif.Props.C76_signature",
    "Verif.Props.C76_concat",
    "Verif.Props.C76_loops",
    "Verif.Props.C76_substitution",
    "Verif.Props.C76_cast",
    "Verif.Props.C76_never_whole",
    "Verif.Props.C76_innermost_false"
   ],
   "note": "Not so for calls that fit no overload (C76_innermost_false): errors of arguments are discarded with the overload, so the outermost call of the definition is blamed, and C76_signature says exactly that. Casts carry the span of the error of syn, which is outside of the model."
  },
  {
   "property": "C77",
   "status": "partial",
   "theorems": [
    "Verif.Props.C77_same_outcome",
    "Verif.Props.C77_evaluation",
    "Verif.Props.C77_resolution_partial",
    "Verif.Props.C77_total_partial",
    "Verif.Props.C77_exponential",
    "Verif.Props.C77_worst",
    "Verif.Props.C77_false"
   ],
   "note": "False (C77_false): the arguments of a call are resolved anew for each overload of the function, so d nested calls of normalize2 take (7*5^d-3)/4 visits (C77_exponential), more than any polynomial. This is the worst case: C77_worst bounds the visits by (7*5^d-3)/4 for each value that stands in the definitions, and the towers of C77_exponential attain it. Evaluation is linear (C77_evaluation); resolution is linear for calls that are not nested (C77_resolution_partial, C77_worst). Copying the metadata for each overload (deep_clone) is not counted here: see C111."
  },
  {
   "property": "C78",
   "status": "partial",
   "theorems": [
    "Verif.Props.C78_tables",
    "Verif.Props.C78_type",
    "Verif.Props.C78_only_partial",
    "Verif.Props.C78_unique",
    "Verif.Props.C78_exact_row_partial",
    "Verif.Props.C78_false",
    "Verif.Props.C78_values"
   ],
   "note": "The tables are exactly those of the code (C78_tables). What has a type by the tables is resolved, with that type (C78_type, C78_unique, C78_values). False for hash of a string (C78_false): concat(hash(to_str(to_str(to_str(to_str(x))))), \"b\") is an identifier although its arguments are strings, because the costs of the inner to_str outweigh; with fewer to_str it is a string. Proved apart from that: C78_only_partial, C78_exact_row_partial."
  },
  {
   "property": "C79",
   "status": "partial",
   "theorems": [
    "Verif.Props.C79_calls_partial",
    "Verif.Props.C79_false",
    "Verif.Props.C79_concat",
    "Verif.Props.C79_concat_value",
    "Verif.Props.C79_values_partial",
    "Verif.Props.C79_type_false",
    "Verif.Props.C79_aliases",
    "Verif.Props.C79_hash"
   ],
   "note": "False for two examples of functions (C79_false: to_path(concat(std, ::, vec)) and to_type(concat(Vec, <, u32, >)) are rejected, since concat is an identifier whenever its first argument is, C79_concat) and one of types (C79_type_false: Result<u32, Error> is a path). All other examples hold (C79_calls_partial, C79_values_partial, C79_aliases, C79_hash). Read with the Rust reader of Lite; hash results are placeholders in the tables."
  },
  {
   "property": "C80",
   "status": "proved",
   "theorems": [
    "Verif.Props.C80_one_value",
    "Verif.Props.C80_tuples",
    "Verif.Props.C80_parts",
    "Verif.Props.C80_order",
    "Verif.Props.C80_order_code"
   ],
   "note": "For invocations with the same seed (or without hash) and the same warnings (SameSetting). The first two laws hold for failures and panics as well."
  },
  {
   "property": "C81",
   "status": "proved",
   "theorems": [
    "Verif.Props.C81_block"
   ],
   "note": "With loops it is false (an example shows it), since whole copies follow each other; with warnings each part would get its own."
  },
  {
   "property": "C82",
   "status": "proved",
   "theorems": [
    "Verif.Props.C82_plain",
    "Verif.Props.C82_letters",
    "Verif.Props.C82_values",
    "Verif.Props.C82_letter_values",
    "Verif.Props.C82_needed"
   ],
   "note": "Assumes of the external code only what it does with ASCII texts (AsciiExt); an instance is shown to meet it. C82_needed shows that each of the conditions on values and functions is needed: camel_case(hash(a)), camel_case(_1), concat(r#type, y), normalize(\"\u00b2\"), concat(1, -1) and concat(1, to_int(-1)) panic."
  },
  {
   "property": "C83",
   "status": "proved",
   "theorems": [
    "Verif.Props.C83_diagnosis",
    "Verif.Props.C83_reported",
    "Verif.Props.C83_stable",
    "Verif.Props.C83_place",
    "Verif.Props.C83_mixed",
    "Verif.Props.C83_never_said",
    "Verif.Props.C83_distinct",
    "Verif.Props.C83_words"
   ],
   "note": "The places are token sequences instead of spans. The messages of syn itself are represented by what was expected."
  },
  {
   "property": "C84",
   "status": "partial",
   "theorems": [
    "Verif.Props.C84_call",
    "Verif.Props.C84_values",
    "Verif.Props.C84_aliases",
    "Verif.Props.C84_partial",
    "Verif.Props.C84_normalize",
    "Verif.Props.C84_normalize_exact",
    "Verif.Props.C84_false"
   ],
   "note": "Assumes that syn's parsers of paths, types and expressions stop before a comma in the same way as before the end (IgnoresComma; only needed for values of loops) and are not misled by what comes after it (StopsBeforeComma; only needed for values that are not calls). C84_partial covers all commas in loops and in the calls that are values of definitions; other values may stand between them. False for raw and normalize only (C84_false); for normalize exactly if the text ends with an underscore and has a letter or digit (C84_normalize_exact)."
  },
  {
   "property": "C85",
   "status": "proved",
   "theorems": [
    "Verif.Props.C85_any_spans",
    "Verif.Props.C85_any_parser",
    "Verif.Props.C85_same_block",
    "Verif.Props.C85_block",
    "Verif.Props.C85_block_nowhere_else",
    "Verif.Props.C85_whole_block",
    "Verif.Props.C85_block_error",
    "Verif.Props.C85_block_first",
    "Verif.Props.C85_source",
    "Verif.Props.C85_whole",
    "Verif.Props.C85_whole_code",
    "Verif.Props.C85_same_print",
    "Verif.Props.C85_same_warnings",
    "Verif.Props.C85_warnings",
    "Verif.Props.C85_output",
    "Verif.Props.C85_same_values",
    "Verif.Props.C85_values",
    "Verif.Props.C85_same_code",
    "Verif.Props.C85_code",
    "Verif.Props.C85_nowhere_else",
    "Verif.Props.C85_error",
    "Verif.Props.C85_casts"
   ],
   "note": "StandsInput (Spec/SpanReads) says which spans the parser gives to nodes: values keep their tokens, a call has the span of the name of the function; C85_source shows that every input has exactly one such source. A group has one span. C85_same_values, C85_same_code and C85_same_block tie the model with spans to the one without. For blocks (C85_block, C85_whole_block) syn's parser is a parameter that parses the same blocks with and without spans (SameTrees) and loses no tokens; as in C17 where-clauses are dropped and no alias may be a keyword of items. C85_same_print ties the printed code to that without spans. C85_warnings and C85_output cover the deprecation attributes, whose tokens point to the invocation. C85_any_spans and C85_any_parser show that blocks with spans can have any spans, so that the assumptions on the parser with spans follow from those on the parser without."
  },
  {
   "property": "C86",
   "status": "partial",
   "theorems": [
    "Verif.Props.C86_alone",
    "Verif.Props.C86_context_partial",
    "Verif.Props.C86_loop_partial",
    "Verif.Props.C86_exact",
    "Verif.Props.C86_false"
   ],
   "note": "False as stated (C86_false, on source text): Result<u32, E> is one value in a definition and two arguments of a call; (u8, u16) is a type in a definition and a tuple in a loop. C86_exact says exactly which values of definitions are one argument. StopsBeforeComma is the assumption on syn's parsers; it is proved for the grammar of the examples."
  },
  {
   "property": "C87",
   "status": "proved",
   "theorems": [
    "Verif.Props.C87_reports",
    "Verif.Props.C87_never_empty",
    "Verif.Props.C87_reported",
    "Verif.Props.C87_first",
    "Verif.Props.C87_places",
    "Verif.Props.C87_several",
    "Verif.Props.C87_stable",
    "Verif.Props.C87_combined"
   ],
   "note": "The messages are told by what was expected and the tokens left at the place (Report); texts of syn itself are not modelled. TupleFault (Spec/Reports) says what is wrong with a tuple of names without a parser."
  },
  {
   "property": "C88",
   "status": "proved",
   "theorems": [
    "Verif.Props.C88_piece",
    "Verif.Props.C88_gives_code",
    "Verif.Props.C88_names"
   ],
   "note": "C88_gives_code assumes, like C17, that the blocks of statements in the code are parsed as such. C88_names assumes a grammar to which names that are not special (keywords, contextual ones included) are all the same."
  },
  {
   "property": "C89",
   "status": "proved",
   "theorems": [
    "Verif.Props.C89_exact",
    "Verif.Props.C89_declared",
    "Verif.Props.C89_positions",
    "Verif.Props.C89_call"
   ],
   "note": "Functions are declared as the code requires, and arguments are checked in their positions"
  },
  {
   "property": "C90",
   "status": "partial",
   "theorems": [
    "Verif.Props.C90_partial",
    "Verif.Props.C90_or_refused_partial",
    "Verif.Props.C90_false"
   ],
   "note": "Proved when both calls have the same type (str, tokens, or ident with an inner call that joins names), if hash is not called on a string: if both invocations succeed the output is the same (C90_partial); if one succeeds the other one gives the same code, or concat refuses its arguments in it, or it panics (C90_or_refused_partial). False in general (C90_false): concat(1, concat(a, b)) is `1 ab`, not `1 a b`; concat(a, concat(0x10)) is a16, not a0x10; concat(x, concat(1, b)) is rejected, concat(x, 1, b) is x1b."
  },
  {
   "property": "C91",
   "status": "proved",
   "theorems": [
    "Verif.Props.C91_distance",
    "Verif.Props.C91_value",
    "Verif.Props.C91_cursors",
    "Verif.Props.C91_pieces"
   ],
   "note": "syn's TokenBuffer and Cursor are modelled (Model/Cursor) as far as they are used here. Sees says which tokens a cursor has in front of it, without reference to the operations; C91_cursors shows that the operations keep it right."
  },
  {
   "property": "C92",
   "status": "proved",
   "theorems": [
    "Verif.Props.C92_in_force",
    "Verif.Props.C92_read",
    "Verif.Props.C92_only",
    "Verif.Props.C92_code"
   ],
   "note": "BlindSyn is the assumption on syn: its parsers for paths, types, expressions and blocks do not distinguish names other than keywords (it is proved of the grammar in Lite, see lite_same_reading). C92_only is the converse; C92_code says that the code is the replaced one when blocks print as they were read. C92_in_force: the definitions in force in the iterations are those with the replacements. The theorems speak of the relation Reads of the specification, not of the parser of the model: an edit of the parser alone does not break them. That the model reports a parse error for exactly the inputs outside Reads is C65_parse_iff."
  },
  {
   "property": "C93",
   "status": "partial",
   "theorems": [
    "Verif.Props.C93_outer",
    "Verif.Props.C93_definitions",
    "Verif.Props.C93_code",
    "Verif.Props.C93_partial",
    "Verif.Props.C93_false",
    "Verif.Props.C93_written",
    "Verif.Props.C93_values_partial"
   ],
   "note": "False in general (C93_false): the outer invocation also changes what the inner one takes verbatim, such as the arguments of normalize and raw and the strings in its definitions, and percents next to each other are treated twice. C93_outer, C93_definitions, C93_code and C93_partial prove it when the outer aliases stand for names, which the inner definitions use only as values of their own (LeafOnly), the two do not define or write each other's aliases, and no string in the code has two percents next to each other (placeholders of both are fine). The outer invocation may have loops. C93_definitions also covers failures; C93_partial is up to spacing and for invocations that succeed. C93_written and C93_values_partial prove it for outer values of any kind, if they are read as what they are where the inner definitions use them (PastedDefs with writtenLeaf) and, for the code, if the inner aliases mean nothing in them (Inert). Values which are read as something else are missing; they may get another type."
  },
  {
   "property": "C94",
   "status": "proved",
   "theorems": [
    "Verif.Props.C94_exact"
   ],
   "note": "C94_exact: an equivalence for whole invocations, with inductive descriptions of the first mismatch in the loops, the first ill-typed definition, the first refused call and the first piece which breaks. Together with C88 (when there is code) this also says when there is a panic. Blocks of statements are such when the code is parsed (hypothesis, as in C17)."
  },
  {
   "property": "C95",
   "status": "proved",
   "theorems": [
    "Verif.Props.C95_exact"
   ],
   "note": "C95_exact, an equivalence for whole invocations; with C88 (code) and C94 (errors) the outcome of an invocation is described completely. Assumes that `_` is no letter and that `_` and digits may be inside identifiers, as in Unicode."
  },
  {
   "property": "C96",
   "status": "proved",
   "theorems": [
    "Verif.Props.C96_value",
    "Verif.Props.C96_names",
    "Verif.Props.C96_copies",
    "Verif.Props.C96_two_vary"
   ],
   "note": "C96_value gives the identifier; C96_names and C96_copies are the claim for two iterations and for the copies of the code. Not true, and not claimed, if more than one of the joined names varies (for x in [a, ab] for z in [bc, c] makes abc twice), nor for the case functions (C96_two_vary). The copies are compared up to spacing."
  },
  {
   "property": "C97",
   "status": "partial",
   "theorems": [
    "Verif.Props.C97_partial",
    "Verif.Props.C97_panics_partial",
    "Verif.Props.C97_no_overflow_partial",
    "Verif.Props.C97_small_partial",
    "Verif.Props.C97_false"
   ],
   "note": "Model/Release is the macro with wrapping arithmetic. The claim is false (C97_false): where the costs of overloads reach 2^32 the build with checks panics, and the one without takes the wrong overload of concat and puts out four tokens instead of one name. Proved for everything else: whenever the build with checks does not panic (C97_partial), and, panics included, whenever no cost overflows (C97_no_overflow_partial), in particular when the expressions are small (C97_small_partial)."
  },
  {
   "property": "C98",
   "status": "partial",
   "theorems": [
    "Verif.Props.C98_string_exact",
    "Verif.Props.C98_partial",
    "Verif.Props.C98_plain",
    "Verif.Props.C98_string",
    "Verif.Props.C98_number",
    "Verif.Props.C98_exact",
    "Verif.Props.C98_false"
   ],
   "note": "The claim is false (C98_false): normalize sees quotes, escape sequences and the radix, normalize2 does not: \"a_\", \"a\\nb\" and 0x10 give different names. C98_exact says exactly when the two differ: where the printed tokens and the contents of the value have different normal forms. Then C98_partial proves the claim for whole invocations, at any depth, in all other cases; they include all names, paths, types, expressions and tokens (C98_plain), numbers written in base ten (C98_number), and strings without escape sequences unless they end with an underscore after a letter or a digit (C98_string, C98_string_exact)."
  },
  {
   "property": "C99",
   "status": "partial",
   "theorems": [
    "Verif.Props.C99_words_partial",
    "Verif.Props.C99_normalize2_partial",
    "Verif.Props.C99_casts_partial",
    "Verif.Props.C99_string_exact",
    "Verif.Props.C99_name_exact",
    "Verif.Props.C99_false",
    "Verif.Props.C99_casts_false"
   ],
   "note": "The claim is false (C99_false): normalize2 takes one trailing underscore away each time, a hash has another hash, and the camel_case and pascal_case of heck are not idempotent. C99_words_partial proves it (more generally f(g(e)) for f(e)) for all functions on words wherever the function on texts is idempotent, for any argument at any depth; C99_string_exact and C99_name_exact say that this is exactly where the results agree. C99_normalize2_partial proves it for normalize2 of values for which normalize is idempotent (C05_exact), at any depth. C99_casts_partial proves it for the casts, for any argument, at any depth except inside the first argument of concat, where it is false (C99_casts_false). Both allow that one of the two invocations panics, as costs may overflow in one only."
  },
  {
   "property": "C100",
   "status": "partial",
   "theorems": [
    "Verif.Props.C100_value",
    "Verif.Props.C100_values_partial",
    "Verif.Props.C100_code",
    "Verif.Props.C100_partial",
    "Verif.Props.C100_false"
   ],
   "note": "The claim is false if the size of the definitions is their sum or any power of it (C100_false, for all constants and powers): each definition can double the one before. C100_partial proves it with the product of the sizes of the definitions: each copy has at most as many tokens as the block times the product, and twelve for the warning about semicolons. C100_value bounds each value by its text with the values of aliases put in, C100_values_partial by the product, and C100_code says exactly how long code is after the replacement. Tokens are counted, not characters: names and strings can grow, too."
  },
  {
   "property": "C101",
   "status": "proved",
   "theorems": [
    "Verif.Props.C101_read",
    "Verif.Props.C101_value",
    "Verif.Props.C101_values",
    "Verif.Props.C101_code",
    "Verif.Props.C101_output",
    "Verif.Props.C101_whole"
   ],
   "note": "C101_read bounds expressions by the tokens of the input, C101_value and C101_values bound values by what is written in the definitions, C101_code the replacement of aliases, C101_output and C101_whole the whole output. The code of the block is compared by its nesting (hypothesis on q: parsing and printing code keeps its nesting); as in C59 no alias is one of the keywords with which items begin."
  },
  {
   "property": "C102",
   "status": "proved",
   "theorems": [
    "Verif.Props.C102_same",
    "Verif.Props.C102_node",
    "Verif.Props.C102_count",
    "Verif.Props.C102_block",
    "Verif.Props.C102_block_count",
    "Verif.Props.C102_amount",
    "Verif.Props.C102_amount_least",
    "Verif.Props.C102_quadratic"
   ],
   "note": "The model with a record of what is parsed (Model/Parses, Model/VisitorParses) repeats the walker and the visitor; C102_same shows that the record changes nothing. C102_node and C102_block say what is parsed in which order, C102_count and C102_block_count how often, C102_amount and C102_amount_least how much; C102_quadratic shows that it is not linear in the code. The parsing of a literal as a string (one token) and the parsing of the macro's input are not recorded, and the record is lost when the macro panics inside a block."
  },
  {
   "property": "C103",
   "status": "partial",
   "theorems": [
    "Verif.Props.C103_partial",
    "Verif.Props.C103_between_partial",
    "Verif.Props.C103_converse_partial",
    "Verif.Props.C103_exact",
    "Verif.Props.C103_text_false",
    "Verif.Props.C103_hash_false",
    "Verif.Props.C103_used_false"
   ],
   "note": "C103_partial and C103_between_partial prove the claim under the conditions given in the statement; C103_text_false, C103_hash_false and C103_used_false show that none of them can be left out. The converse (C103_converse_partial): adding a cast gives the same code, or the cast is refused since the tokens of the alias are not code of that kind in some iteration, or the costs overflow; C103_exact puts the two together."
  },
  {
   "property": "C104",
   "status": "proved",
   "theorems": [
    "Verif.Props.C104_value",
    "Verif.Props.C104_output",
    "Verif.Props.C104_signs",
    "Verif.Props.C104_names",
    "Verif.Props.C104_ints",
    "Verif.Props.C104_strings",
    "Verif.Props.C104_keyword"
   ],
   "note": "C104_output is the whole claim; C104_signs, C104_names, C104_ints and C104_strings single out the four kinds, C104_value is the same for the values of aliases. C104_keyword shows that a name made by concat may be a keyword which is written nowhere."
  },
  {
   "property": "C105",
   "status": "proved",
   "theorems": [
    "Verif.Props.C105_output",
    "Verif.Props.C105_copies",
    "Verif.Props.C105_loops",
    "Verif.Props.C105_piece",
    "Verif.Props.C105_matters"
   ],
   "note": "C105_output also compares failures. C105_copies and C105_loops are for one copy at a time. C105_matters is the converse for an invocation, C105_piece for a piece of code that is replaced at once; there the change need not be a change of the text of one token, since no cancellation is possible if only one alias changes."
  },
  {
   "property": "C106",
   "status": "partial",
   "theorems": [
    "Verif.Props.C106_code",
    "Verif.Props.C106_code_again",
    "Verif.Props.C106_exact",
    "Verif.Props.C106_partial",
    "Verif.Props.C106_again",
    "Verif.Props.C106_false"
   ],
   "note": "False in general (C106_false): the first values may contain aliases or placeholders of the second invocation, and of percents next to each other each expansion takes some away, so that \"%%x%%\" becomes a placeholder. Proved if the first values contain nothing that the second replaces (Inert) and no two percents are next to each other in the strings of the code. For the replacement itself C106_exact says when: exactly if the second changes no value of the first and formatting twice is formatting once. Where C93 lets the second definitions use the first aliases, here they do not, but the first values need not be read again: they are of any kind and need no condition other than Inert."
  },
  {
   "property": "C107",
   "status": "partial",
   "theorems": [
    "Verif.Props.C107_partial",
    "Verif.Props.C107_definitions",
    "Verif.Props.C107_false"
   ],
   "note": "False in general (C107_false): normalize works on the text as it stands, an alias whose value is a string is written as the string was spelled, and concat(c, hash(\"a\")) hashes the text with its quotes, because a name is expected and only the overload of hash for tokens gives one. Proved for strings in the code and for strings given to upper, lower, snake_case, camel_case, pascal_case, normalize2, to_ident or to a concat of strings, at any depth in the definitions, and for a hash of a string which is the whole value of a definition; C107_definitions covers failures as well."
  },
  {
   "property": "C108",
   "status": "partial",
   "theorems": [
    "Verif.Props.C108_partial",
    "Verif.Props.C108_false"
   ],
   "note": "False in general (C108_false): concat(x, 0x10) is x0x10, since a number joined with a name is taken as tokens, and an alias for a number is written as the number was spelled. Proved for numbers given to normalize2 or to a concat of numbers, at any depth."
  },
  {
   "property": "C109",
   "status": "partial",
   "theorems": [
    "Verif.Props.C109_partial",
    "Verif.Props.C109_false"
   ],
   "note": "False in general (C109_false): in upper(concat(hash(to_str(to_ident(to_ident(x)))), hash(\"a\"))) both overloads of upper cost 24, so that the one registered first is used, and with the other one the definition is refused. Proved where hash of a string is not an argument of another call: then no two usable overloads tie."
  },
  {
   "property": "C110",
   "status": "proved",
   "theorems": [
    "Verif.Props.C110_read",
    "Verif.Props.C110_definitions",
    "Verif.Props.C110_functions",
    "Verif.Props.C110_added"
   ],
   "note": "C110_read: the same trees. C110_definitions: the same values and errors, if the called functions are the same. C110_functions and C110_added: whole invocations, for two tables, and for the table of the crate beside any other."
  },
  {
   "property": "C111",
   "status": "proved",
   "theorems": [
    "Verif.Props.C111_same_outcome",
    "Verif.Props.C111_visits",
    "Verif.Props.C111_worst",
    "Verif.Props.C111_held",
    "Verif.Props.C111_entries",
    "Verif.Props.C111_flat_exact"
   ],
   "note": "Model/Copies lists the copied scopes. C111_same_outcome: the outcome is that of the model. C111_visits and C111_worst: the number of copies. C111_held and C111_entries: what a copy holds. C111_flat_exact: the exact number without calls within calls."
  },
  {
   "property": "C112",
   "status": "partial",
   "theorems": [
    "Verif.Props.C112_partial",
    "Verif.Props.C112_false"
   ],
   "note": "False (C112_false): the tokens of the value are put in as they are, so that x * 2 becomes a + b * 2, and x.abs() with x = -1 becomes -1.abs(). C112_partial: if the aliases written in the code stand for single token trees (names, literals, anything in parentheses or passed on as a fragment by an outer macro), each copy has one token tree for each of the code, at every depth, so that operators keep their operands. Without where-clauses on items and semicolons, as for C66."
  },
  {
   "property": "C113",
   "status": "partial",
   "theorems": [
    "Verif.Props.C113_partial",
    "Verif.Props.C113_false"
   ],
   "note": "False (C113_false): names are compared by their spelling, so that r#x in the code is not the alias x, x and r#x can both be defined, upper(r#a) panics and a placeholder shows the r#. C113_partial: r# on names in the code and on names that aliases stand for (in definitions or in the lists of loops, directly or by way of further aliases) makes no difference to the generated code apart from r#, provided aliases are written as they were defined, such names are not given to functions, and strings in the code have no placeholders."
  },
  {
   "property": "C114",
   "status": "partial",
   "theorems": [
    "Verif.Props.C114_partial",
    "Verif.Props.C114_exact",
    "Verif.Props.C114_false"
   ],
   "note": "False (C114_false): in a token stream a lifetime is a quote and a name, and the name is replaced like any other, so that with a = b the lifetime 'a becomes 'b, and with a = 1 the invocation is rejected. C114_partial: if no lifetime or label in the code is named like an alias, all of them are in each copy, in the same order, and there are no others but those in values. C114_exact: if the aliases in the code stand for names, the lifetimes of a copy are those of the code with these names for the aliases, so that they are changed exactly if one is named like an alias for another name. Without where-clauses on items and semicolons, as for C66."
  },
  {
   "property": "C115",
   "status": "proved",
   "theorems": [
    "Verif.Props.C115_literals",
    "Verif.Props.C115_kept",
    "Verif.Props.C115_warned"
   ],
   "note": "By C66_fields, so that syn may print t.0.1 as t . 0 . 1 (byField). C115_literals gives the literals of each copy exactly if no value contains literals, and those of the code in order among them otherwise; C115_kept is the part about literals other than strings, without placeholders and values. C115_warned is the same with semicolons."
  },
  {
   "property": "C116",
   "status": "proved",
   "theorems": [
    "Verif.Props.C116_exact",
    "Verif.Props.C116_none_left",
    "Verif.Props.C116_warned"
   ],
   "note": "By C66_fields (syn may print t.0.1 as t . 0 . 1). C116_warned is for definitions with semicolons, where the names in the attribute with the warning are added. Aliases in values are left, since inserted code is not expanded again (C13): with y = Vec<x> the x stays."
  },
  {
   "property": "C117",
   "status": "partial",
   "theorems": [
    "Verif.Props.C117_partial",
    "Verif.Props.C117_false"
   ],
   "note": "False (C117_false): only placeholders in percent signs are replaced in strings, so that with x = a the parameter x of a function becomes a, and println!(\"{x}\") in it refers to something else. C117_partial: if no alias is an inline argument and the strings have no percent signs, the strings have the same inline arguments in each copy, and the names they refer to are still there. Arguments of widths and precisions ({:w$}) are not considered."
  }
 ]
}