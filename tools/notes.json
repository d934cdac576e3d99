{
 "C01": {
  "note": "False in general: '²' is alphanumeric but not XID_Continue (witness). Exact: it holds if and only if all letters and digits of the text may occur in identifiers and the first one, unless a digit, may start one (so for all ASCII texts)."
 },
 "C04": {
  "note": "False as documented (a__ -> a_, witness). Proved: exact description of when a leading/trailing underscore can remain. C04_exact: the result ends with '_', without being '_', iff the text ends with an underscore, special characters and one last character that is no letter or digit, after some letter or digit."
 },
 "C05": {
  "note": "False (a__). Proved: idempotent at s iff the normal form is '_' or does not end in '_'; C05_exact: iff the text does not end with an underscore, special characters and one last character that is no letter or digit, after some letter or digit."
 },
 "C09": {
  "note": "False for runs of 3+ percents or after a placeholder (witnesses). Proved: escaping any text without adjacent percents round-trips; exact law for runs. C09_exact: escaping round-trips iff no two percents are adjacent."
 },
 "C40": {
  "note": "False for zero sources (witness); proved for one or more sources at every iteration state. C40_exact: reset restores the initial sequence iff there is a source."
 },
 "C12": {
  "note": "False to the letter: every string literal is rebuilt, so raw string literals are respelled (witness). Proved: the same tokens up to the spelling of string literals; exact: literally the same tokens if and only if the string literals are spelled plainly."
 },
 "C15": {
  "note": "Bound 2*tokens+1 iterations for every visitor that does not rewrite on entry; a diverging visitor shows that the condition is needed."
 },
 "C16": {
  "note": "Exact success condition, the alias named in the error, and the case (only string literals replaced before) where the code panics instead."
 },
 "C42": {
  "note": "False: match_tuples compares breadth-first shapes level-wise only (witness). Exact: accepted if and only if the level-by-level readings have values and tuples at the same positions, and then bound in that order; for flat patterns this is equality of shapes."
 },
 "C20": {
  "note": "False for identifiers that are keywords (concat(f, n) = fn, coerced to a type; witness). Exact: an accepted coercion fails if and only if it makes a type or expression of an identifier that the grammar does not accept as one. With the built-in table the failing coercion is never selected (see C23)."
 },
 "C31": {
  "note": "Digits in order: proved. Flattening is false for an inner concatenation with a leading zero (witness); exact: it holds if and only if there is none or the inner one is just 0."
 },
 "C36": {
  "note": "False: raw identifiers, identifiers emptied by a case function, negative integers, characters such as '²' (witnesses). Proved: exact crash conditions of the case functions, concat and normalize; hash never crashes."
 },
 "C22": {
  "note": "Recorded overload is applicable and strictly first in (cost, variadic, parameters, declaration); errors only if none is applicable; permuting overload lists leaves every result identical. Reordering overloads changes the error of a call that fits none only in the order of the signatures listed."
 },
 "C23": {
  "note": "For the built-in function table and any external parsers: after a successful check the only failures are ordinary errors, or a panic inside an applied built-in function on arguments of its parameter types (C36)."
 },
 "C24": {
  "note": "Side-table implementation simulates a pure typing/evaluation without ids, tables or scopes; the only divergence is cost overflow (C29)."
 },
 "C25": {
  "note": "For the definition list of one iteration and for whole invocations: success implies distinct names in every iteration, a repeated name makes the expansion fail; with no iteration (empty loop list) duplicates go unreported."
 },
 "C29": {
  "note": "False: 30 nested concat calls overflow u32 (witness for every seed). Proved: no overflow while 5*nodes*2^nesting < 2^32."
 },
 "C35": {
  "note": "Values have the recorded type, calls the output type of the chosen overload; every function application gets arguments of exactly its parameter types."
 },
 "C17": {
  "note": "False: where-clauses of structs, enums, unions, traits and impls are lost, and an alias called union is not replaced as an item keyword (witnesses). Proved: the result is exactly the token-level substitution of the block without those where-clauses; it succeeds iff every piece does."
 },
 "C18": {
  "note": "False for inner attributes (panic for every grammar and surrounding code). Exact, for a grammar that does not look into string literals: there is a panic if and only if the first piece that does not succeed is a list of attributes that are not outer ones and in which no alias comes before the first string literal."
 },
 "C57": {
  "note": "The error of a block is the error of the first piece (in text order) that does not succeed, whatever follows it, even if that would panic."
 },
 "C28": {
  "note": "For the parser: such input is read as a value, and its only error is a syntax error. For whole invocations: no input, on any thread and after any history, makes a macro report an undefined function."
 },
 "C44": {
  "note": "For every behaviour of the Rust grammar (how many tokens each syntactic category reads is a parameter)."
 },
 "C45": {
  "note": "Proved for compose!/compose_idents!, including the separator after the block. False for compose_item, whose extra trailing separator may differ (witness). C45_exact: definitions of an attribute are accepted iff their separators agree and at most one separator, of either kind, follows."
 },
 "C46": {
  "status": "partial",
  "note": "Same syntax trees (both directions), and equal outputs for equal seeds, or for any seeds if hash is not called. False for definitions ending in ';' when the value is not a call (witness: a = x;); on a fresh thread the warnings of the two forms name different macros. Assumes that the Rust grammar reads no path/type/expression across a ',' (StopsAtSep), and that the definitions do not end with a fragment inserted by macro_rules! (Solid). C46_exact: the outputs agree if and only if the definitions can be read up to their end (ReadsClosed), or are not read in either form."
 },
 "C47": {
  "note": "Assumes that the Rust grammar reads no path, type or expression beyond a block followed by the separator (StopsAtBlock); shown for the example grammar."
 },
 "C48": {
  "note": "Raw argument: proved. Arguments are the pieces between commas when each piece is read completely; otherwise all arguments are silently dropped (witness lower(a) b, c), which is also characterised exactly. C48_exact: the arguments are read from the pieces iff nothing is left over after any piece."
 },
 "C49": {
  "note": "Proved for definitions whose values are function calls; false otherwise (witness a = x; b = y). C49_exact: with ';' definitions are accepted iff all values are calls (values without separators of their own)."
 },
 "C58": {
  "note": "Soundness and completeness of the parser model against a declarative grammar, both forms."
 },
 "C33": {
  "note": "Ids are drawn by an atomic counter: any total order of the draws of all invocations. Bound 2^64 is tight."
 },
 "C50": {
  "note": "For every schedule of draws of concurrent invocations, every input, every behaviour of the Rust grammar; also disjoint between invocations."
 },
 "C43": {
  "note": "For every world, history, schedule and input that gives code."
 },
 "C54": {
  "note": "Code iff every iteration succeeds; otherwise the failure of the first failing iteration, a type error if some combination cannot be bound, a parse error if the input cannot be read. A panic (see C36, C29) is reported by the compiler as an error as well."
 },
 "C51": {
  "note": "For every history, including failing and panicking invocations."
 },
 "C52": {
  "note": "False: the prefix is that of the first invocation on the thread (witness). Exact: the warnings start with the name of the macro first invoked on the thread."
 },
 "C55": {
  "note": "False because of the prefix of warnings (witness, see C52). Proved without ';' or for the same first macro: no dependence on history, ids and hash map orders; with hash only through the seed. C55_exact: with the same seed or without hash, two histories give the same output iff they start with the same macro or the output has no warnings."
 },
 "C59": {
  "note": "Composition of C17, C43, C53 and C58 from input tokens to output tokens; hypotheses on syn: blocks print as parsed, statements in braces are blocks (demo instance meets them). No alias named like a contextual item keyword (see C17)."
 },
 "C61": {
  "note": "Leaving out: for invocations that succeed with the definition (an ill-typed unused definition makes an invocation fail). Adding (C61_added): that the definition has a value is said by an invocation in which it is the last one."
 },
 "C64": {
  "note": "Definitions: same values or the same failure. Output: for invocations that both give code, with commas as separators (no warning positions). Arguments of raw and normalize are tokens and are not renamed; where-clauses that the visitor drops (C17) are not looked at. Errors are compared without the definition they quote. C64_text renames the alias in the tokens of the input (names, and placeholders in strings), by way of C92."
 },
 "C65": {
  "note": "Proved for whole invocations (C65_says_what_is_wrong, C65_parse_iff, C65_never_internal, C65_panics). The kind and arguments of the error are modelled; the wording of messages is not."
 },
 "C66": {
  "note": "Text of blocks and items stated as a relation of its own (Spec/Text); syn is assumed to parse by it up to spacing, except `trait T: {}`, which syn prints without the colon. C66_fields needs less of syn: `t.0.1` may be printed as `t . 0 . 1`, which syn does. Where-clauses: C17_false. C66_warned is the same with semicolons, where each copy may get one attribute with the warning."
 },
 "C67": {
  "note": "Messages of syn itself (parse errors, the last line of cast and substitution errors) are parameters. Spans: C76, C77, C85."
 },
 "C68": {
  "note": "False of the code: string literals are quoted without escapes, integers in base ten, and arguments that cannot be read are left out (C68_quotes_call_false, C68_arguments_dropped_false). Proved: calls with one argument, and calls whose arguments are identifiers, paths, types, expressions, tokens, plain literals or calls with one argument, are quoted as written; C68_exact says for every call what is quoted, from its tokens."
 },
 "C26": {
  "note": "Errors are compared without the definition they quote."
 },
 "C34": {
  "note": "Errors are compared without the definition they quote."
 },
 "C69": {
  "note": "Proved for values of every kind; of the paths only for those that consist of names. False otherwise: Vec<u8> and Vec<u16> are both shown as Vec. Exact: a path is shown by the names of its segments, so two paths are shown alike iff these are the same."
 },
 "C70": {
  "note": "Reading of syn's look-through of groups without delimiters is modelled for single tokens and delimited groups. Longer fragments (Vec<u8>) are values with the group kept."
 },
 "C71": {
  "note": "gen, reserved in edition 2024, counts as a name, as in syn 2."
 },
 "C72": {
  "note": "False for type (refused as a keyword: the arm \"type\" cannot be reached), expr and raw (no arm) and all variadic types; proved for the other five. Only their names are read (C72_exact)."
 },
 "C73": {
  "note": "False for hash of a string: by itself this is a string, where an identifier, a path, a type or an expression is expected the overload for tokens is used (C73_false; C73_hash says exactly which overload is used where). Proved for all expressions without hash of a string."
 },
 "C74": {
  "note": "False for hash of a string, and one of the two may be an error: to_ident(to_ident(to_ident(f))) makes the other overload of concat win, which refuses keywords (C74_false). Proved for definitions without hash of a string: if both succeed the output is the same (C74_partial); if one succeeds the other one gives the same code, or concat refuses its arguments in it, or it panics (C74_or_refused_partial). raw(...) and normalize(...) take tokens, not expressions; nothing is replaced inside them."
 },
 "C75": {
  "note": "The other RefCell, that of the deprecation service, is only borrowed for single operations that do not come back to it."
 },
 "C76": {
  "note": "Not so for calls that fit no overload (C76_innermost_false): errors of arguments are discarded with the overload, so the outermost call of the definition is blamed, and C76_signature says exactly that. Casts carry the span of the error of syn, which is outside of the model."
 },
 "C77": {
  "note": "False (C77_false): the arguments of a call are resolved anew for each overload of the function, so d nested calls of normalize2 take (7*5^d-3)/4 visits (C77_exponential), more than any polynomial. This is the worst case: C77_worst bounds the visits by (7*5^d-3)/4 for each value that stands in the definitions, and the towers of C77_exponential attain it. Evaluation is linear (C77_evaluation); resolution is linear for calls that are not nested (C77_resolution_partial, C77_worst). Copying the metadata for each overload (deep_clone) is not counted here: see C111."
 },
 "C78": {
  "note": "The tables are exactly those of the code (C78_tables). What has a type by the tables is resolved, with that type (C78_type, C78_unique, C78_values). False for hash of a string (C78_false): concat(hash(to_str(to_str(to_str(to_str(x))))), \"b\") is an identifier although its arguments are strings, because the costs of the inner to_str outweigh; with fewer to_str it is a string. Proved apart from that: C78_only_partial, C78_exact_row_partial."
 },
 "C79": {
  "note": "False for two examples of functions (C79_false: to_path(concat(std, ::, vec)) and to_type(concat(Vec, <, u32, >)) are rejected, since concat is an identifier whenever its first argument is, C79_concat) and one of types (C79_type_false: Result<u32, Error> is a path). All other examples hold (C79_calls_partial, C79_values_partial, C79_aliases, C79_hash). Read with the Rust reader of Lite; hash results are placeholders in the tables."
 },
 "C80": {
  "note": "For invocations with the same seed (or without hash) and the same warnings (SameSetting). The first two laws hold for failures and panics as well."
 },
 "C81": {
  "note": "With loops it is false (an example shows it), since whole copies follow each other; with warnings each part would get its own."
 },
 "C82": {
  "note": "Assumes of the external code only what it does with ASCII texts (AsciiExt); an instance is shown to meet it. C82_needed shows that each of the conditions on values and functions is needed: camel_case(hash(a)), camel_case(_1), concat(r#type, y), normalize(\"²\"), concat(1, -1) and concat(1, to_int(-1)) panic."
 },
 "C83": {
  "note": "The places are token sequences instead of spans. The messages of syn itself are represented by what was expected."
 },
 "C84": {
  "note": "Assumes that syn's parsers of paths, types and expressions stop before a comma in the same way as before the end (IgnoresComma; only needed for values of loops) and are not misled by what comes after it (StopsBeforeComma; only needed for values that are not calls). C84_partial covers all commas in loops and in the calls that are values of definitions; other values may stand between them. False for raw and normalize only (C84_false); for normalize exactly if the text ends with an underscore and has a letter or digit (C84_normalize_exact)."
 },
 "C85": {
  "note": "StandsInput (Spec/SpanReads) says which spans the parser gives to nodes: values keep their tokens, a call has the span of the name of the function; C85_source shows that every input has exactly one such source. A group has one span. C85_same_values, C85_same_code and C85_same_block tie the model with spans to the one without. For blocks (C85_block, C85_whole_block) syn's parser is a parameter that parses the same blocks with and without spans (SameTrees) and loses no tokens; as in C17 where-clauses are dropped and no alias may be a keyword of items. C85_same_print ties the printed code to that without spans. C85_warnings and C85_output cover the deprecation attributes, whose tokens point to the invocation. C85_any_spans and C85_any_parser show that blocks with spans can have any spans, so that the assumptions on the parser with spans follow from those on the parser without."
 },
 "C86": {
  "note": "False as stated (C86_false, on source text): Result<u32, E> is one value in a definition and two arguments of a call; (u8, u16) is a type in a definition and a tuple in a loop. C86_exact says exactly which values of definitions are one argument. StopsBeforeComma is the assumption on syn's parsers; it is proved for the grammar of the examples."
 },
 "C87": {
  "note": "The messages are told by what was expected and the tokens left at the place (Report); texts of syn itself are not modelled. TupleFault (Spec/Reports) says what is wrong with a tuple of names without a parser."
 },
 "C88": {
  "note": "C88_gives_code assumes, like C17, that the blocks of statements in the code are parsed as such. C88_names assumes a grammar to which names that are not special (keywords, contextual ones included) are all the same."
 },
 "C90": {
  "status": "partial",
  "note": "Proved when both calls have the same type (str, tokens, or ident with an inner call that joins names), if hash is not called on a string: if both invocations succeed the output is the same (C90_partial); if one succeeds the other one gives the same code, or concat refuses its arguments in it, or it panics (C90_or_refused_partial). False in general (C90_false): concat(1, concat(a, b)) is `1 ab`, not `1 a b`; concat(a, concat(0x10)) is a16, not a0x10; concat(x, concat(1, b)) is rejected, concat(x, 1, b) is x1b."
 },
 "C91": {
  "status": "proved",
  "note": "syn's TokenBuffer and Cursor are modelled (Model/Cursor) as far as they are used here. Sees says which tokens a cursor has in front of it, without reference to the operations; C91_cursors shows that the operations keep it right."
 },
 "C92": {
  "status": "proved",
  "note": "BlindSyn is the assumption on syn: its parsers for paths, types, expressions and blocks do not distinguish names other than keywords (it is proved of the grammar in Lite, see lite_same_reading). C92_only is the converse; C92_code says that the code is the replaced one when blocks print as they were read. C92_in_force: the definitions in force in the iterations are those with the replacements. The theorems speak of the relation Reads of the specification, not of the parser of the model: an edit of the parser alone does not break them. That the model reports a parse error for exactly the inputs outside Reads is C65_parse_iff."
 },
 "C93": {
  "status": "partial",
  "note": "False in general (C93_false): the outer invocation also changes what the inner one takes verbatim, such as the arguments of normalize and raw and the strings in its definitions, and percents next to each other are treated twice. C93_outer, C93_definitions, C93_code and C93_partial prove it when the outer aliases stand for names, which the inner definitions use only as values of their own (LeafOnly), the two do not define or write each other's aliases, and no string in the code has two percents next to each other (placeholders of both are fine). The outer invocation may have loops. C93_definitions also covers failures; C93_partial is up to spacing and for invocations that succeed. C93_written and C93_values_partial prove it for outer values of any kind, if they are read as what they are where the inner definitions use them (PastedDefs with writtenLeaf) and, for the code, if the inner aliases mean nothing in them (Inert). Values which are read as something else are missing; they may get another type."
 },
 "C94": {
  "status": "proved",
  "note": "C94_exact: an equivalence for whole invocations, with inductive descriptions of the first mismatch in the loops, the first ill-typed definition, the first refused call and the first piece which breaks. Together with C88 (when there is code) this also says when there is a panic. Blocks of statements are such when the code is parsed (hypothesis, as in C17)."
 },
 "C95": {
  "status": "proved",
  "note": "C95_exact, an equivalence for whole invocations; with C88 (code) and C94 (errors) the outcome of an invocation is described completely. Assumes that `_` is no letter and that `_` and digits may be inside identifiers, as in Unicode."
 },
 "C96": {
  "status": "proved",
  "note": "C96_value gives the identifier; C96_names and C96_copies are the claim for two iterations and for the copies of the code. Not true, and not claimed, if more than one of the joined names varies (for x in [a, ab] for z in [bc, c] makes abc twice), nor for the case functions (C96_two_vary). The copies are compared up to spacing."
 },
 "C97": {
  "status": "partial",
  "note": "Model/Release is the macro with wrapping arithmetic. The claim is false (C97_false): where the costs of overloads reach 2^32 the build with checks panics, and the one without takes the wrong overload of concat and puts out four tokens instead of one name. Proved for everything else: whenever the build with checks does not panic (C97_partial), and, panics included, whenever no cost overflows (C97_no_overflow_partial), in particular when the expressions are small (C97_small_partial)."
 },
 "C98": {
  "status": "partial",
  "note": "The claim is false (C98_false): normalize sees quotes, escape sequences and the radix, normalize2 does not: \"a_\", \"a\\nb\" and 0x10 give different names. C98_exact says exactly when the two differ: where the printed tokens and the contents of the value have different normal forms. Then C98_partial proves the claim for whole invocations, at any depth, in all other cases; they include all names, paths, types, expressions and tokens (C98_plain), numbers written in base ten (C98_number), and strings without escape sequences unless they end with an underscore after a letter or a digit (C98_string, C98_string_exact)."
 },
 "C99": {
  "status": "partial",
  "note": "The claim is false (C99_false): normalize2 takes one trailing underscore away each time, a hash has another hash, and the camel_case and pascal_case of heck are not idempotent. C99_words_partial proves it (more generally f(g(e)) for f(e)) for all functions on words wherever the function on texts is idempotent, for any argument at any depth; C99_string_exact and C99_name_exact say that this is exactly where the results agree. C99_normalize2_partial proves it for normalize2 of values for which normalize is idempotent (C05_exact), at any depth. C99_casts_partial proves it for the casts, for any argument, at any depth except inside the first argument of concat, where it is false (C99_casts_false). Both allow that one of the two invocations panics, as costs may overflow in one only."
 },
 "C100": {
  "status": "partial",
  "note": "The claim is false if the size of the definitions is their sum or any power of it (C100_false, for all constants and powers): each definition can double the one before. C100_partial proves it with the product of the sizes of the definitions: each copy has at most as many tokens as the block times the product, and twelve for the warning about semicolons. C100_value bounds each value by its text with the values of aliases put in, C100_values_partial by the product, and C100_code says exactly how long code is after the replacement. Tokens are counted, not characters: names and strings can grow, too."
 },
 "C101": {
  "note": "C101_read bounds expressions by the tokens of the input, C101_value and C101_values bound values by what is written in the definitions, C101_code the replacement of aliases, C101_output and C101_whole the whole output. The code of the block is compared by its nesting (hypothesis on q: parsing and printing code keeps its nesting); as in C59 no alias is one of the keywords with which items begin."
 },
 "C102": {
  "note": "The model with a record of what is parsed (Model/Parses, Model/VisitorParses) repeats the walker and the visitor; C102_same shows that the record changes nothing. C102_node and C102_block say what is parsed in which order, C102_count and C102_block_count how often, C102_amount and C102_amount_least how much; C102_quadratic shows that it is not linear in the code. The parsing of a literal as a string (one token) and the parsing of the macro's input are not recorded, and the record is lost when the macro panics inside a block."
 },
 "C103": {
  "status": "partial",
  "note": "C103_partial and C103_between_partial prove the claim under the conditions given in the statement; C103_text_false, C103_hash_false and C103_used_false show that none of them can be left out. The converse (C103_converse_partial): adding a cast gives the same code, or the cast is refused since the tokens of the alias are not code of that kind in some iteration, or the costs overflow; C103_exact puts the two together."
 },
 "C104": {
  "status": "proved",
  "note": "C104_output is the whole claim; C104_signs, C104_names, C104_ints and C104_strings single out the four kinds, C104_value is the same for the values of aliases. C104_keyword shows that a name made by concat may be a keyword which is written nowhere."
 },
 "C105": {
  "status": "proved",
  "note": "C105_output also compares failures. C105_copies and C105_loops are for one copy at a time. C105_matters is the converse for an invocation, C105_piece for a piece of code that is replaced at once; there the change need not be a change of the text of one token, since no cancellation is possible if only one alias changes."
 },
 "C106": {
  "status": "partial",
  "note": "False in general (C106_false): the first values may contain aliases or placeholders of the second invocation, and of percents next to each other each expansion takes some away, so that \"%%x%%\" becomes a placeholder. Proved if the first values contain nothing that the second replaces (Inert) and no two percents are next to each other in the strings of the code. For the replacement itself C106_exact says when: exactly if the second changes no value of the first and formatting twice is formatting once. Where C93 lets the second definitions use the first aliases, here they do not, but the first values need not be read again: they are of any kind and need no condition other than Inert."
 },
 "C107": {
  "status": "partial",
  "note": "False in general (C107_false): normalize works on the text as it stands, an alias whose value is a string is written as the string was spelled, and concat(c, hash(\"a\")) hashes the text with its quotes, because a name is expected and only the overload of hash for tokens gives one. Proved for strings in the code and for strings given to upper, lower, snake_case, camel_case, pascal_case, normalize2, to_ident or to a concat of strings, at any depth in the definitions, and for a hash of a string which is the whole value of a definition; C107_definitions covers failures as well."
 },
 "C108": {
  "status": "partial",
  "note": "False in general (C108_false): concat(x, 0x10) is x0x10, since a number joined with a name is taken as tokens, and an alias for a number is written as the number was spelled. Proved for numbers given to normalize2 or to a concat of numbers, at any depth."
 },
 "C109": {
  "status": "partial",
  "note": "False in general (C109_false): in upper(concat(hash(to_str(to_ident(to_ident(x)))), hash(\"a\"))) both overloads of upper cost 24, so that the one registered first is used, and with the other one the definition is refused. Proved where hash of a string is not an argument of another call: then no two usable overloads tie."
 },
 "C110": {
  "status": "proved",
  "note": "C110_read: the same trees. C110_definitions: the same values and errors, if the called functions are the same. C110_functions and C110_added: whole invocations, for two tables, and for the table of the crate beside any other."
 },
 "C111": {
  "status": "proved",
  "note": "Model/Copies lists the copied scopes. C111_same_outcome: the outcome is that of the model. C111_visits and C111_worst: the number of copies. C111_held and C111_entries: what a copy holds. C111_flat_exact: the exact number without calls within calls."
 },
 "C112": {
  "status": "partial",
  "note": "False (C112_false): the tokens of the value are put in as they are, so that x * 2 becomes a + b * 2, and x.abs() with x = -1 becomes -1.abs(). C112_partial: if the aliases written in the code stand for single token trees (names, literals, anything in parentheses or passed on as a fragment by an outer macro), each copy has one token tree for each of the code, at every depth, so that operators keep their operands. Without where-clauses on items and semicolons, as for C66."
 },
 "C113": {
  "status": "partial",
  "note": "False (C113_false): names are compared by their spelling, so that r#x in the code is not the alias x, x and r#x can both be defined, upper(r#a) panics and a placeholder shows the r#. C113_partial: r# on names in the code and on names that aliases stand for (in definitions or in the lists of loops, directly or by way of further aliases) makes no difference to the generated code apart from r#, provided aliases are written as they were defined, such names are not given to functions, and strings in the code have no placeholders."
 },
 "C114": {
  "status": "partial",
  "note": "False (C114_false): in a token stream a lifetime is a quote and a name, and the name is replaced like any other, so that with a = b the lifetime 'a becomes 'b, and with a = 1 the invocation is rejected. C114_partial: if no lifetime or label in the code is named like an alias, all of them are in each copy, in the same order, and there are no others but those in values. C114_exact: if the aliases in the code stand for names, the lifetimes of a copy are those of the code with these names for the aliases, so that they are changed exactly if one is named like an alias for another name. Without where-clauses on items and semicolons, as for C66."
 },
 "C115": {
  "note": "By C66_fields, so that syn may print t.0.1 as t . 0 . 1 (byField). C115_literals gives the literals of each copy exactly if no value contains literals, and those of the code in order among them otherwise; C115_kept is the part about literals other than strings, without placeholders and values. C115_warned is the same with semicolons."
 },
 "C116": {
  "note": "By C66_fields (syn may print t.0.1 as t . 0 . 1). C116_warned is for definitions with semicolons, where the names in the attribute with the warning are added. Aliases in values are left, since inserted code is not expanded again (C13): with y = Vec<x> the x stays."
 },
 "C117": {
  "status": "partial",
  "note": "False (C117_false): only placeholders in percent signs are replaced in strings, so that with x = a the parameter x of a function becomes a, and println!(\"{x}\") in it refers to something else. C117_partial: if no alias is an inline argument and the strings have no percent signs, the strings have the same inline arguments in each copy, and the names they refer to are still there. Arguments of widths and precisions ({:w$}) are not considered."
 }
}