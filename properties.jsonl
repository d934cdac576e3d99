{"id": "C01", "title": "normalize yields a lexically valid identifier", "statement": "normalize(...)/normalize2(...) turn any input text into a string that is lexically a Rust identifier (non-empty, legal first character, legal following characters).", "quantifier": "every input text (all lengths, all characters)", "why_tests_cant": "Tests sample two dozen strings; the first-character, last-character and digit cases interact for every length.", "anchors": ["src/funcs.rs: normalize", "src/core/environment/init_funcs.rs: normalize, normalize2"]}
{"id": "C02", "title": "normalize loses and invents no letters or digits", "statement": "The letters and digits of normalize's output are exactly the letters and digits of the input, in the same order; everything else in the output is an underscore.", "quantifier": "every input text", "why_tests_cant": "Needs an invariant over the whole scan, for all lengths.", "anchors": ["src/funcs.rs: normalize"]}
{"id": "C03", "title": "normalize inserts no doubled underscores", "statement": "If the input contains no underscore, the output never contains two consecutive underscores; a text that is already made of identifier characters and neither starts nor ends with an underscore nor starts with a digit is returned unchanged.", "quantifier": "every input text", "why_tests_cant": "A doubled underscore may need an arbitrarily long run of special characters.", "anchors": ["src/funcs.rs: normalize"]}
{"id": "C04", "title": "normalize strips leading and trailing underscores", "statement": "The documented claim that redundant leading and trailing underscores (generated or original) are stripped from the result.", "quantifier": "every input text", "why_tests_cant": "The claim fails only for particular tails (for example two trailing underscores); tests missed it.", "anchors": ["src/funcs.rs: normalize (doc comment lines 44-49)"]}
{"id": "C05", "title": "normalize is idempotent", "statement": "Normalizing an already normalized text changes nothing.", "quantifier": "every input text", "why_tests_cant": "Quantifies over all texts; sampled tests never re-normalize.", "anchors": ["src/funcs.rs: normalize"]}
{"id": "C06", "title": "strings without a percent sign are never altered", "statement": "A string literal of the block that contains no '%' has the same value after expansion, whatever aliases are defined.", "quantifier": "every string value and every set of aliases", "why_tests_cant": "All strings and alias sets.", "anchors": ["src/substitution/format_string.rs: format_string"]}
{"id": "C07", "title": "placeholders are replaced by the alias value, ignoring whitespace", "statement": "In a string literal, '%' ws alias ws '%' (any whitespace, neither percent adjacent to another percent) is replaced by the text of the alias value, and the text before and after it is treated as if it stood alone.", "quantifier": "every prefix, suffix, whitespace layout, alias set", "why_tests_cant": "Infinitely many layouts; the scan is stateful.", "anchors": ["src/substitution/format_string.rs: format_string, format_value"]}
{"id": "C08", "title": "unknown and unterminated placeholders are kept verbatim", "statement": "A string literal without '%%' none of whose placeholders names a defined alias keeps its value exactly.", "quantifier": "every string without two adjacent percents and every alias set not matching its placeholders", "why_tests_cant": "Tests check two literals.", "anchors": ["src/substitution/format_string.rs: format_string"]}
{"id": "C09", "title": "'%%' yields one percent sign", "statement": "Escaping: every '%%' in a string literal produces a single '%' (documented in the changelog).", "quantifier": "every string of percents and text", "why_tests_cant": "Fails only for runs of three or more percents or when directly following a placeholder.", "anchors": ["src/substitution/format_string.rs: format_string lines 38-43", "CHANGELOG.md v0.3.0"]}
{"id": "C10", "title": "string formatting is completely characterised by its percent-delimited pieces", "statement": "The formatted value of every string is the one given by a short recursive description over maximal percent-free pieces and maximal percent runs.", "quantifier": "every string and alias set", "why_tests_cant": "All strings.", "anchors": ["src/substitution/format_string.rs: format_string"]}
{"id": "C11", "title": "substitution is one simultaneous pass over the tokens", "statement": "A successful substitution in a piece of code replaces every occurrence of every alias identifier, at any nesting depth, by the tokens of the alias value and formats every string literal, and does nothing else: the result is the structural map over the token tree.", "quantifier": "every token tree (any depth and width) and every alias map", "why_tests_cant": "The walker is a hand-written stack machine with in-place splicing; correctness is an invariant over all trees.", "anchors": ["src/substitution/stream_visitor.rs: StreamWalker::walk, VisitorCtx", "src/substitution/substitute_idents.rs"]}
{"id": "C12", "title": "code that mentions no alias is left untouched", "statement": "If no alias identifier occurs in the code and no string literal contains '%', substitution returns the same tokens.", "quantifier": "every token tree and alias map", "why_tests_cant": "All trees.", "anchors": ["src/substitution/substitute_idents.rs", "src/substitution/stream_visitor.rs"]}
{"id": "C13", "title": "inserted code is not expanded again", "statement": "Alias names or '% alias %' placeholders occurring inside a substituted value are not substituted again in the block, so self-referring or mutually referring values cannot loop.", "quantifier": "every token tree and alias map, including values that contain alias names", "why_tests_cant": "Cursor arithmetic after splicing must be right for every replacement length.", "anchors": ["src/substitution/stream_visitor.rs: replace_current_token, advance_current_group"]}
{"id": "C14", "title": "grouping structure is preserved", "statement": "Substitution never changes, adds or drops the delimiters around the user's code: each group of the input corresponds to one group of the output with the same delimiter at the corresponding place.", "quantifier": "every token tree and alias map", "why_tests_cant": "All nestings.", "anchors": ["src/substitution/stream_visitor.rs: fold_group, pop_fold"]}
{"id": "C15", "title": "the token walk always terminates and never reaches an unreachable arm", "statement": "For every stream and every visitor that does not rewrite a group on entry, the traversal stops, after at most a number of steps linear in the size of the stream, with a result or an error and never by hitting unreachable!/index panics.", "quantifier": "every token tree and every such visitor, all states reached", "why_tests_cant": "Termination and absence of panics over all trees.", "anchors": ["src/substitution/stream_visitor.rs: walk"]}
{"id": "C16", "title": "substitution errors blame the right alias", "statement": "Substituting in a node fails exactly when, replacing the occurrences left to right, some intermediate stream stops being a valid node of that kind; the error names the alias whose replacement was the last one made and the replacement text.", "quantifier": "every token tree, alias map and validity predicate", "why_tests_cant": "Which occurrence is blamed depends on the whole left-to-right history.", "anchors": ["src/substitution/substitute_idents.rs: after_replace_mut, substitute_idents"]}
{"id": "C17", "title": "substitution reaches every part of every item", "statement": "For a block of any items and statements, the expansion of the block is the token-level substitution of the whole block: no syntactic position (attributes, visibility, generics, where-clauses, fields, variants, signatures, bodies, nested items) is skipped or lost.", "quantifier": "every block, any nesting of items", "why_tests_cant": "Positions times nesting is unbounded; the existing tests cover where-clauses only on functions.", "anchors": ["src/substitution/alias_substitution_visitor.rs"]}
{"id": "C18", "title": "well-formed blocks do not crash the substitution", "statement": "On a block whose parts are valid, substitution ends in a result or an error value, never in a panic.", "quantifier": "every block and alias map", "why_tests_cant": "All blocks; fails for inner attributes.", "anchors": ["src/substitution/alias_substitution_visitor.rs: visit_attrs_mut, OuterAttributes", "src/substitution/substitute_idents.rs lines 75-80, 103-114"]}
{"id": "C19", "title": "implicit coercions are exactly the documented ones", "statement": "A value of one type is accepted where another is expected exactly for equal types, ident to path/type/expr, anything to tokens and anything to raw; nothing else.", "quantifier": "every pair of types, including arbitrarily nested variadics", "why_tests_cant": "The type grammar is recursive.", "anchors": ["src/core/type_.rs: coercion_cost", "README.md: Coercion rules"]}
{"id": "C20", "title": "implicit coercions cannot fail and do not change code", "statement": "Whenever a coercion is accepted, performing it succeeds, the result has the requested type and (apart from ident to path/type/expr which re-parse the same identifier) exactly the same tokens.", "quantifier": "every value and every accepted target type", "why_tests_cant": "All values.", "anchors": ["src/ast/value.rs: try_cast", "src/eval/value.rs"]}
{"id": "C21", "title": "explicit casts preserve the text", "statement": "to_str then to_ident gives the identifier back; a successful to_path/to_type/to_expr/to_int/to_ident of tokens keeps the tokens; to_tokens and raw return their input tokens unchanged.", "quantifier": "every value", "why_tests_cant": "All values.", "anchors": ["src/ast/value.rs: try_cast", "src/funcs.rs", "src/core/environment/init_funcs.rs lines 380-500"]}
{"id": "C22", "title": "overload choice is the unique cheapest one", "statement": "The overload chosen for a call is applicable and minimises (coercion cost, variadic, number of parameters, declaration order) among all applicable overloads, independently of the order in which candidates are tried.", "quantifier": "every call expression, alias environment and function table", "why_tests_cant": "All calls and nestings.", "anchors": ["src/resolve/call.rs: Call::resolve"]}
{"id": "C23", "title": "accepted definitions evaluate without internal failures", "statement": "If alias definitions pass the checking phase, evaluating them never fails with a missing-metadata internal error or an unexpected-coercion panic.", "quantifier": "every list of alias definitions (any nesting of calls, any re-use of aliases)", "why_tests_cant": "Relates two passes communicating through a mutable side table keyed by node ids; all programs.", "anchors": ["src/resolve/*", "src/eval/*", "src/ast/core.rs"]}
{"id": "C24", "title": "rejected overloads leave no trace", "statement": "The types, costs and values obtained with the shared mutable side table are the same as those of a pure typing and evaluation of the expression: trying and abandoning overloads has no effect.", "quantifier": "every expression with distinct node ids, every environment", "why_tests_cant": "Interference between candidate attempts is a history property.", "anchors": ["src/resolve/call.rs: deep_clone, scope_candidate", "src/resolve/core.rs"]}
{"id": "C25", "title": "an alias cannot be defined twice", "statement": "If an expansion with at least one iteration succeeds, all alias names in force in each iteration (loop aliases and definitions) are pairwise distinct; conversely a repeated name makes it fail.", "quantifier": "every list of loop aliases and definitions", "why_tests_cant": "All lists.", "anchors": ["src/resolve/alias_spec_item.rs", "src/resolve/core.rs: try_add_name"]}
{"id": "C26", "title": "aliases see only earlier aliases", "statement": "The value of an alias depends only on the definitions before it: adding definitions after it does not change it, a definition never sees itself or later ones (such a name is taken literally), and a re-used alias behaves as its value.", "quantifier": "every list of definitions", "why_tests_cant": "All lists and positions.", "anchors": ["src/resolve/alias_spec_item.rs", "src/eval/alias_spec_item.rs", "src/eval/value.rs"]}
{"id": "C27", "title": "calls with the wrong number of arguments are rejected", "statement": "A call whose argument count fits no overload (exact for fixed overloads, at least the parameter count for variadic ones, any for raw ones) is rejected with a signature error, whatever the arguments.", "quantifier": "every call", "why_tests_cant": "All argument lists.", "anchors": ["src/resolve/call.rs: resolve_call_for_func"]}
{"id": "C28", "title": "a call to an unknown function is treated as a value", "statement": "name(...) with a name that is not a function is never reported as an undefined function; it is taken as an ordinary value.", "quantifier": "every input token stream", "why_tests_cant": "All inputs.", "anchors": ["src/parse/expr.rs", "src/parse/call.rs", "src/resolve/call.rs"]}
{"id": "C29", "title": "overload costs fit the 32-bit counter", "statement": "Cost accumulation does not overflow u32.", "quantifier": "every call nesting depth", "why_tests_cant": "Only fails at nesting depth 30.", "anchors": ["src/resolve/call.rs: resolve_arg line 43"]}
{"id": "C30", "title": "concat is plain concatenation", "statement": "concat of identifiers / strings / tokens gives exactly the concatenation of the texts / values / token sequences in argument order, so nested concats can be flattened.", "quantifier": "every list of arguments of any length", "why_tests_cant": "All lists.", "anchors": ["src/funcs.rs: concat", "src/core/environment/init_funcs.rs lines 261-379"]}
{"id": "C31", "title": "concat of integers is digit concatenation", "statement": "concat of integers has the digits of its arguments in order, and nesting can be flattened.", "quantifier": "every list of integer literals", "why_tests_cant": "Fails only when an inner concatenation starts with 0.", "anchors": ["src/core/environment/init_funcs.rs lines 342-360"]}
{"id": "C32", "title": "hash is deterministic within one invocation and always yields an identifier", "statement": "Within one macro invocation hash of equal texts is equal; the result of hash on identifiers and tokens is always a valid identifier, on strings a decimal number below 2^64.", "quantifier": "every text and seed", "why_tests_cant": "All texts.", "anchors": ["src/funcs.rs: hash", "src/core/environment/init_funcs.rs lines 206-260"]}
{"id": "C33", "title": "each invocation gets its own hash seed", "statement": "Any two macro invocations, in any order and on any threads, use different seeds (until 2^64 ids have been drawn).", "quantifier": "every history and interleaving of invocations", "why_tests_cant": "All schedules.", "anchors": ["src/util/unique_id.rs", "src/lib.rs: compose_core"]}
{"id": "C34", "title": "raw() and normalize() see their argument unevaluated", "statement": "For normalize(...) and raw(...) the result depends only on the literal argument tokens: aliases and function calls inside are not evaluated.", "quantifier": "every argument token sequence and every set of earlier aliases", "why_tests_cant": "All inputs.", "anchors": ["src/resolve/call.rs lines 88-98", "src/parse/call.rs"]}
{"id": "C35", "title": "every evaluated definition has the type it was checked with", "statement": "The value of an alias has exactly the type assigned by the checking phase; a call result has the declared output type of the chosen overload, or the type expected by the context.", "quantifier": "every definition list", "why_tests_cant": "All programs.", "anchors": ["src/eval/call.rs", "src/eval/value.rs", "src/resolve/*"]}
{"id": "C36", "title": "identifier functions never crash", "statement": "Applying upper, lower, snake_case, camel_case, pascal_case, normalize, normalize2, hash and concat to accepted arguments returns a value or an error, never panics.", "quantifier": "every argument", "why_tests_cant": "All identifiers; fails for raw identifiers and underscores.", "anchors": ["src/core/environment/init_funcs.rs: make_str_funcs, concat"]}
{"id": "C37", "title": "loops generate the full cross product in order", "statement": "Nested loops generate each combination of loop values exactly once, in lexicographic order with the first loop varying slowest.", "quantifier": "every number of loops and every list of values", "why_tests_cant": "All sizes.", "anchors": ["src/util/cross_product.rs", "src/expand/raw_ast.rs"]}
{"id": "C38", "title": "the number of generated copies is the product of the list lengths", "statement": "With loops, the block is generated once per combination; an empty list generates nothing; without loops it is generated once.", "quantifier": "every number and length of loops", "why_tests_cant": "All sizes.", "anchors": ["src/expand/raw_ast.rs: expand"]}
{"id": "C39", "title": "size_hint of the cross product is exact at every point", "statement": "After any number of next() calls the reported remaining size equals the number of combinations still to come (when the total fits usize), and no intermediate computation overflows.", "quantifier": "every list of sources and every iteration state", "why_tests_cant": "All states.", "anchors": ["src/util/cross_product.rs: size_hint, total_combinations"]}
{"id": "C40", "title": "reset restores the initial iteration", "statement": "After reset the cross product generates again everything it generated initially.", "quantifier": "every list of sources and every iteration state", "why_tests_cant": "Fails only for zero sources.", "anchors": ["src/util/cross_product.rs: reset"]}
{"id": "C41", "title": "tuple destructuring binds by position", "statement": "When a loop value tuple has the same (nested) shape as the alias tuple, every alias is bound to the value at the same position.", "quantifier": "every tuple shape of any nesting", "why_tests_cant": "The code pairs two breadth-first queues; all shapes.", "anchors": ["src/ast/tuple.rs", "src/expand/raw_ast.rs: make_spec_items"]}
{"id": "C42", "title": "tuples of a different shape are rejected", "statement": "If a loop value tuple does not have the shape of the alias tuple the expansion fails with a type error.", "quantifier": "every pair of tuple shapes", "why_tests_cant": "Fails only for pairs of shapes with equal breadth-first outline.", "anchors": ["src/expand/raw_ast.rs: match_tuples"]}
{"id": "C43", "title": "copies are emitted in order and see their own loop values", "statement": "The expansion is the concatenation, in iteration order, of the block rewritten with the aliases of that iteration, loop aliases first and in force for the definitions.", "quantifier": "every loop specification and definition list", "why_tests_cant": "All sizes.", "anchors": ["src/interpreter/core.rs: execute", "src/expand/raw_ast.rs"]}
{"id": "C44", "title": "values are classified by longest match, then by fixed priority", "statement": "A value is read as the kind (int, str, underscore, ident, path, type, expr) that consumes the most tokens up to a separator, ties going to the earlier kind, and as free tokens up to the separator when none applies; reading a value never fails.", "quantifier": "every token stream and every behaviour of the Rust grammar", "why_tests_cant": "All inputs.", "anchors": ["src/parse/value.rs"]}
{"id": "C45", "title": "mixing ',' and ';' is rejected", "statement": "Definitions separated by both ',' and ';' (including the separator after the block) are rejected.", "quantifier": "every number of definitions and separator pattern", "why_tests_cant": "All patterns; the attribute form is an exception.", "anchors": ["src/parse/alias_spec.rs", "src/parse/raw_ast.rs", "src/parse/compose_item_spec.rs"]}
{"id": "C46", "title": "the attribute form is equivalent to the function-like form", "statement": "#[compose_item(defs)] item expands to what compose!(defs { item }) expands to.", "quantifier": "every definition list ending in a separator (or only loops) and every item", "why_tests_cant": "All inputs.", "anchors": ["src/lib.rs: compose_core", "src/parse/compose_item_spec.rs", "src/parse/raw_ast.rs"]}
{"id": "C47", "title": "a trailing separator changes nothing", "statement": "A matching trailing separator after the block does not change what is parsed.", "quantifier": "every input", "why_tests_cant": "All inputs.", "anchors": ["src/parse/raw_ast.rs"]}
{"id": "C48", "title": "call arguments are the pieces between top-level commas", "statement": "The arguments of a call are the comma-separated top-level pieces of the parenthesised tokens (a final empty piece is dropped), and the raw argument is all of them.", "quantifier": "every token list", "why_tests_cant": "All inputs.", "anchors": ["src/parse/call.rs", "src/util/terminated.rs"]}
{"id": "C49", "title": "';' works wherever ',' does", "statement": "Replacing all ',' separators between definitions by ';' gives the same definitions (deprecated but supported).", "quantifier": "every definition list", "why_tests_cant": "Tests only use function calls as definitions.", "anchors": ["src/parse/alias_spec.rs", "src/parse/alias_value.rs", "src/parse/expr.rs"]}
{"id": "C50", "title": "node ids are unique", "statement": "All nodes of one parsed input have different ids, whatever other invocations run concurrently.", "quantifier": "every input and every interleaving", "why_tests_cant": "All schedules.", "anchors": ["src/util/unique_id.rs", "src/parse/*"]}
{"id": "C51", "title": "deprecation warnings do not leak between invocations", "statement": "A warning raised by one invocation never shows up in another one on the same thread, whether the first succeeded, failed to parse or failed later.", "quantifier": "every history of invocations on a thread", "why_tests_cant": "Thread-local singleton with a hand-rolled counter; all histories.", "anchors": ["src/util/deprecation.rs: DeprecationServiceScope, drop", "src/lib.rs: compose_core"]}
{"id": "C52", "title": "deprecation warnings name the macro that was invoked", "statement": "The warning text starts with the name of the invoked macro.", "quantifier": "every history of invocations on a thread", "why_tests_cant": "Depends on which macro ran first on the thread.", "anchors": ["src/util/deprecation.rs: maybe_set_global", "src/lib.rs"]}
{"id": "C53", "title": "deprecation only adds attributes, one per warning, never a second #[deprecated]", "statement": "Emitting warnings only appends attributes to items; each warning is attached at most once, to the first eligible item not already deprecated; no item gets two deprecated attributes.", "quantifier": "every block and set of warnings", "why_tests_cant": "All blocks.", "anchors": ["src/util/deprecation.rs: DeprecationWarningVisitor"]}
{"id": "C54", "title": "an expansion is all or nothing", "statement": "If any iteration fails, the output is a single compile error and no generated code.", "quantifier": "every input", "why_tests_cant": "All inputs and failure positions.", "anchors": ["src/interpreter/core.rs: execute", "src/lib.rs: compose_core"]}
{"id": "C55", "title": "expansion does not depend on history", "statement": "Apart from hash, the expansion of an input does not depend on which invocations ran before it.", "quantifier": "every two histories and every input", "why_tests_cant": "All histories.", "anchors": ["src/lib.rs: compose_core", "src/util/unique_id.rs", "src/core/environment/core.rs"]}
{"id": "C56", "title": "expansion does not depend on hash-map iteration order", "statement": "The alias map used for substitution is the same for every iteration order of the internal hash maps.", "quantifier": "every definition list and every order", "why_tests_cant": "Iteration order is randomised at run time.", "anchors": ["src/interpreter/core.rs: make_substitutions", "src/eval/alias_spec.rs"]}
{"id": "C57", "title": "a failed substitution stops everything that follows", "statement": "After the first substitution error in a block no later part is substituted and that first error is the one reported.", "quantifier": "every block and alias map", "why_tests_cant": "All positions of the first error.", "anchors": ["src/substitution/alias_substitution_visitor.rs: check_error!"]}
{"id": "C58", "title": "the parser accepts exactly the documented grammar", "statement": "compose!/compose_idents! (and compose_item) accept a token stream exactly if it has a reading by the grammar of loops, definitions and block, and the syntax tree is that reading; the reading is unique up to node ids.", "quantifier": "every token stream and every behaviour of the Rust grammar", "why_tests_cant": "All inputs.", "anchors": ["src/parse/*"]}
{"id": "C59", "title": "meaning of an invocation", "statement": "The output of a successful invocation is, for each iteration in order, the text of the block with every alias in force replaced by its value and every placeholder in a string literal by the text of the value, all at once; nothing else of the block changes, except that where-clauses of structs, enums, unions, traits and impls are lost, and that one deprecation attribute may be added when semicolons are used.", "quantifier": "every input, every history, every behaviour of the Rust grammar that prints what it parses", "why_tests_cant": "Quantifies over all inputs, loops, definitions and blocks, and over the whole pipeline from tokens to tokens.", "anchors": ["src/lib.rs: compose_core", "src/interpreter/core.rs: execute", "src/substitution/alias_substitution_visitor.rs"]}
{"id": "C60", "title": "loops are unrolling", "statement": "An invocation with loops puts out what invocations without loops put out, one per iteration in order, with the loop aliases written as ordinary definitions in front of the others; the first failing one decides. With an empty list of values nothing is put out.", "quantifier": "every input with loops", "why_tests_cant": "All nestings and lengths of loops, all definitions and blocks.", "anchors": ["src/expand/raw_ast.rs", "src/interpreter/core.rs: execute"]}
{"id": "C61", "title": "unused definitions have no effect", "statement": "If an invocation succeeds, then leaving out a definition whose name occurs neither in later definitions nor in the block (as an identifier or in a placeholder) does not change its output. Conversely, a definition which has a value where it stands can be added without changing the output, if its name is not defined or used later, nor used in the block.", "quantifier": "every input and every unused definition", "why_tests_cant": "All inputs; overload resolution and substitution could depend on unrelated definitions.", "anchors": ["src/interpreter/core.rs: make_substitutions", "src/resolve/*", "src/eval/*"]}
{"id": "C62", "title": "order of definitions", "statement": "Two orders of the same definitions, in neither of which a definition uses a name defined later, give the same output.", "quantifier": "every input and every such permutation", "why_tests_cant": "All permutations of all definition lists.", "anchors": ["src/interpreter/core.rs: make_substitutions", "src/resolve/alias_spec.rs", "src/eval/alias_spec.rs"]}
{"id": "C63", "title": "compose_idents! is compose!", "statement": "compose! and compose_idents! give the same output for the same input, apart from the name of the macro in the warning about semicolons (and from the seed of hash).", "quantifier": "every input, every two histories", "why_tests_cant": "All inputs and histories.", "anchors": ["src/lib.rs: compose", "src/lib.rs: compose_idents", "src/lib.rs: compose_core"]}
{"id": "C64", "title": "names of aliases do not matter", "statement": "Renaming an alias consistently (in its definition, the later definitions, the block and the placeholders of string literals) to a name not used otherwise does not change the values of the definitions or the way they fail; if the invocation gives code under both names, it gives the same code.", "quantifier": "every input, every alias, every fresh name", "why_tests_cant": "All names: capture, sorting by name or a special treatment of some names would show only for particular ones.", "anchors": ["src/interpreter/core.rs: make_substitutions", "src/substitution/substitute_idents.rs", "src/resolve/*", "src/eval/*"]}
{"id": "C65", "title": "a failed expansion says what is wrong", "statement": "A macro reports a parse error exactly for inputs it cannot read. Any other error is about the first iteration which fails and is true of it: a redefinition error names an alias that is defined twice; a signature error names a called function no overload of which can be used there; a type error comes from loop values that cannot be bound or from a conversion of tokens that cannot be read; an evaluation error comes from a concat whose text is not an identifier; a substitution error names an alias in force and shows the text of its value. Internal errors are never reported, and panics only come from cost overflows, built-in functions that panic on fitting arguments, or parts of the block that cannot be parsed again.", "quantifier": "every input of every macro, every history of the thread, every grammar", "why_tests_cant": "the repository's tests compare messages of a few single-fault inputs; which of several faults is reported, and whether a message can be about something that is fine, depends on the order of all phases", "anchors": ["src/error.rs:10-105", "src/resolve/alias_spec_item.rs:8-22", "src/resolve/call.rs:20-207", "src/eval/call.rs:8-37", "src/expand/raw_ast.rs:20-124", "src/interpreter/core.rs:40-122", "src/substitution/alias_substitution_visitor.rs:20-120"]}
{"id": "C66", "title": "code comes out as it was written", "statement": "The output consists of the tokens of the code between the braces, once for each iteration, with keywords (unsafe, auto, default, struct, ...), separators (also trailing ones), attributes, generics and bodies at their places; only the aliases and the placeholders in string literals are replaced. Code that mentions no alias and has no percent sign in its strings therefore comes out unchanged, up to spacing, the spelling of string literals and the where-clauses that are lost (C17).", "quantifier": "every input of every macro that is read and whose block has no where-clauses on structs, enums, unions, traits and impls", "why_tests_cant": "the code is taken apart into items, fields, variants and methods and put together again piece by piece; tests look at a few shapes of items only", "anchors": ["src/substitution/alias_substitution_visitor.rs:132-460", "src/interpreter/core.rs:84-104", "src/util/deprecation.rs:48-160"]}
{"id": "C67", "title": "error messages tell what went wrong", "statement": "The message of an error starts with its kind, and different kinds start differently. The name that is already defined, the function that is not defined, the alias that cannot be replaced, and the types of a failed cast can be read off the message. A call that fits no overload is reported with the signatures of all overloads of the function, in the order of declaration; signatures determine name and types, and those of the built-in functions all differ. A concat that gives no identifier is reported with the texts of all its arguments in order; a failed substitution with the alias and the text of its value.", "quantifier": "every error, and every input of every macro that ends in an error of the kind", "why_tests_cant": "one compile test compares one message; the texts are assembled from names, types, signatures and rendered tokens of arbitrary input", "anchors": ["src/error.rs:8-50", "src/core/type_.rs:26-41", "src/core/environment/core.rs:52-60", "src/ast/value.rs:80-102", "src/expand/raw_ast.rs:15-35", "src/core/environment/init_funcs.rs:290-315", "src/resolve/call.rs:190-203"]}
{"id": "C68", "title": "signature errors quote the call as it was written", "statement": "The call quoted at the end of a signature error is the call as the user wrote it (up to spacing), so that different calls are quoted differently.", "quantifier": "every call that fits no overload of its function", "why_tests_cant": "the quotation is assembled from parsed values rather than from tokens; only unusual literals, nested calls and unreadable arguments show the difference", "anchors": ["src/ast/call.rs:62-79", "src/ast/expr.rs:37-45", "src/ast/value.rs:277-295", "src/error.rs:14-15"]}
{"id": "C69", "title": "an alias in a string is replaced by a text that shows its whole value", "statement": "In a string literal, `% alias %` is replaced by the name of an identifier, the contents of a string, an integer as it was written, and for a path, type, expression or tokens by the text of that code.", "quantifier": "every alias value of every kind, every surrounding text without percents", "why_tests_cant": "Fails only for paths with generic arguments, a leading `::` or a qualified self type, where parts are left out; the tests only format identifiers and strings.", "anchors": ["src/substitution/format_string.rs:8-25", "src/substitution/substitute_idents.rs:56-68"]}
{"id": "C70", "title": "what macro_rules! inserts is read like what is written", "statement": "A fragment that an outer macro_rules! macro passes on ($e:expr, $t:ty, $l:literal, $b:block; handed over in a group without delimiters) is read like the same tokens written directly: an identifier or literal as an argument is this identifier or literal, a call is evaluated as a call, a list can be the values of a loop, and a block can be the block.", "quantifier": "every identifier, integer, string; every call; every list; every block; any number of macros the fragment went through; every behaviour of the Rust grammar", "why_tests_cant": "One compile test passes the types u8 and u32 through one macro to concat; calls, lists, literals and blocks as fragments and nested forwarding are not tested.", "anchors": ["tests/compile/nested_type_token_compose.rs:1-20", "src/parse/value.rs:31-126", "src/parse/call.rs:11-43", "src/parse/loop_source_value_list.rs:42-57", "src/parse/raw_ast.rs:9-56"]}
{"id": "C71", "title": "keywords are not names, everything else is", "statement": "No alias of an accepted invocation, whether defined or looped over, is a keyword of Rust or `_`; a definition of a keyword is a compile error, and any other identifier can be defined: acceptance does not depend on which one it is.", "quantifier": "every identifier; every input; every behaviour of the Rust grammar; every history of invocations", "why_tests_cant": "No test defines a keyword; the list of keywords is long and lies in syn.", "anchors": ["src/parse/alias.rs:1-20", "src/parse/alias_spec_item.rs:7-20", "src/parse/loop_alias.rs:6-38", "src/parse/raw_ast.rs:9-56"]}
{"id": "C72", "title": "names of types are read as they are printed", "statement": "The name of a type, as it is printed in the signatures of error messages, is read by the parser of types as this type, and only the name of a type is read as a type.", "quantifier": "every type, basic or variadic; every token sequence", "why_tests_cant": "The parser of types is not called anywhere in the crate, so no test reaches it.", "anchors": ["src/parse/type_.rs:5-22", "src/core/type_.rs:26-40"]}
{"id": "C73", "title": "what a call means does not depend on where it stands", "statement": "The overloads chosen for an expression and for the calls inside it are the same whatever type is expected of it; an expected type is accepted exactly if the type that the expression has by itself can be coerced to it, and the only difference in cost is that of this coercion.", "quantifier": "every expression, nested to any depth; every expected type; every typing of the aliases; both the state of a fresh resolver and that of a later one", "why_tests_cant": "Overloads are chosen per candidate of the surrounding call, with costs added up over the whole tree; tests nest calls two or three levels deep and never compare the choice in different surroundings.", "anchors": ["src/resolve/call.rs:8-200", "src/resolve/value.rs:9-49", "src/core/type_.rs:43-67", "src/funcs.rs:1-176"]}
{"id": "C74", "title": "a name can be written out", "statement": "In a definition, the name of an earlier definition may be replaced by its right-hand side, at any depth inside calls: if the invocation succeeds in both cases, the generated code is the same.", "quantifier": "every definition and every place of use; any other definitions and loops around; every block; every behaviour of the Rust grammar; every history of invocations", "why_tests_cant": "With a name the value is evaluated first and its kind read off the result; written out, its type is inferred and coerced and costs are added up, so that other overloads may win. No test compares the two.", "anchors": ["src/resolve/call.rs:8-200", "src/resolve/value.rs:9-49", "src/eval/call.rs:7-37", "src/eval/alias_spec_item.rs:1-17", "src/funcs.rs:1-176"]}
{"id": "C75", "title": "shared metadata is never written behind a reader's back", "statement": "The metadata that the resolve and eval phases share through Rc<RefCell<_>> is never borrowed in conflicting ways (which would panic), every borrow ends, copies made for trying overloads are separate from the original, and the result is the same as if the metadata were passed by value.", "quantifier": "every list of definitions, with calls nested to any depth; every table of functions; every state of memory before; also when resolution or evaluation fails or panics", "why_tests_cant": "Borrow conflicts are found at run time only, on the path that runs into them; with the guards held across recursive calls, which paths are safe depends on the nesting of calls. Tests cover a few shapes.", "anchors": ["src/resolve/core.rs:9-41", "src/resolve/call.rs:8-200", "src/resolve/value.rs:9-49", "src/eval/core.rs:19-56", "src/eval/call.rs:7-37", "src/eval/value.rs:7-30", "src/interpreter/core.rs:55-78"]}
{"id": "C76", "title": "errors point to the mistake", "statement": "The span of an error that is reported after parsing is that of the node the error is about: the value of the second definition of a name, the innermost call that fits no overload, the call of concat that makes no identifier, the loop value that does not match its variable, a token of the block for a failed substitution; never the invocation as a whole.", "quantifier": "every parsed invocation: any loops, definitions, nesting of calls and block; every seed and iteration order", "why_tests_cant": "Which span an error carries is decided where it is made, and errors of overloads that were tried are thrown away on the way up; tests compare messages (and few of them), not spans, and not for nested calls.", "anchors": ["src/error.rs:26-78", "src/resolve/core.rs:17-23", "src/resolve/call.rs:143-206", "src/eval/call.rs:8-36", "src/expand/raw_ast.rs:13-73", "src/interpreter/core.rs:55-121", "src/core/environment/init_funcs.rs:304-316"]}
{"id": "C77", "title": "the work for the definitions is proportional to their size", "statement": "The values of the definitions are computed in a number of steps that is bounded by a polynomial (a constant times the number of nodes, say) in the size of the definitions: no node is resolved or evaluated again and again.", "quantifier": "every list of definitions, with calls nested to any depth", "why_tests_cant": "Tests nest two or three calls and look at the result; that the number of steps multiplies with every level is only visible for all depths at once.", "anchors": ["src/resolve/expr.rs:9-19", "src/resolve/call.rs:143-206", "src/eval/expr.rs:8-13", "src/eval/call.rs:8-36", "src/interpreter/core.rs:55-78"]}
{"id": "C78", "title": "the types of calls are those of the reference", "statement": "The functions, their parameters and results and the coercions between types are those of the tables of the reference; an expression has the type that follows from these tables, a call of which the arguments have exactly the types of a row has the type of that row, and expressions without a type by the tables are rejected.", "quantifier": "every expression: calls nested to any depth with any number of arguments, aliases of any types in scope, with any expected type", "why_tests_cant": "Overloads are chosen by sums of costs over all arguments and all levels of nesting, while the reference speaks of single rows; tests check rows one at a time, mostly with plain arguments.", "anchors": ["snippets/reference_h2.md:332-418", "src/core/environment/init_funcs.rs:18-476", "src/core/type_.rs:8-60", "src/resolve/call.rs:10-206", "src/resolve/value.rs:9-42"]}
{"id": "C79", "title": "the examples of the reference are true", "statement": "Each example in the tables of functions, types and aliases of the reference gives, when it is written as a definition, the result that the table shows for it; in general, code can be put together by concat from any arguments.", "quantifier": "every row of the tables of the reference; for concat, any arguments of any types", "why_tests_cant": "The tables are not compiled as documentation tests, and the interpreter's tests use other arguments; why two of the examples fail (and all others like them) follows from the choice of overloads for all arguments.", "anchors": ["snippets/reference_h2.md:300-418", "src/core/environment/init_funcs.rs:265-350", "src/resolve/call.rs:50-206", "src/parse/value.rs:15-100"]}
{"id": "C80", "title": "laws of loops", "statement": "An innermost loop over one value has the same output as the definition of its name by that value in front of the other definitions. Adjacent loops over single values have the same output as one loop over the tuples of their values, in the order of the nested loops. The values of the outermost loop can be cut in two: the code for the whole list is the code for the first part followed by the code for the second, and there is code for the whole exactly if there is for both parts. Loops whose values use no name bound by a loop can be put in any order: the output consists of the same copies of the block, in another order, and there is code for one order exactly if there is for every other.", "quantifier": "every input with loops, every number of loops and values, every pair of inputs related in this way", "why_tests_cant": "Relates the outputs of different inputs, for all inputs; tests check single inputs.", "anchors": ["src/expand/raw_ast.rs:41-123", "src/util/cross_product.rs", "src/ast/tuple.rs:26-60", "src/interpreter/core.rs: execute"]}
{"id": "C81", "title": "a block is the sequence of its statements", "statement": "Without loops and warnings the output for a block is the output for a first part of its statements followed by the output for the rest; if one of these fails, the first failure is the outcome.", "quantifier": "every input without loops whose definitions are separated by commas, every way to cut its block in two", "why_tests_cant": "All blocks and all ways to cut them; the visitor keeps an error state from one statement to the next, which could leak.", "anchors": ["src/substitution/alias_substitution_visitor.rs:141-186", "src/interpreter/core.rs: execute_block_rewrite"]}
{"id": "C82", "title": "ordinary invocations do not crash", "statement": "If the values of an invocation are made of ASCII identifiers which are not raw, of ASCII literals and of ASCII punctuation, without #, no integer is negative, no value is of enormous size and the pieces of the block are valid by themselves, then the macro does not panic, provided that it does not use snake_case, camel_case or pascal_case (or uses them, but neither hash, normalize, normalize2 nor to_ident, and all identifiers start with a letter), and that the values have no minus sign if it uses to_int. The values of all aliases are then of the same kind.", "quantifier": "every input of this kind, for every nesting of functions, every number of loops and definitions", "why_tests_cant": "All inputs and all nestings of functions; a test crashes only on the inputs one thought of. It needs an invariant of all values which the functions make from one another.", "anchors": ["src/core/environment/init_funcs.rs:28-502", "src/funcs.rs:37-87", "src/ast/value.rs:117-255", "src/interpreter/core.rs: execute"]}
{"id": "C83", "title": "syntax errors name the mistake and point at it", "statement": "An invocation fails with a syntax error exactly if there is a mistake in the syntax, there is only one to report, and it is reported with the message for it at the place where it is: everything before the place can be read, and what is wrong is said of the tokens there (a missing name, `in`, `=`, brackets, comma, separator or block, a different separator than before, a separator after the loops of an attribute, something left over). The place is in the input. Mixing of separators is only reported if there are commas and semicolons. Five messages are never seen.", "quantifier": "every input, every grammar of Rust types, paths, expressions and blocks", "why_tests_cant": "All inputs: that the place is right for each mistake, and that a message is never seen, cannot be tested.", "anchors": ["src/parse/alias_spec.rs:9-50", "src/parse/alias_spec_item.rs:8-20", "src/parse/loop_alias.rs:8-38", "src/parse/loop_source_value_list.rs:8-45", "src/parse/loop_spec.rs:8-21", "src/parse/raw_ast.rs:9-56", "src/parse/compose_item_spec.rs:7-51", "src/util/combined.rs:20-60"]}
{"id": "C84", "title": "trailing commas do not matter", "statement": "A comma after the last argument of a call (at any depth), after the last alias of a tuple, or after the last value of a loop changes nothing: the invocation is accepted or rejected as before and puts out the same code (an error may quote the call with its comma). This does not hold for `raw`, which keeps the comma on purpose, and it fails for `normalize` of a text that ends with an underscore: `normalize(x_,)` is `x_` but `normalize(x_)` is `x`.", "quantifier": "every invocation of each macro, any number of commas added or dropped at once", "why_tests_cant": "All inputs, with all combinations of commas at all depths; the functions that do see the comma have to be found out.", "anchors": ["src/parse/call.rs", "src/parse/expr.rs:8-45", "src/parse/loop_source_value_list.rs:8-45", "src/parse/loop_alias.rs:8-40", "src/parse/tuple.rs", "src/funcs.rs:44-83", "src/interpreter/tests/funcs/raw.rs:6-17"]}
{"id": "C85", "title": "generated code points to what was written", "statement": "Every token of the generated code has a span of something the user wrote, so that compiler errors point there. In the block, an alias is replaced by tokens which point to where the value of the alias does, a string literal by one at the same place, and everything else, groups included, points to where it did. The value of an alias points to the code it consists of (also after upper, lower and the other letter functions, to_type and the like, raw), or to the name of the function that made it (normalize, normalize2, hash, concat of names, strings or integers), or to the invocation where text is parsed (concat of a name with other code, to_ident of a string). An error of the substitution points to the last replaced alias, as written in the block.", "quantifier": "every list of definitions, every node, every way in which the compiler represents and joins spans", "why_tests_cant": "All inputs and all kinds of nodes; tests compare generated code without looking at spans.", "anchors": ["src/core/environment/init_funcs.rs", "src/ast/value.rs:104-255", "src/eval/call.rs:8-36", "src/substitution/substitute_idents.rs:38-115", "src/substitution/stream_visitor.rs:261-274", "src/parse/call.rs:13", "src/substitution/alias_substitution_visitor.rs:137-459"]}
{"id": "C86", "title": "A value is read in the same way wherever it stands", "statement": "The same tokens are the same value in a definition, in the list of a loop and as an argument of a call. (False: an argument ends at the first comma outside of brackets, so Result<u32, E> is two arguments; parentheses make a tuple in a loop. What holds: between two commas a value does not depend on what comes after it; elements of loops which do not begin with parentheses are read as in a definition; and a value of a definition is one argument of a call if and only if it has no comma of its own.)", "quantifier": "for every grammar of paths, types and expressions which stops before commas, every list of tokens and everything that can come after it", "why_tests_cant": "the tests write each value in one place only; that the three places agree, and exactly when they do not, is a statement about all values", "anchors": ["src/parse/call.rs:20-43", "src/parse/expr.rs:10-58", "src/parse/alias_value.rs:8-16", "src/parse/loop_source_value_list.rs", "src/util/terminated.rs"]}
{"id": "C87", "title": "A syntax error shows everything that was tried", "statement": "Where the parser has tried several ways to read something, the error has one message for each of them, after a message of its own: for a loop alias in parentheses, what is wrong with the tuple and where, and that it is not a name; for a separator, that it is neither a comma nor a semicolon. In all other cases there is exactly one message. All messages point into the input, the first one is that of C83, and combine_errors is never called without an error (where it would panic).", "quantifier": "for every grammar of the parts read by syn, every invocation and every state of the parser", "why_tests_cant": "the tests check the output for four wrong inputs; that no message is lost or put in a wrong place, and that the panic cannot be reached, is a statement about all wrong inputs", "anchors": ["src/error.rs:91-105", "src/parse/loop_alias.rs:6-38", "src/util/combined.rs:24-49", "src/parse/tuple.rs:31-68", "src/parse/alias_value.rs:8-16"]}
{"id": "C88", "title": "Exactly when an invocation gives code", "statement": "An invocation gives code if and only if it can be read, its loops can be unrolled, and in each iteration the definitions have values with which every piece of the code (visibility, name, signature, type, ...) stays well formed, one replacement after the other. In particular, if all aliases stand for identifiers, and neither they nor the aliases are keywords, well-formed code cannot be spoiled by the replacement.", "quantifier": "for every grammar of the parts read by syn, every invocation, after every history", "why_tests_cant": "the tests check some inputs that are accepted and some that are not; where the line is between them is a statement about all of them", "anchors": ["src/lib.rs:41-57", "src/interpreter/core.rs", "src/substitution/substitute_idents.rs:69-115", "src/substitution/alias_substitution_visitor.rs"]}
{"id": "C89", "title": "Functions are declared as the code requires, and arguments are checked in their positions", "statement": "Every built-in function is declared as Func::new demands: at most its last parameter is variadic, and a parameter of raw tokens is its only one; so setting up the environment does not panic in a debug build. Therefore an accepted call of a function that does not take raw tokens has as many arguments as were written, each of the type of the parameter at its position, those from the variadic parameter on of the type that one repeats (counting twice in the cost).", "quantifier": "for every list of parameter types, every built-in function, every call with any number of arguments", "why_tests_cant": "the assertions are compiled only into debug builds; resolution picks fixed and variadic parameters separately, which agrees with the positions only for lists of parameters of this form, and calls can have any number of arguments", "anchors": ["src/core/type_.rs:83-119", "src/core/type_.rs:163-192", "src/core/environment/init_funcs.rs", "src/resolve/call.rs:82-136"]}
{"id": "C90", "title": "A concat inside a concat can be flattened", "statement": "In a definition, at any depth, concat(a…, concat(b…), c…) can be replaced by concat(a…, b…, c…): if the invocation succeeds in both cases, the output is the same.", "quantifier": "for every invocation, every definition in it, every number of arguments of both calls, at any depth, with any definitions and loops around it", "why_tests_cant": "the two versions can use different overloads, whose choice depends on the types of all arguments and on the costs of what is nested in them; flattening is an equation between programs, and holds or fails by the types of arguments in all iterations", "anchors": ["src/core/environment/init_funcs.rs:264-377", "src/resolve/call.rs:60-140", "src/eval/call.rs"]}
{"id": "C91", "title": "Tokens are counted as they are written", "statement": "The number by which the possible readings of a value are compared is the number of tokens of the reading, at any depth of groups and without delimiters: token_distance of the cursors before and after it, in whichever order they are given, also if they stand inside groups without delimiters.", "quantifier": "for every token stream, every pair of positions in the same group of its buffer, every kind of value", "why_tests_cant": "the count is a loop over a flat buffer with entries for the ends of groups that are skipped in some places and not in others, with a cut for a cursor inside of a group; two unit tests cover one nesting each", "anchors": ["src/util/token_distance.rs:9-42", "src/parse/value.rs:10-19"]}
{"id": "C92", "title": "Names and strings do not matter for how the input is read", "statement": "If names that are neither keywords nor functions are replaced by such names everywhere in the input of a macro, and string literals by string literals, then the input is read as the same tree with these replacements made in it: the same loops, tuples, calls, arguments, definitions, separators, kinds of values and extents of values, and code which is the replaced code. What could not be read still cannot, and nothing that could becomes unreadable.", "quantifier": "for every invocation of every macro, every replacement of names and of string literals (also one that takes several names to one), every grammar of Rust that is blind to names and strings", "why_tests_cant": "the reader tries several kinds of values and keeps the longest, tries a tuple before a simple value, looks for function names, and for keywords that end the loops and the definitions; that none of these decisions hangs on a particular name is a statement about all names", "anchors": ["src/parse/value.rs:10-98", "src/parse/expr.rs:8-58", "src/parse/call.rs", "src/parse/loop_spec_item.rs:7-25", "src/parse/loop_alias.rs:6-38", "src/parse/tuple.rs:31-66", "src/parse/alias_spec.rs", "src/parse/raw_ast.rs", "src/parse/alias_spec_item.rs"]}
{"id": "C93", "title": "An invocation inside another is like one with the definitions of both", "statement": "If an invocation stands in the code of another, `compose!(A = a, { compose!(B = concat(A, _b), { code }) })`, then the outer one writes the values of its aliases into the inner one, and the inner one then expands to what a single invocation with the definitions of both, `compose!(A = a, B = concat(A, _b), { code })`, expands to.", "quantifier": "for all outer and inner definitions and all code, without loops in the inner invocation", "why_tests_cant": "the inner invocation is read and evaluated again, from tokens that the outer one has changed; that types, overloads, values and formatted strings come out as if everything had been defined at once is a statement about all definitions and all code", "anchors": ["src/substitution/substitute_idents.rs:37-90", "src/substitution/format_string.rs:28-82", "src/interpreter/core.rs:30-100"]}
{"id": "C94", "title": "Of several mistakes, exactly which one is reported", "statement": "An error is reported if and only if it is the first in this order: the input cannot be read; a combination of loop values cannot be bound (combinations in their order, in each the loops in their order), whatever the definitions and the code are; then, of the first iteration with a mistake, the first definition in order which has no type or, having one, has a name that is taken; if there is none, the first call in order of evaluation (definitions from first to last, arguments from left to right, arguments before their call) which is refused, with the reason for it; if there is none, the first piece of code, from left to right, which a replacement breaks, with the last alias replaced by then.", "quantifier": "for all inputs, with any number of mistakes of any kinds, all histories of the thread and all grammars", "why_tests_cant": "tests have one mistake at a time; which of several is reported, and that nothing else is, depends on the order of all phases and of all traversals, over all combinations of mistakes", "anchors": ["src/interpreter/core.rs:30-100", "src/expand/raw_ast.rs", "src/resolve/alias_spec.rs", "src/resolve/call.rs", "src/eval/call.rs", "src/core/environment/init_funcs.rs:65-502", "src/substitution/substitute_idents.rs:37-115"]}
{"id": "C95", "title": "Exactly when an invocation panics", "statement": "An invocation panics if and only if its input can be read, its loops can be unrolled, and the first iteration which gives no code is one in which the costs of the definitions overflow; or the first call in order of evaluation which does not succeed is one of a case function, normalize, normalize2 or concat which would make an identifier out of a text which is none, or of concat which would join integers with a minus sign inside; or the first piece of code which does not parse again fails before an alias has been replaced in it.", "quantifier": "for all inputs, whatever else is wrong with them, all histories of the thread and all grammars", "why_tests_cant": "panics hide among errors: whether one happens depends on what comes first in all phases, and on all texts that values can have", "anchors": ["src/core/environment/init_funcs.rs:28-61", "src/core/environment/init_funcs.rs:87-360", "src/resolve/call.rs", "src/eval/call.rs", "src/substitution/substitute_idents.rs:69-115"]}
{"id": "C96", "title": "Names joined from different names are different", "statement": "If an alias is defined as concat of names (written names, aliases of names, and concat of such, nested at any depth) and one of these names stands for different names in two iterations of the loops while all the others stand for the same, then the alias is a different identifier in the two iterations: the identifier is the names one after the other. If all aliases stand for names and the code mentions the alias, the two copies of the code are different.", "quantifier": "for all names, all numbers of occurrences of the varying name among the joined ones, all nestings of concat, all codes and all pairs of iterations", "why_tests_cant": "whether two generated names collide depends on all names and all positions at which they are joined; a test sees a few of them", "anchors": ["src/core/environment/init_funcs.rs:261-283", "src/funcs.rs", "src/expand/core.rs", "src/eval/alias_value.rs"]}
{"id": "C97", "title": "The expansion does not depend on how the macro was built", "statement": "An invocation expands to the same code, or fails with the same message, whether the macro was built with overflow checks and debug assertions (the debug profile) or without (the release profile).", "quantifier": "for all invocations and all earlier invocations on the same thread", "why_tests_cant": "the tests run in one profile; the two differ only where the costs of the overloads of nested calls get larger than any test makes them", "anchors": ["src/resolve/call.rs:8-48", "src/resolve/call.rs:91-94", "src/core/type_.rs:84-108", "Cargo.toml"]}
{"id": "C98", "title": "normalize2 of a value which stands for itself gives what normalize gives", "statement": "If the argument is a value that stands for itself (a literal, a path, a type, an expression, or a name which is not an alias), normalize2(v) may be written as normalize(v), anywhere in a definition: the output of the invocation is the same.", "quantifier": "for all invocations, all such values, and all places in the definitions", "why_tests_cant": "the README calls the two functions similar and tests them on a few values each, never against each other; the differences are in strings that end with an underscore, escape sequences and ways of writing numbers", "anchors": ["src/funcs.rs", "README.md:279-312", "README.md:527-534"]}
{"id": "C99", "title": "Applying a function twice is like applying it once", "statement": "For each function f of one argument (the functions that change the case of words, normalize2, hash, and the casts), f(f(e)) may be written as f(e): the output of the invocation is the same.", "quantifier": "for all invocations, all functions of one argument, all arguments, and all places in the definitions", "why_tests_cant": "the tests apply each function once; whether a second application changes something depends on the text (a__, a_b_c) and on the costs of the overloads around it", "anchors": ["src/funcs.rs", "src/core/environment/init_funcs.rs", "README.md:279-312"]}
{"id": "C100", "title": "The generated code is not much larger than the input", "statement": "The number of tokens of the generated code is bounded by the number of copies times the size of the block times the size of the definitions.", "quantifier": "for all invocations with any number of definitions and loops", "why_tests_cant": "a test shows the size of one output; that the size cannot run away needs all inputs, and the worst case needs many definitions that use each other", "anchors": ["src/core/environment/init_funcs.rs", "src/ast/value.rs:117-255", "src/substitution/substitute_idents.rs", "src/interpreter/core.rs"]}
{"id": "C101", "title": "Nothing is nested more deeply than it was written", "statement": "Expressions are nested at most as deeply as the tokens they were read from, so the recursion of the parser, the resolver and the evaluator is bounded by the input. No value is nested more deeply than the values written in the definitions, and the generated code is nested at most as deeply as the block and the values together (and two more for the deprecation warning).", "quantifier": "for all invocations with any number of definitions and loops, and all grammars of code that keep the nesting of what they parse", "why_tests_cant": "a test with some depth says nothing about the worst case; aliases which are used by other aliases repeat code (C100), and only an argument over all functions shows that none of them also nests it", "anchors": ["src/core/environment/init_funcs.rs", "src/ast/value.rs:117-255", "src/substitution/substitute_idents.rs", "src/ast/expr.rs", "src/interpreter/core.rs"]}
{"id": "C102", "title": "Code is parsed again once for each replacement, and only the piece at hand", "statement": "While aliases are replaced, a piece of the block (attributes, visibility, name, signature, type, statement and so on) is parsed again after each replacement in it, that is once for each occurrence of an alias and once for each string literal, whether it changes or not, and once more at the end; a statement that is not an item is also parsed once before. What is parsed is the piece with the replacements made so far, and nothing else; after the first stream that is not valid nothing is parsed any more. The tokens parsed are at most the size of the piece times the number of its replacements and the size of the values, and no constant times the size of the code bounds them.", "quantifier": "for all blocks, alias values and grammars of code", "why_tests_cant": "the outcome of the macro does not show how often anything was parsed, and the run time of a test depends on much else", "anchors": ["src/substitution/substitute_idents.rs:69-115", "src/substitution/stream_visitor.rs:36-202", "src/substitution/alias_substitution_visitor.rs", "adr/0000-type-system.md"]}
{"id": "C103", "title": "A cast of the value of an alias changes no code", "statement": "The functions to_path, to_type, to_expr and to_tokens say of what kind a value is and keep its tokens. So if a definition y = to_x(e) is accepted, y = e is accepted in its place, and the generated code is the same. (This holds if e does not call hash, no later definition uses y and no string literal of the block shows it, and it is false without each of these conditions; to_x(to_y(e)) and to_y(e) for to_type, to_expr and to_tokens are shown the same in strings as well.)", "quantifier": "for all invocations, also with loops, and all definitions in them", "why_tests_cant": "overloads are chosen by cost among all overloads of all nested calls, and a cast adds a cost; the case where it changes the choice is a tie that no test has", "anchors": ["src/core/environment/init_funcs.rs:378-502", "src/ast/value.rs:117-255", "src/resolve/call.rs", "src/substitution/format_string.rs:9-25"]}
{"id": "C104", "title": "Code is made of what was written", "statement": "Everything in the generated code - names, punctuation, literals, and the delimiters of groups - is in the input, or belongs to the attribute of the warning about semicolons, or was made by a function that is called in the definitions or by a placeholder. Functions make names, strings and integers only: names are made by upper, lower, snake_case, camel_case, pascal_case, normalize, normalize2, hash, concat and to_ident, strings by the first five, hash, concat and to_str, and integers by concat. Punctuation (also the sign of a number), delimiters and all other literals are never made up.", "quantifier": "for all invocations, also with loops, after every history, and for every behaviour of the Rust grammar and of the case functions", "why_tests_cant": "a test sees what one input is expanded to; that nothing else can ever come out is a statement about all inputs", "anchors": ["src/core/environment/init_funcs.rs:28-502", "src/ast/value.rs:117-255", "src/substitution/substitute_idents.rs", "src/util/deprecation.rs"]}
{"id": "C105", "title": "What matters of the aliases", "statement": "The output is determined by the code block and, for each iteration, by the tokens of the aliases that stand in it and by the texts of those in its string literals. How the aliases were defined - with which functions, in which order, in which loop, with which other aliases - does not matter; nor do aliases that the code does not use. This holds for each copy on its own, so that changing some values of a loop changes only the copies of the iterations in which a changed value takes part. Conversely an alias that stands in the code matters: if the tokens of exactly one such alias are changed, the generated code is changed.", "quantifier": "for all pairs of invocations with the same block, by any of the macros, after every history and with every seed; the converse for invocations without loops and semicolons, and outside where-clauses that the grammar loses", "why_tests_cant": "a statement about pairs of programs that are written differently; tests compare one program with its expected output", "anchors": ["src/interpreter/core.rs", "src/expand/raw_ast.rs", "src/substitution/alias_substitution_visitor.rs", "src/substitution/substitute_idents.rs", "src/substitution/format_string.rs"]}
{"id": "C106", "title": "Generated code in the code of another invocation", "statement": "If the code that one invocation generates is expanded by a second one, whose definitions do not use or define the first aliases, this gives the code of one invocation with the loops of the first and the definitions of both, up to spacing. In particular expanding generated code once more with the same definitions changes nothing.", "quantifier": "for all pairs of invocations by any of the macros, the second without loops, both without semicolons, after every history, in which all succeed; for values of any kind", "why_tests_cant": "quantifies over pairs of programs, where one is the output of another; no test expands what was expanded", "anchors": ["src/interpreter/core.rs", "src/substitution/alias_substitution_visitor.rs", "src/substitution/substitute_idents.rs", "src/substitution/format_string.rs", "src/substitution/stream_visitor.rs"]}
{"id": "C107", "title": "The spelling of strings", "statement": "Whether a string is written as \"a\", r\"a\" or with escapes makes no difference to the generated code, wherever the string stands in the code or in the definitions.", "quantifier": "for all pairs of invocations which differ only in the spelling of strings, with loops and nested calls, by any of the macros without semicolons, after every history", "why_tests_cant": "quantifies over pairs of programs and over all spellings; the tests have each string in one spelling", "anchors": ["src/substitution/alias_substitution_visitor.rs", "src/substitution/format_string.rs", "src/core/environment/init_funcs.rs", "src/ast/value.rs"]}
{"id": "C108", "title": "The spelling of numbers", "statement": "What the functions make of a number depends on the number only, not on whether it is written as 16, 0x10, 1_6 or 16u8.", "quantifier": "for all pairs of invocations which differ only in the spelling of numbers in the definitions, at any depth, by any of the macros, after every history, whether they succeed or fail", "why_tests_cant": "quantifies over pairs of programs and over all spellings; the tests have decimal numbers only", "anchors": ["src/core/environment/init_funcs.rs", "src/ast/value.rs", "src/resolve/call.rs"]}
{"id": "C109", "title": "The order of the declarations of the functions does not matter", "statement": "With the built-in functions registered in any other order, every list of definitions has the same values, or is refused with the same error up to the order in which the overloads are listed in it, or panics as before.", "quantifier": "for all orders of registration of the functions and all numberings, all lists of definitions with calls nested to any depth, all seeds and all orders of the map of values", "why_tests_cant": "quantifies over function tables; the tests have one only, and a tie between overloads needs costs to coincide in nested calls", "anchors": ["src/core/environment/init_funcs.rs", "src/core/environment/core.rs", "src/core/type_.rs", "src/resolve/call.rs"]}
{"id": "C110", "title": "Functions that are not named in the input do not matter", "statement": "If a function is added to the crate, removed, or changed, then nothing changes for an invocation in which its name does not occur outside of braces: it is read in the same way, and expands to the same code or fails with the same error.", "quantifier": "for all tables of functions, all invocations of the three macros, all seeds, schedules and histories; the name may occur anywhere in the code", "why_tests_cant": "quantifies over function tables, of which the tests have one; the parser asks the table at every name in front of parentheses and the type checker at every call", "anchors": ["src/core/environment/core.rs:31-39", "src/parse/call.rs:11-43", "src/resolve/call.rs"]}
{"id": "C111", "title": "What is copied to try the overloads of a function", "statement": "To try the overloads of a function, the scope with the metadata is copied once for each overload, and not otherwise. A copy holds entries for the definition at hand and those before it only, so it has at most as many entries as the definitions have nodes. Without calls within calls exactly one copy is made for each call and overload; in general at most seven copies for each visit of a node.", "quantifier": "every list of definitions, with calls nested to any depth; every seed; what is held also for every table of functions, and when resolution fails", "why_tests_cant": "the copies are not visible in the result; how many are made and how large they are depends on the number, order and nesting of all definitions", "anchors": ["src/resolve/core.rs:37-41", "src/resolve/call.rs:143-206"]}
{"id": "C112", "title": "An expression as an operand", "statement": "An alias which stands for an expression is one operand where it is used: with x = a + b, x * 2 is (a + b) * 2, as it is for $x:expr in macro_rules!.", "quantifier": "for all invocations that give code, with loops and any nesting of the code, by each of the macros, after every history", "why_tests_cant": "quantifies over all code and all values; the tests use aliases of expressions only where they are whole expressions", "anchors": ["src/substitution/stream_visitor.rs:134-144", "src/substitution/substitute_idents.rs"]}
{"id": "C113", "title": "Raw identifiers are the names they stand for", "statement": "In Rust, r#x and x are the same name, so the macros take them for the same name: an alias is replaced and looked up whichever way it is written, and writing a name with r# where it is not needed does not change what is generated.", "quantifier": "for all pairs of invocations that differ only in whether names are written with r#, any nesting of the code, by each of the macros, after every history", "why_tests_cant": "compares the outputs for all pairs of invocations; the tests use r# only for keywords and only on one side", "anchors": ["src/substitution/substitute_idents.rs:43", "src/resolve/alias_spec_item.rs:15", "src/resolve/value.rs:17", "src/substitution/format_string.rs:11", "src/ast/value.rs:224"]}
{"id": "C114", "title": "Lifetimes and labels are not aliases", "statement": "'a is a lifetime or a label and not the name a, so an alias a does not change the lifetimes and labels in the code.", "quantifier": "for all invocations that give code, with loops and any nesting of the code, by each of the macros, after every history", "why_tests_cant": "quantifies over all code, aliases and values; no test has an alias that is named like a lifetime in the code", "anchors": ["src/substitution/substitute_idents.rs:38-55", "src/substitution/stream_visitor.rs"]}
{"id": "C115", "title": "Literals stay as they are", "statement": "The literals of the code are in each copy of the generated code, in the same order. Only strings are changed, and these only at placeholders: numbers, characters, byte strings and C strings come out as they were written, also if there are percent signs in them. There are no other literals unless the values of aliases that stand in the code contain some.", "quantifier": "for all invocations that give code, with loops and any nesting of the code, without where-clauses on items; with semicolons up to the attribute with the warning, by each of the macros, after every history", "why_tests_cant": "quantifies over all code, aliases and values; no test has a byte string, a character or a field of a field such as t.0.1 in the code", "anchors": ["src/substitution/substitute_idents.rs:56-68", "src/substitution/format_string.rs:29", "src/substitution/stream_visitor.rs"]}
{"id": "C116", "title": "No alias is left", "statement": "A name stands in a copy of the generated code exactly if it stands in the code and is not an alias, or is in the value of an alias that stands in the code. So no alias is left in the generated code if the values do not contain aliases.", "quantifier": "for all invocations that give code, with loops and any nesting of the code, without where-clauses on items; with semicolons up to the attribute with the warning, by each of the macros, after every history", "why_tests_cant": "quantifies over all code, aliases and values and over all names; tests check the use of a few generated names, not the absence of others", "anchors": ["src/substitution/substitute_idents.rs:38-55", "src/substitution/stream_visitor.rs", "src/substitution/alias_substitution_visitor.rs"]}
{"id": "C117", "title": "Inline arguments of format strings", "statement": "In format strings such as \"{x}\" the x is a use of the variable x, so an alias x is replaced there as it is in the rest of the code: what an inline argument refers to in the code, it refers to in the generated code.", "quantifier": "for all invocations that give code, with loops and any nesting of the code, without where-clauses on items and semicolons, by each of the macros, after every history", "why_tests_cant": "quantifies over all code, strings and aliases; no test has an inline argument that is an alias", "anchors": ["src/substitution/substitute_idents.rs:56-68", "src/substitution/format_string.rs:29"]}
