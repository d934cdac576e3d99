# Formal model of compose-idents 0.3.0 in Lean 4 — design

Source: `/repo` (Rust, read as text only). Model and proofs: `/verif/lean/Verif`.

## 1. What is modelled

| Lean module | Code it models |
|---|---|
| `Model/Basic`, `Model/Chars` | token trees (`proc_macro2::TokenTree`), literals, results (`ok` / `err` / `panic`), character classes |
| `Model/Value` | `src/ast/value.rs` (kinds of values, conversions to tokens); `Ext`, the interface to code outside the repository (see §2) |
| `Model/Normalize` | `src/funcs.rs` `normalize` |
| `Model/FormatString` | `src/substitution/format_string.rs` |
| `Model/Walker` | `src/substitution/stream_visitor.rs`: the stack machine, step by step |
| `Model/Subst` | `src/substitution/substitute_idents.rs` |
| `Model/Items`, `Model/Visitor` | syntax of blocks and items, `src/substitution/alias_substitution_visitor.rs` |
| `Model/Types` | `src/core/type_.rs`, `src/ast/value.rs` (types, coercion costs, `try_cast`) |
| `Model/Declare` | `src/core/type_.rs:82-119` (`Func::new` with its debug assertions) |
| `Model/Funcs`, `Model/SipHash` | `src/funcs.rs`, `src/core/environment/*` (overload table, function bodies) |
| `Model/CrossProduct`, `Model/Expand` | `src/util/cross_product.rs`, `src/expand/raw_ast.rs`, `src/ast/tuple.rs`, the syntax tree |
| `Model/Resolve`, `Model/Eval` | `src/resolve/*`, `src/eval/*` (with the mutable metadata table and the cloned scopes) |
| `Model/Cells` | the same phases with the metadata in memory: `Rc`, `RefCell`, guards |
| `Model/Located` | the phases after parsing with the nodes whose spans errors carry |
| `Model/Steps` | resolution and evaluation, counting visits |
| `Model/Release` | resolution and interpretation without overflow checks |
| `Model/Diagnose` | `src/parse/*`, `src/util/combined.rs` again, with messages and places of errors |
| `Model/Reports` | `src/error.rs` `combine_errors`, `src/parse/{loop_alias,tuple}.rs`: all the messages of a syntax error |
| `Model/SpanItems` | syntax trees of blocks and the block visitor once more, with the span of every token |
| `Model/SpanDeprecation` | `src/util/deprecation.rs:37-142` once more, with spans |
| `Model/Spans` | evaluation and substitution in a node once more, with the span of every token |
| `Model/Parse` | `src/parse/*`, `src/util/{terminated,combined,token_distance}.rs` |
| `Model/Cursor` | `src/util/token_distance.rs`, with the buffers and cursors of `syn` |
| `Model/Deprecation` | `src/util/deprecation.rs` |
| `Model/UniqueId` | `src/util/unique_id.rs` under arbitrary interleavings |
| `Model/Interp` | `src/interpreter/core.rs`, `src/lib.rs` (whole invocations, thread-global state, histories) |
| `Model/Demo` | a small concrete instance of the external code, for examples only |

`Spec/*` holds the small independent specifications, `Proofs/*` helper lemmas,
`Props/*` the property theorems (each followed by a non-vacuity `example`).

`Lite/*` is a small stand-in for `proc_macro2`, `syn` and `heck` (a lexer, a printer, part of Rust's grammar, conversions of case), so that
the model can be run. Of the theorems only those about the examples of the documentation (C79) depend on it. `Lite/Local`, `Facts`, `Ascii` and `Blind` prove of this stand-in what the theorems assume of external code (values end before a separator, plain names are read as names, case conversions keep names valid, well-formedness does not depend on the choice of names); `Lite/Applied` puts this together (`lite_fits`) and instantiates C18, C20, C46, C82, C86, C88 and C92; `Lite/Taken` shows that blocks are taken apart as the grammar of items says (`lite_text`) and instantiates C64 and C66. `Lite/Tests*` hold the repository's own tests as examples about the model, checked
by the kernel (`tools/concordance.py` writes them from `/repo`): an edit of the model that departs from the code as tested breaks the build.

Every panic of the code (`unreachable!`, `expect`, `Ident::new` on a bad string, …) is an
explicit `panic` outcome, so that "does not panic" is a statement about the model.

## 2. What is not modelled (trusted base)

* Lean's kernel; axioms `propext`, `Classical.choice`, `Quot.sound` at most (checked with `#print axioms`).
* `syn`'s grammars for paths, types, expressions, items and blocks, `TokenStream::to_string`, `heck`
  and Unicode tables are *parameters* of the model (`Ext`).  A theorem that needs a fact about them takes
  it as an explicit hypothesis, and a concrete instance satisfying the hypotheses is exhibited.
* Facts about `syn`/`proc_macro2` that are built into the model (their sources are not in the sandbox; they
  are stated from knowledge of these crates):
  `Ident::new` panics on anything that is not an identifier lexically, including `r#x`;
  `ToTokens`/`Parse` of `syn::Generics` ignore the where-clause; `Attribute::parse_outer` rejects `#![..]`;
  `syn::Ident` parsing rejects keywords and `_`; `LitInt::base10_digits` is the canonical decimal numeral.
* How `syn` is used by the parser is a parameter too (`Syn`): for paths, types and expressions, how many tokens of the input the
  grammar reads, if any; for the block, whether it parses and as which statements; for each kind of node, whether tokens are one.
  Theorems about separators assume that no path, type or expression is read across a `,` (`StopsAtSep`) or beyond a block followed by a
  separator (`StopsAtBlock`); both are shown of the example grammar. Tokens that a parser of `syn` leaves over inside a group it has opened (`(x y)` as a
  parenthesised type, `[u8; 3 4]`) are reported by `syn` only at the end of the enclosing parse; here the group as a whole is one token tree, which
  is read or not.
* Parsing tokens and printing the result gives the same tokens (`syn` is lossless), except where the code below says otherwise
  (where-clauses of `syn::Generics`). `TextSyntax` says so up to spacing. Of `syn` this is known to be untrue in a few more cases,
  which theorems that assume `TextSyntax` leave out: `t.0.1` is printed as `t . 0 . 1` (`FieldSyntax` and C66_fields allow for this), `trait T: {}` without
  the colon, and lifetimes among generic parameters or arguments before the types, if they were not written in this order (which Rust rejects anyway).
* Where items are inside opaque pieces of code (a function body, a nested block) is a parameter (`Sites`), of which only losslessness is assumed.
* Spans (except for `Model/Located`: which node an error points to, `Model/Diagnose`: which tokens a syntax error points to, and `Model/Spans`, `Model/SpanItems`, `Model/SpanDeprecation`) and the messages of `syn` itself
  are dropped. The crate's own messages, with signatures and quoted calls, are modelled (`Model/Error`); where an error quotes a definition,
  theorems saying that a change of the definitions has no effect compare errors without the quotation (`blur`). Groups without delimiters
  (fragments inserted by `macro_rules!`) are looked through where a single token or a delimited group is read, as `syn` does (`opened`); not for
  separators, `=`, `for` and `in`, and not when evaluation parses tokens again (`syn::parse2` in casts).
* An integer literal is a token of its own; a negative number is the punctuation `-` and a literal.
* Overloads are identified by their position in the table instead of by an id; their ids are drawn, but only compared with each other.
* Ids drawn while expanding loops and for computed values are not followed: nothing reads them.
* Running time (except for `Model/Steps`: how often a node is resolved or evaluated; copies of scopes are not counted), memory (except for `Model/Cells`) and stack depth. Recursion of the parser and of the evaluation is bounded only by the nesting of the input (C101), not by the stack.
* The order of draws from the id counter is any sequence (`fetch_add` is atomic); iteration orders of hash maps are any permutations.

Axioms: no property theorem depends on any but `propext`, `Quot.sound` and `Classical.choice` (`#print axioms` on each theorem of the manifest).

## 3. Properties and how they are proved

Where the code does not satisfy a property as users would state it, the negation is proved on a concrete
witness (`…_false`) and the part that does hold is proved under the suffix `_partial`.

Strings
* C01 — invariant over the scan loop: result nonempty, first char non-numeric alnum or `_`, rest alnum or `_`; holds as a
  lexical identifier when alphanumerics are XID characters (ASCII in particular). `_partial` + witness (`x²`).
* C02 — invariant: alnum filter of result = alnum filter of the consumed prefix.
* C03 — invariant "last char `_` iff inserted flag" for underscore-free input; identity by induction.
* C04 — false (`a__` ↦ `a_`); partial: leading underscores, and generated trailing ones. 
* C05 — false (`a__`); partial: holds iff the normal form does not end in a stray underscore.
* C06–C10 — the scan as a fold; refinement to a recursive description over percent-free pieces and percent runs; laws as corollaries. C09 false (`%%%%`), partial for isolated `%%`, and the exact law for runs (n ↦ n−1).

Token substitution
* C11–C15 — simulation: the stack machine configuration denotes a token list (unwinding the stack); each step preserves "denotation of done part ++ substitution of the rest"; a size measure gives termination.
* C16 — the same simulation with validation: k-th intermediate stream `substN k`.
* C17/C18/C57 — structural induction over items. C17 is false because where-clauses of struct/enum/union/trait/impl are lost; partial for blocks without them. C18 false for inner attributes; partial otherwise.

Types, overloads, evaluation
* C19–C21 — case analysis over the cast table with the parser interface abstract.
* C22 — the chosen candidate is a minimum of a strict total key; permutation invariance.
* C23, C24, C35 — a pure typing/evaluation semantics without ids (`Spec/Typing`); refinement of the id/metadata implementation to it for expressions with distinct ids; type soundness on the pure side.
* C25, C26, C56 — induction over the definition list.
* C27, C28, C34 — from the resolution function and the parser.
* C29 — false: closed form `cost = 4·2^d` for d nested `concat`s; partial: bound by size.
* C30–C33, C36 — function bodies. C31 false (`concat(1, concat(0,2))`), C36 false (raw identifiers, `_`).

Loops
* C37–C40 — odometer state denotes the list of remaining combinations; induction. C40 false for zero sources.
* C41, C42 — breadth-first queues of equal shapes stay in lock step; C42 false (`((a,b),(c))` vs `((x),(y,z))`), partial.
* C43, C54 — induction over the block rewrites.

Parsing
* C44 — the accumulator loop computes an argmax with first-wins ties.
* C45–C49 — induction over the definition list; C45 false for the attribute form (`a = f(x),;`), C49 false for plain values.
* C50 — id counter monotone through the parser (including failed forks); interleaving model for threads.

Invocation history
* C51, C52 — invariant over all histories: between invocations no borrow and no warning; the prefix is that of the first invocation (so C52 is false).
* C53 — induction over the attachment sites in visiting order.
* C55 — the parse result up to ids does not depend on the counter, and evaluation depends only on the id-free expression (C24).
* C59 — C17 (each copy), C43 (order of copies), C53 (warnings) and C58 (the block is the parsed code) put together.
* C60 — the expansion is the join of one copy per list of definitions in force; without loops there is one.
* C61, C62 — typing, cost overflow and evaluation depend only on the aliases used; swaps of neighbours generate the permutations without
  forward references; the visitor looks up only names used in the block (`Proofs/Independence`, `Proofs/VisitorLocal`).
* C63 — the two macros differ only in the prefix of warnings.
* C64 — renaming as a relation on definitions, strings and tokens; typing, evaluation and formatting related by induction.
* C65 — errors located in the pure semantics: `checkSpec_error` and `evalSpecT_applied` find the definition or the application, the
  visitor carries an invariant on what its error names.
* C67, C68 — the printed names of types contain none of the separators, so signatures and lists of signatures can be split again; which errors
  occur comes from C65. The quotation of a call follows the reading of its arguments (`ReadsExpr`);
  `Spec/Quote` says what is shown, from the tokens (`C68_exact`).
* C66 — the text of blocks and items as an inductive relation of its own (`Spec/Text`); printing inverts it; then C59. Losslessness of `syn` is
  only needed up to spacing: C17, C59 and C64 hold for every way `q` of disregarding properties of single tokens (`Coarse`).
  One such way is to take `0.1` for `0 . 1` (`Spec/Fields`, `Props/Fields`): C66_fields.
* C69 — the text of a value in strings (`stringForm`), then the rules of placeholders (C10).
* C70 — the first token of the input with and without the group is the same (`First`), and the readings of `Spec/Syntax` start from it.
* C71 — by the readings of `Spec/Syntax`; the list of keywords is written down a second time, from the Rust reference.
* C72 — by cases; partial, see findings.
* C73 — every expression has a principal type: the candidates for an expected type are those for none, each with the cost of the coercion added; the only pair of overloads that this can reorder is that of `hash` (`Proofs/Principal`). Partial, see findings.
* C74 — values evaluated by a name and by the expression itself agree up to coercion (`Proofs/WriteOut`), since the overloads that a change of cost may exchange compute the same; if one side gives a value the other does too, or `concat` gives up (`Proofs/WriteOutSafe`). Partial, see findings.
* C75 — the statements of the two phases run on a memory of cells with borrow flags (`Model/Cells`); simulation of the model that passes metadata by value, with a frame condition (`Proofs/Cells`).
* C76 — the phases after parsing with the places of errors (`Model/Located`), which are the same phases if places are forgotten (`C76_same_outcome`); each kind of error traced to where it is made (`Proofs/Located`).
* C77 — resolution and evaluation with a counter of visits (`Model/Steps`), which are the same phases if the counter is forgotten; bounds by induction on expressions, the blow-up by an exact count for a family of expressions that the parser reads (`Proofs/Steps`).
* C78 — the tables of the reference as data and typing rules without costs (`Spec/Reference`); equivalence with the choice by costs (`Proofs/Reference`, on top of the principal types of C73).
* C79 — the examples of the reference run on the whole model with `Lite`'s reader; the reason for those that fail by the typing rules of C78.
* C80, C81 — equations on what the loops bind in each iteration (`bound`), and on the visit of a block cut in two (`Props/Laws`). `Props/LoopOrder`: loops in another order bind the same (`Reorders`), and the order of what they bind does not matter.
* C82 — an invariant of values (`ValueFine`, `Spec/Ordinary`) kept by coercions and, one by one, by the built-in functions (`Proofs/Invariant`, `Proofs/Ordinary`); the three causes of panics in C65 are excluded with it, with the bound of C29 and with C18 (`Props/NoCrash`).
* C83 — the parsers once more, now with the reason and the place of an error (`Model/Diagnose`); they agree with those of `Model/Parse` (`rawAst_told`, `attr_told`) and find exactly the mistakes of the relations in `Spec/Faults` (`Proofs/Diagnose`, `Proofs/FaultPlaces`, `Props/Diagnose`).
* C84 — a comma at the end of arguments, tuples and lists does not matter, apart from `raw` and `normalize` (`Spec/Commas`, `Proofs/Commas`, `Props/Commas`).
* C85 — where the tokens of generated code and errors of the substitution point (`Model/Spans`, `Spec/Spans`, `Proofs/Spans`, `Proofs/SpanWalk`, `Props/Spans`), and which spans the nodes of an input have (`Spec/SpanReads`, `Proofs/SpanReads`, `Props/SpanInput`), and the same for whole blocks (`Model/SpanItems`, `Spec/SpanItems`, `Proofs/SpanVisitor`, `Proofs/SpanBlocks`, `Props/SpanBlock`), and for the deprecation attributes (`Model/SpanDeprecation`, `Spec/SpanDeprecation`, `Proofs/SpanDeprecation`, `Props/SpanWarnings`). Blocks with spans can have any spans (`Proofs/AnySpans`, `Props/AnySpans`).
* C86 — values in definitions, loops and calls (`Spec/Commas`, `Props/Positions`).
* C87 — all the messages of a syntax error (`Model/Reports`, `Spec/Reports`, `Props/Reports`).
* C88 — exactly when an invocation gives code (`Props/WhenCode`), from C16, C17 and C54.
* C89 — declarations of functions and positions of arguments (`Model/Declare`, `Props/Declare`).
* C90 — flattening `concat` in `concat` (`Spec/Flatten`, `Proofs/Flatten`, `Proofs/FlattenSafe`, `Props/Flatten`).
* C91 — counting tokens between cursors (`Model/Cursor`, `Spec/Cursor`, `Proofs/Cursor`, `Props/Cursor`).
* C92 — reading does not depend on names and strings (`Spec/Leafmap`, `Proofs/Leafmap`, `Props/SameReading`).
* C93 — an invocation inside another (`Spec/Pasted`, `Proofs/Pasted`, `Props/Pasted`; `Props/PastedValues` for values of any kind); with it, renaming in the tokens (C64, `Props/RenameText`).
* C94 — of several mistakes, exactly which one is reported (`Spec/First`, `Proofs/First`, `Props/First`).
* C95 — exactly when an invocation panics (`Props/Panics`).
* C96 — names joined from different names are different (`Spec/JoinNames`, `Proofs/JoinNames`, `Props/JoinNames`); not so when two parts vary.
* C97 — the macro built without overflow checks (`Model/Release`) does the same except where a cost overflows (`Proofs/Release`, `Props/Release`); where one does, it takes another overload.
* C98 — parts of definitions that no context can tell apart may be exchanged (`Spec/Interchange`, `Proofs/Interchange`); `normalize2(v)` and `normalize(v)` are such, except for some strings and numbers (`Props/NormalizeValue`).
* C99 — functions applied twice (`Spec/Twice`, `Proofs/Twice`, `Props/Twice`).
* C100 — the size of the generated code (`Spec/Size`, `Proofs/Size`, `Props/Size`).
* C101 — how deeply values and code are nested (`Spec/Depth`, `Proofs/Depth`, `Props/Depth`); functions keep the bound (`spec_keeps`), deleted where-clauses
  only make code shallower (`stmts_where`).
* C102 — what is parsed while aliases are replaced (`Model/Parses`, `Model/VisitorParses`, `Spec/Parses`, `Proofs/Parses`,
  `Proofs/VisitorParses`, `Props/Reparse`): walker and visitor once more, with a record of the streams handed to `syn::parse2`.
* C103 — casts of the values of aliases (`Proofs/Recast`, `Props/Recast`): `Proofs/VisitorLocal` says that the visitor sees of an alias only
  its tokens, and in strings its text.
* C104 — provenance (`Spec/Origin`, `Proofs/Origin`, `Props/Origin`): what the definitions are written with is kept by all functions (`spec_keeps`), and what
  the input is written with is inherited by the texts of the expressions in it (`Proofs/Inside`, also used for C101).
* C105 — extensionality and its converse (`Proofs/Matters`, `Props/Matters`): replacing depends on the values only through tokens and texts (`visitBlock_local`), and if
  only one alias changes, equal results have equal lengths, hence equal replacements, wherever it stands.
* C106 — composition of expansions (`Props/Again`): two replacements one after the other are one with both lists of values, if the second leaves the first values
  as they are; idempotence is the case of equal lists.
* C107 — independence of the spelling of strings (`Spec/Respelled`, `Proofs/Respelled`, `Props/Respelled`): the replacement forgets the spelling, and functions of
  strings are interchangeable for spellings.
* C108 — the same for numbers (`Spec/Numbers`, `Proofs/Numbers`, `Props/Numbers`).
* C109 — independence of the order in which functions are registered (`Spec/Order`, `Proofs/Order`, `Props/Order`), by principal types (C73): no ties.
* C110 — functions that are not named do not matter (`Spec/Unused`, `Proofs/Unused`, `Props/Unused`).
* C111 — the copies of the metadata made to try overloads (`Model/Copies`, `Spec/Copies`, `Proofs/Copies`, `Props/Copies`).
* C112 — aliases of expressions as operands (`Spec/Operands`, `Props/Operands`).
* C113 — raw identifiers (`Spec/RawNames`, `Proofs/RawNames`, `Props/RawNames`).
* C114 — lifetimes and labels (`Spec/Lifetimes`, `Proofs/Lifetimes`, `Props/Lifetimes`).
* C115 — literals (`Spec/Literals`, `Props/Literals`), by C66_fields.
* C116 — the names in the generated code (`Props/NamesLeft`), by C66_fields.
* C117 — inline arguments of format strings (`Spec/InlineArgs`, `Props/InlineArgs`), by C66_fields.

`Props/InCode` restates C01–C10 for the functions and for calls in code, so that they do not depend on how the model cuts up an invocation.

For claims that are false as stated, `Props/Exact`, `Props/ExactMore` and `Props/ExactForms` prove exactly when they hold (theorems `…_exact`).

Whole invocations (`Props/Run`)
* A thread between two invocations is idle (`Proofs/Lib`); on an idle thread the output of an invocation is a function of its input, its seed
  and the prefix for warnings (`Result`). The interpreter with its side tables computes the expansion defined in `Spec/Run` without
  ids, tables, hash maps or threads (`Proofs/Run`, from C24 and the uniqueness of ids). C25, C28, C33, C43, C46, C51, C52, C54, C55 follow.

## 4. Findings: where the code does not do what a user would expect

1. `normalize` keeps underscores at the end (`a__` gives `a_`); it is not idempotent (C04, C05).
2. Runs of three or more `%` in format strings are not escapes (C09).
3. Raw string literals are respelled (C12); a block in which only string literals were replaced before a failure makes the macro panic (C16).
4. Where-clauses of structs, enums, unions, traits and impls are dropped (C17); inner attributes make the macro panic (C18).
5. The prefix of warnings is that of the first macro on the thread (C52, C55); a warning without an eligible item is lost (C53).
6. `;` works as a separator only after function calls (C49).
7. `compose_item` accepts an extra trailing separator, which may be a different one (C45), and reads `a = x;` as the tokens `x ;` (C46).
8. Keywords coerced to types (C20); `concat` is not associative on numbers with leading zeros (C31).
9. Case functions panic on identifiers which become empty, `to_ident` and the like on raw identifiers (C36).
10. 30 nested calls overflow the cost (C29): a panic in a debug build of the macro, a wrong choice of overload in a release build (`C97_false`).
11. Tuples of different shapes are accepted if the breadth-first shapes agree (C42).
12. If an argument of a call does not end where the next comma is, all arguments are silently dropped (C48).
13. Loop values can use the aliases of outer loops; with an empty loop list nothing is checked, not even duplicate names (C25).
14. `UndefinedFunctionError` is unreachable (C28).
15. In strings, paths lose their generic arguments and leading `::` (C69).
16. The (unused) parser of types does not know `expr` and `raw`, and its arm for `type` is unreachable, since `syn` refuses keywords (C72).
17. `hash("a")` is a string, but inside `concat(hash("a"), b)` it is an identifier; `H = hash("a"), A = concat(H, b)` gives a string followed by `b`, written out it gives one identifier (C73, C74).
18. Costs of inner coercions decide about outer overloads: `X = to_ident(to_ident(to_ident(f))), A = concat(X, n)` gives `fn`, written out it is an error (C74).
19. If a nested call fits no overload, the error points to and shows the outermost call of the definition (C76).
20. Arguments are resolved anew for each overload: the time for nested calls is exponential in the nesting, `normalize2(normalize2(… (x)))` with `d` calls takes `(7·5^d − 3)/4` visits (C77).
21. The type of `concat` of a hashed string depends on how deeply the argument of `hash` is nested: `concat(hash(to_str(x)), "b")` is a string, with four `to_str` it is an identifier (C78).
22. Two examples of the reference, `to_path(concat(std, ::, vec))` and `to_type(concat(Vec, <, u32, >))`, are rejected: `concat` with an identifier first always makes an identifier. A third, `Result<u32, Error>` for the type `type`, is read as a path (C79).
23. Functions which give valid identifiers crash when put together: `camel_case(hash(x))` and `camel_case(normalize(1))` panic, since `heck` drops the leading underscores and leaves a digit in front (C82).
24. The messages `Expected argument or function call`, `Failed to parse loop source value`, `Expected "," or ";"` and `Failed to parse any loops` are never seen; `a = x; { … }` is reported as a missing block, at the end of the input (C83).
25. `normalize(x_,)` is `x_`, although `normalize(x_)` is `x`: with the comma the underscore is not the last character of the text (C84).
26. `T = Result<u32, E>` is one value, but `to_path(Result<u32, E>)` has two arguments and is an error; `for T in [(u8, u16)]` is an error although `T = (u8, u16)` is not (C86).
27. `concat` in `concat` cannot always be flattened: `concat(a, concat(0x10))` is `a16`, `concat(a, 0x10)` is `a0x10`; `concat(x, concat(1, b))` is rejected, `concat(x, 1, b)` is `x1b` (C90).
28. `concat` of an identifier and tokens reads the text again, so that comments disappear: `concat(a, /, /, b)` is `a` (C90, `Lite/Findings`).
29. An invocation in the code of another cannot define an alias of the outer one again: `compose!(A = x, { compose!(A = y, …) })` gives `compose!(x = y, …)`. The outer one also
    changes what the inner one takes verbatim (`C93_false`, `Lite/Findings`).
30. `normalize("a_")` is `a_`, because the closing quote comes after the underscore, and `normalize2("a_")` is `a` (`C98_false`, `Lite/Findings`).
31. `pascal_case(a_b_c)` is `ABC`, but `pascal_case(pascal_case(a_b_c))` is `Abc`; `camel_case` and `normalize2` behave alike (`C99_false`, `Lite/Findings`).
32. `concat(to_ident(to_ident(f)), n)` is the keyword `fn`; with one `to_ident` more it is an error, because another overload of `concat` has become cheaper (`C99_casts_false`, `Lite/Findings`).
33. The generated code can be exponentially larger than the input: `a = raw(1,), b = concat(a, a), c = concat(b, b), …` (`C100_false`, `Lite/Findings`).
34. `concat(hash("b"), 1)` is a name, `to_tokens(concat(hash("b"), 1))` a string literal followed by `1`: the cast makes two overloads of `concat` equally expensive (`C103_hash_false`, `Lite/Findings`).

`Lite/Findings` runs most of these as whole invocations on source text.

## 5. How to read `seeded/LOG.jsonl`

Each line is one wrong edit of the model in a scratch copy. What the fields say, and do not say:

* `lemmas` are the lemmas and theorems whose own proof stopped checking under the edit. In most runs a broken lemma was then replaced by `sorry`
  in the scratch copy, so that the modules behind it were reached.
* `failed` is computed, not observed theorem by theorem: it lists the property theorems whose proof uses, directly or not, something in `lemmas`
  (for early entries: at the time of the run). Such a theorem does not build under the edit, but it was not shown that its statement is
  false of the edited program. A broken helper lemma is thus weaker evidence for the strength of a theorem than a broken proof of the theorem itself.
* Of 577 entries, the proof of a theorem of the named claim itself broke in 71. In 438 a theorem of the claim only rests on a broken lemma.
  In 68 no theorem of the claim is listed. Of these, 29 carry a note, name a theorem tightened afterwards, or name no claim because the
  edit changes nothing that can be seen. One more (C95) is marked as equivalent in its `edit`. For the other 38 theorems of other claims
  are listed, and the log does not explain why none of the named claim is: the claim may have been assigned wrongly, its theorems may not have
  been reached, or they may be too weak for this edit. Four such edits were run again: for C73, C94 and C96 theorems of the claim do fail; those of C92 do not,
  as they are about the relation `Reads` and not about the parser. The other edits to the parser under C92 (lines 417, 418) were not run again.
* Lines without `lemmas` have their `failed` from reading the errors of the build or from a note.
* Some runs were stopped for lack of time; edits they did not reach are not in the log. A few edits are counted twice because they were tried against two claims.
