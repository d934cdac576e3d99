import Verif.Lite.Units
import Verif.Model.CrossProduct
/-! # Other tests of the repository, as examples about the model -/

namespace Verif.Lite
open Verif

/-! ## Cross products, `src/util/cross_product.rs` -/

/-- `collect`, at most `n` elements. -/
def collect {α : Type} : Nat → CrossProduct α → Res (List (List α))
  | 0, _ => .ok []
  | n + 1, cp =>
    match cp.next with
    | .ok (some x, cp) => (collect n cp).map (x :: ·)
    | .ok (none, _) => .ok []
    | .err e => .err e
    | .panic => .panic

def collected {α : Type} (xs : List (List α)) : Res (List (List α)) := collect 100 (.fromVecs xs)

-- `constructors`, lines 167-205
example : collected [[1, 2], [10, 20], [100]] = .ok [[1, 10, 100], [1, 20, 100], [2, 10, 100], [2, 20, 100]] := by decide
example : collected [['a', 'b'], ['x', 'y', 'z']] =
    .ok [['a', 'x'], ['a', 'y'], ['a', 'z'], ['b', 'x'], ['b', 'y'], ['b', 'z']] := by decide
example : collected [[1, 2, 3]] = .ok [[1], [2], [3]] := by decide
example : collected [['a'], ['x', 'y']] = .ok [['a', 'x'], ['a', 'y']] := by decide
example : collected [[1, 2], [], [3, 4]] = .ok [] := by decide
example : collected ([] : List (List Nat)) = .ok [] := by decide
-- `total_combinations`
example : (CrossProduct.fromVecs [[1, 2, 3], [4, 5], [6, 7, 8, 9]]).totalCombinations = some 24 := by decide +kernel
example : (CrossProduct.fromVecs [[1], [2]]).totalCombinations = some 1 := by decide +kernel
example : (CrossProduct.fromVecs [[1, 2], []]).totalCombinations = some 0 := by decide +kernel
-- `size_hint`, `reset`
/-- The iterator after `n` calls of `next`. -/
def after {α : Type} : Nat → CrossProduct α → CrossProduct α
  | 0, cp => cp
  | n + 1, cp => match cp.next with | .ok (_, cp) => after n cp | _ => cp
example : (CrossProduct.fromVecs [[1, 2], [3, 4, 5]]).sizeHint = .ok (6, some 6) := by decide +kernel
example : (after 1 (CrossProduct.fromVecs [[1, 2], [3, 4, 5]])).sizeHint = .ok (5, some 5) := by decide +kernel
example : (after 3 (CrossProduct.fromVecs [[1, 2], [3, 4, 5]])).sizeHint = .ok (3, some 3) := by decide +kernel
example : (collect 1 (after 2 (CrossProduct.fromVecs [[1, 2], [3, 4]])).reset) = .ok [[1, 3]] := by decide
-- `correct_number_of_combinations`, `has_empty_source`
example : (collected [[1, 2], [10, 20]]).map List.length = .ok 4 := by decide
example : (collected [['a'], ['x', 'y', 'z']]).map List.length = .ok 3 := by decide
example : (collected [[1, 2, 3], [10], [100, 200]]).map List.length = .ok 6 := by decide
example : (CrossProduct.fromVecs ([] : List (List Nat))).hasEmptySource = false := by decide
example : (CrossProduct.fromVecs [[1, 2]]).hasEmptySource = false := by decide
example : (CrossProduct.fromVecs [[1, 2], []]).hasEmptySource = true := by decide

/-! ## Token distance, `src/util/token_distance.rs:72-99` -/

example : leafCount (toks c! "a + b -") = 4 := by decide +kernel
example : leafCount (toks c! "a + (b *)") = 4 := by decide +kernel

/-! ## Substitution errors, `src/substitution/substitute_idents.rs:189-219` -/

example : substituteIdents ext (fun ts => full (rust .item) ts) [(c! "T", .litInt ⟨false, c! "123", 123⟩)] (toks c! "fn f() -> T { 0 }") =
    .err (.substitution (c! "T") (c! "123")) := by decide +kernel

/-! ## The walker, `src/substitution/stream_visitor.rs:546-688` -/

/-- The reactions of `TestVisitor`, lines 430-470. -/
structure Hooks where
  onIdent : Str → Res Action := fun _ => .ok .cont
  onGroup : Delim → Res Action := fun _ => .ok .cont
  onExit : Toks → Res Action := fun _ => .ok .cont

/-- `TestVisitor`, lines 472-543: the log is the state. At the very end, the log is put behind the result, in braces. -/
def logger (h : Hooks) : Visitor Toks where
  visitIdent log _ n := (h.onIdent n).map fun a => (log ++ [.ident (c! "ident"), .ident n], a)
  visitPunct log _ c j := .ok (log ++ [.ident (c! "punct"), .punct c j], .cont)
  visitLiteral log _ l := .ok (log ++ [.ident (c! "literal"), .lit l], .cont)
  visitGroup log _ d _ := (h.onGroup d).map fun a => (log ++ [.ident (c! "group"), .group d []], a)
  enterGroup log _ _ := .ok (log ++ [.ident (c! "enter")], .cont)
  exitGroup log c ts :=
    let log := log ++ [.ident (c! "exit")]
    if c.length = 1 then .ok (log, .replace (ts ++ [.group .brace log])) else (h.onExit ts).map fun a => (log, a)
  afterReplace log _ := .ok (log ++ [.ident (c! "replaced")])

def Walks (h : Hooks) (input expected : Str) : Prop := (walk (logger h) [] (toks input)).map plain = .ok (plain (toks expected))
instance (h : Hooks) (a b : Str) : Decidable (Walks h a b) := inferInstanceAs (Decidable (_ = _))

def onA (a : Action) : Hooks := { onIdent := fun n => .ok (if n = c! "a" then a else .cont) }

-- `visit_order_simple_group`
example : Walks {} (c! "(a)") (c! "(a) { group () enter ident a exit exit }") := by decide +kernel
-- `replace_ident_with_multiple_tokens`, `replace_ident_with_empty_stream_triggers_after_replace`, `remove_ident_by_skipping`
example : Walks (onA (.replace (toks c! "x y"))) (c! "a") (c! "x y { ident a replaced exit }") := by decide +kernel
example : Walks (onA (.replace [])) (c! "a") (c! "{ ident a replaced exit }") := by decide +kernel
example : Walks (onA .skip) (c! "a b") (c! "b { ident a ident b exit }") := by decide +kernel
-- `replace_group_on_visit`, `skip_group_on_exit_removes_it`
example : Walks { onGroup := fun d => .ok (if d = .paren then .replace (toks c! "x + y") else .cont) } (c! "(a)")
    (c! "x + y { group () replaced exit }") := by decide +kernel
example : Walks { onExit := fun ts => .ok (if plain ts = plain (toks c! "a") then .skip else .cont) } (c! "(a) c")
    (c! "c { group () enter ident a exit ident c exit }") := by decide +kernel
-- `error_is_propagated`
example : walk (logger { onIdent := fun n => if n = c! "boom" then .err .internal else .ok .cont }) [] (toks c! "boom") = .err .internal := by
  decide +kernel

/-! ## `hash`, `src/funcs.rs:125-133` and `snippets/hash_expansion.rs` -/

example : hashStr 1 (c! "1") ≠ hashStr 1 (c! "2") := by decide +kernel
example : c! "__" ++ hashStr 1 (c! "1") = c! "__5360156246018494022" := by decide +kernel
example : c! "__" ++ hashStr 1 (c! "2") = c! "__1421539829453635175" := by decide +kernel
example : c! "__" ++ hashStr 2 (c! "1") = c! "__17818851730065003648" := by decide +kernel
example : c! "__" ++ hashStr 2 (c! "2") = c! "__10611722954104835980" := by decide +kernel

/-! ## Whole invocations, `tests/compile` and `snippets` -/

/-- The code is that of the text. -/
def Expands (inv : Invocation) (expected : Str) : Prop :=
  match result inv with
  | .tokens ts => plain ts = plain (toks expected)
  | _ => False
instance (inv : Invocation) (e : Str) : Decidable (Expands inv e) := by
  unfold Expands
  split <;> infer_instance

def Rejected (inv : Invocation) (e : Err) : Prop := result inv = .compileError e
instance (inv : Invocation) (e : Err) : Decidable (Rejected inv e) := inferInstanceAs (Decidable (_ = _))

def compose (s : Str) : Invocation := .compose (toks s)
def composeIdents (s : Str) : Invocation := .composeIdents (toks s)
def composeItem (attr item : Str) : Invocation := .composeItem (toks attr) (toks item)

def basicHeader : Str := c! "for (suffix, (interjection, noun)) in [(BAR, (Hello, \"world\")), (baz, (\"Hallo\", \"welt\")),]
  my_fn = concat(foo, _, 1, _, lower(suffix)),
  greeting = concat(to_str(interjection), \", \", noun, \"!\"),"
def basicItem : Str := c! "#[doc = \"Greets: % greeting %\"] fn my_fn() -> &'static str { greeting }"
def basicResult : Str := c! "#[doc = \"Greets: Hello, world!\"] fn foo_1_bar() -> &'static str { \"Hello, world!\" }
  #[doc = \"Greets: Hallo, welt!\"] fn foo_1_baz() -> &'static str { \"Hallo, welt!\" }"

-- `tests/compile/compose.rs`, `concat_idents/basic.rs`, `compose_item/basic.rs`
example : Expands (compose (basicHeader ++ c! "{" ++ basicItem ++ c! "},")) basicResult := by decide +kernel
example : Expands (composeIdents (basicHeader ++ c! "{" ++ basicItem ++ c! "},")) basicResult := by decide +kernel
example : Expands (composeItem basicHeader basicItem) basicResult := by decide +kernel
-- `tests/compile/error_reporting.rs`
example : Rejected (compose c! "my_fn = \"foo bar\", { fn my_fn() -> u32 { 42 } },") (.substitution (c! "my_fn") (c! "\"foo bar\"")) := by
  decide +kernel
-- `tests/compile/error_reporting.stderr`; the last line is the message of `syn`
example : (Err.substitution (c! "my_fn") (c! "\"foo bar\"")).message ext (c! "expected identifier") =
    c! "SubstitutionError: failed to substitute:\n\n  my_fn\n\nwith:\n\n  \"foo bar\"\n\nEncountered an error:\n\n  expected identifier" := by
  decide +kernel
-- `tests/compile/nested_compose.rs`
example : Expands (compose c! "my_fn = concat(foo, _, baz), { fn my_fn() -> u32 { 42 } }") (c! "fn foo_baz() -> u32 { 42 }") := by decide +kernel
-- `tests/compile/nested_type_token_compose.rs`, the two invocations after the expansion of the outer macro
example : Expands (compose c! "my_fn = concat(foo, _, ⟦u8⟧), { fn my_fn() -> ⟦u8⟧ { 42 as ⟦u8⟧ } }")
    (c! "fn foo_u8() -> ⟦u8⟧ { 42 as ⟦u8⟧ }") := by decide +kernel
example : Expands (compose c! "my_fn = concat(foo, _, ⟦u32⟧), { fn my_fn() -> ⟦u32⟧ { 42 as ⟦u32⟧ } }")
    (c! "fn foo_u32() -> ⟦u32⟧ { 42 as ⟦u32⟧ }") := by decide +kernel
-- fragments of other kinds
example : Expands (compose c! "for x in ⟦[A, b]⟧ f = ⟦concat(get_, ⟦lower(x)⟧)⟧, ⟦{ fn f() -> u8 { ⟦1 + 2⟧ * 3 } }⟧")
    (c! "fn get_a() -> u8 { ⟦1 + 2⟧ * 3 } fn get_b() -> u8 { ⟦1 + 2⟧ * 3 }") := by decide +kernel
-- `tests/compile/trailing_comma.rs`
example : Expands (compose c! "my_fn = concat(foo, _, bar), { fn my_fn() -> u32 { 42 } },") (c! "fn foo_bar() -> u32 { 42 }") := by decide +kernel
-- `tests/compile/compose_item/trailing_comma_after_aliases.rs`, `trailing_comma_after_loops.rs`
example : Expands (composeItem (c! "fn_name = concat(hello, _, world),") (c! "fn fn_name() -> u32 { 42 }")) (c! "fn hello_world() -> u32 { 42 }") := by
  decide +kernel
example : Rejected (composeItem (c! "for name in [foo, bar],") (c! "fn name() {}")) .parse := by decide +kernel
-- `tests/compile/concat_idents/warning.rs`
example : Expands (composeIdents c! "name = foo, { fn name() {} },") (c! "fn foo() {}") := by decide +kernel
-- `tests/compile/semicolon`
example : Rejected (compose c! "my_fn_1 = concat(foo, _, bar), my_fn_2 = concat(spam, _, eggs); { fn my_fn_1() -> u32 { 123 } fn my_fn_2() -> u32 { 321 } }")
    .parse := by decide +kernel
def semicolonWarning : Str :=
  c! "#[deprecated(since = \"0.0.5\", note = \"compose!: Using semicolons as separators is deprecated, use commas instead\",)]"
example : Expands (compose c! "my_fn = concat(foo, _, bar); { fn my_fn() -> u32 { 1 } }") (semicolonWarning ++ c! "fn foo_bar() -> u32 { 1 }") := by
  decide +kernel
-- (The expected errors of `semicolon_syntax_warning.rs` mention `foo_baz`, but not `spam_eggs`.)
example : Expands (compose c! "my_fn_1 = concat(foo, _, baz); my_fn_2 = concat(spam, _, eggs); { fn my_fn_1() -> u32 { 2 } fn my_fn_2() -> u32 { 3 } }")
    (semicolonWarning ++ c! "fn foo_baz() -> u32 { 2 } fn spam_eggs() -> u32 { 3 }") := by decide +kernel
-- `snippets`
example : Expands (compose c! "base_alias = FOO, derived_alias = concat(BAR, _, base_alias),
    { static base_alias: u32 = 1; static derived_alias: u32 = base_alias; },")
    (c! "static FOO: u32 = 1; static BAR_FOO: u32 = FOO;") := by decide +kernel
example : Expands (compose c! "my_fn_1 = concat(foo, _, bar), my_fn_2 = concat(spam, _, 1, _, eggs), { fn my_fn_1() -> u32 { 42 } fn my_fn_2() -> u32 { 42 } },")
    (c! "fn foo_bar() -> u32 { 42 } fn spam_1_eggs() -> u32 { 42 }") := by decide +kernel
example : Expands (compose c! "A = snake_case(snakeCase), B = camel_case(camel_case), C = pascal_case(concat(pascal, _, case)),
    { static A: u32 = 1; static B: u32 = 2; static C: u32 = 3; },")
    (c! "static snake_case: u32 = 1; static camelCase: u32 = 2; static PascalCase: u32 = 3;") := by decide +kernel
example : Expands (composeIdents c! "for name in [foo, bar] { fn name() -> u32 { 1 } }") (c! "fn foo() -> u32 { 1 } fn bar() -> u32 { 1 }") := by
  decide +kernel
example : Expands (composeItem (c! "my_fn = concat(foo, _, bar),") (c! "pub fn my_fn() -> u32 { 42 }")) (c! "pub fn foo_bar() -> u32 { 42 }") := by
  decide +kernel
example : Expands (compose c! "basic_fn = concat(foo, _, bar, _, baz), upper_fn = upper(concat(hello, _, world)),
    complex_fn = concat(to_ident(\"prefix_\"), normalize(&'static str), _, snake_case(CamelCase)),
    { fn basic_fn() -> u32 { 1 } fn upper_fn() -> u32 { 2 } fn complex_fn() -> u32 { 3 } }")
    (c! "fn foo_bar_baz() -> u32 { 1 } fn HELLO_WORLD() -> u32 { 2 } fn prefix_static_str_camel_case() -> u32 { 3 }") := by decide +kernel
example : Expands (compose c! "my_const = concat(upper(foo), _, lower(BAR)), my_static = upper(lower(BAZ)),
    { const my_const: u8 = 1; static my_static: &str = \"hello\"; }")
    (c! "const FOO_bar: u8 = 1; static BAZ: &str = \"hello\";") := by decide +kernel
example : Expands (compose c! "MY_UNIQUE_STATIC = hash(1), MY_OTHER_UNIQUE_STATIC = hash(2),
    { static MY_UNIQUE_STATIC: u32 = 42; static MY_OTHER_UNIQUE_STATIC: u32 = 42; }")
    (c! "static __5360156246018494022: u32 = 42; static __1421539829453635175: u32 = 42;") := by decide +kernel
example : Expands (compose c! "A = concat(my, _, normalize(&'static str)), { static A: &str = \"x\"; }") (c! "static my_static_str: &str = \"x\";") := by
  decide +kernel
example : Expands (compose c! "A = normalize2(Foo::Bar), B = normalize2(&'static str), C = normalize2(raw(Result<u32, String>)),
    { fn A() -> u32 { 1 } fn B() -> u32 { 2 } fn C() -> u32 { 3 } }")
    (c! "fn Foo_Bar() -> u32 { 1 } fn static_str() -> u32 { 2 } fn Result_u32_String() -> u32 { 3 }") := by decide +kernel
example : Expands (compose c! "my_fn = concat(foo, _, bar), S = concat(FOO, _, BAR),
    { static S: &str = \"This is % S %\"; #[doc = \"This is a docstring for % my_fn %\"] fn my_fn() -> u32 { 321 } },")
    (c! "static FOO_BAR: &str = \"This is FOO_BAR\"; #[doc = \"This is a docstring for foo_bar\"] fn foo_bar() -> u32 { 321 }") := by decide +kernel

end Verif.Lite
