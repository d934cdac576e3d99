import Verif.Lite.Rust
/-! # The repository's tests of the interpreter, as examples about the model (generated by `tools/concordance.py`) -/

namespace Verif.Lite
open Verif

/-! ## `src/interpreter/tests/aliases.rs` -/

/-- `value_expr` (line 9) -/
example : Gives c! "alias = foo" c! "fn alias() -> u32 { 1 }" c! "fn foo() -> u32 { 1 }" := by decide +kernel
/-- `call_expr` (line 17) -/
example : Gives c! "alias = concat(foo, _, bar)" c! "fn alias() -> u32 { 1 }" c! "fn foo_bar() -> u32 { 1 }" := by decide +kernel
/-- `multiple_aliases` (line 25) -/
example : Gives c! "alias1 = foo, alias2 = concat(foo, _, bar)" c! "fn alias1() -> u32 { alias2 }" c! "fn foo() -> u32 { foo_bar }" := by decide +kernel
/-- `alias_reuse` (line 33) -/
example : Gives c! "alias1 = foo, alias2 = concat(alias1, _, bar)" c! "fn alias1() -> u32 { alias2 }" c! "fn foo() -> u32 { foo_bar }" := by decide +kernel
/-- `duplicate_aliases` (line 41) -/
example : Fails c! "alias = foo, alias = bar" c! "fn alias() -> u32 { alias2 }" .redefinedName := by decide +kernel
/-- `reuse_coercion` (line 57) -/
example : Gives c! "s = \"foo bar\", alias = s" c! "fn my_fn() -> &str { alias }" c! "fn my_fn() -> &str { \"foo bar\" }" := by decide +kernel

/-! ## `src/interpreter/tests/calls.rs` -/

/-- `simple_call` (line 8) -/
example : Gives c! "alias = upper(foo)" c! "fn alias() -> u32 { 1 }" c! "fn FOO() -> u32 { 1 }" := by decide +kernel
/-- `nested_calls` (line 24) -/
example : Gives c! "alias = lower(normalize(Foo::Bar))" c! "fn alias() -> u32 { 1 }" c! "fn foo_bar() -> u32 { 1 }" := by decide +kernel
/-- `mixed_args` (line 40) -/
example : Gives c! "alias = concat(foo, _, normalize(bar::baz))" c! "fn alias() -> u32 { 1 }" c! "fn foo_bar_baz() -> u32 { 1 }" := by decide +kernel
/-- `wrong_num_args` (line 56) -/
example : Fails c! "alias = lower(foo, bar)" c! "fn alias() -> u32 { 1 }" .signature := by decide +kernel
/-- `missing_args` (line 68) -/
example : Fails c! "alias = lower()" c! "fn alias() -> u32 { 1 }" .signature := by decide +kernel

/-! ## `src/interpreter/tests/loops.rs` -/

/-- `simple_loop` (line 8) -/
example : Gives c! "for suffix in [foo, bar] my_static = suffix, my_fn = concat(my, _, suffix)" c! "static my_static: u32 = 42; fn my_fn() -> u32 { 42 }" c! "static foo: u32 = 42; fn my_foo() -> u32 { 42 } static bar: u32 = 42; fn my_bar() -> u32 { 42 }" := by decide +kernel
/-- `nested_cartesian` (line 37) -/
example : Gives c! "for a in [x, y] for b in [1, 2] fn_name = concat(a, _, b)" c! "fn fn_name() -> u32 { 0 }" c! "fn x_1() -> u32 { 0 } fn x_2() -> u32 { 0 } fn y_1() -> u32 { 0 } fn y_2() -> u32 { 0 }" := by decide +kernel
/-- `triple_nested_cartesian` (line 57) -/
example : Gives c! "for a in [x, y] for b in [1, 2] for c in [A, B] fn_name = concat(a, _, b, _, c)" c! "fn fn_name() -> u32 { 0 }" c! "fn x_1_A() -> u32 { 0 } fn x_1_B() -> u32 { 0 } fn x_2_A() -> u32 { 0 } fn x_2_B() -> u32 { 0 } fn y_1_A() -> u32 { 0 } fn y_1_B() -> u32 { 0 } fn y_2_A() -> u32 { 0 } fn y_2_B() -> u32 { 0 }" := by decide +kernel
/-- `tuple_destructuring` (line 81) -/
example : Gives c! "for (name, type_, value) in [(foo, &'static str, \"foo\"), (bar, Option<u32>, None)] fn_name = concat(make_, name)" c! "fn fn_name() -> type_ { value }" c! "fn make_foo() -> &'static str { \"foo\" } fn make_bar() -> Option<u32> { None }" := by decide +kernel
/-- `nested_tuple_destructuring` (line 97) -/
example : Gives c! "for (name, (return_type, param_type)) in [ (fn1, (Result<&'static str, String>, Vec::<i32>)), (fn2, (Option<(i32, i32)>, std::collections::HashMap<u8, u16>)) ]" c! "fn name(arg: param_type) -> return_type { panic!() }" c! "fn fn1(arg: Vec::<i32>) -> Result<&'static str, String> { panic!() } fn fn2(arg: std::collections::HashMap<u8, u16>) -> Option<(i32, i32)> { panic!() }" := by decide +kernel
/-- `alias_reuse_in_user_spec` (line 115) -/
example : Gives c! "for suffix in [FOO, BAR] lower_suffix = lower(suffix), fn_name = concat(make_, lower_suffix)" c! "fn fn_name() -> u32 { 0 }" c! "fn make_foo() -> u32 { 0 } fn make_bar() -> u32 { 0 }" := by decide +kernel
/-- `empty_source_list` (line 134) -/
example : Gives c! "for suffix in [] fn_name = concat(my_, suffix)" c! "fn fn_name() -> u32 { 0 }" c! "" := by decide +kernel
/-- `string_formatting` (line 149) -/
example : Gives c! "for name in [foo, bar] fn_name = concat(test_, name)" c! "#[doc = \"Docstring for % fn_name %\"] fn fn_name() -> u32 { 0 }" c! "#[doc = \"Docstring for test_foo\"] fn test_foo() -> u32 { 0 } #[doc = \"Docstring for test_bar\"] fn test_bar() -> u32 { 0 }" := by decide +kernel
/-- `only_loops_no_user_spec` (line 169) -/
example : Gives c! "for name in [alpha, beta]" c! "fn name() -> u32 { 0 }" c! "fn alpha() -> u32 { 0 } fn beta() -> u32 { 0 }" := by decide +kernel

/-! ## `src/interpreter/tests/non_terminals.rs` -/

/-- `function_name` (line 8) -/
example : Gives c! "alias = foo" c! "fn alias() {}" c! "fn foo() {}" := by decide +kernel
/-- `module_name` (line 20) -/
example : Gives c! "alias = foo" c! "mod alias { pub fn my_fn() {} }" c! "mod foo { pub fn my_fn() {} }" := by decide +kernel
/-- `function_in_module` (line 36) -/
example : Gives c! "alias = foo" c! "mod my_mod { fn alias() {} }" c! "mod my_mod { fn foo() {} }" := by decide +kernel
/-- `generic_param_type` (line 52) -/
example : Gives c! "alias = Type" c! "fn my_fn<alias>(x: alias) {}" c! "fn my_fn<Type>(x: Type) {}" := by decide +kernel
/-- `const_generic_param` (line 64) -/
example : Gives c! "alias = N" c! "fn my_array<const alias: usize>() { let _: [u8; alias]; }" c! "fn my_array<const N: usize>() { let _: [u8; N]; }" := by decide +kernel
/-- `struct_name` (line 80) -/
example : Gives c! "alias = Foo" c! "struct alias;" c! "struct Foo;" := by decide +kernel
/-- `enum_variant_name` (line 92) -/
example : Gives c! "alias = Variant" c! "enum E { alias, }" c! "enum E { Variant, }" := by decide +kernel
/-- `trait_name` (line 108) -/
example : Gives c! "alias = MyTrait" c! "trait alias {}" c! "trait MyTrait {}" := by decide +kernel
/-- `path_segment_in_use` (line 120) -/
example : Gives c! "alias = Bar" c! "use foo::alias::baz;" c! "use foo::Bar::baz;" := by decide +kernel
/-- `where_clause_trait` (line 132) -/
example : Gives c! "alias = Iterator" c! "fn my_fn<T>() where T: alias<Item = u8>, { }" c! "fn my_fn<T>() where T: Iterator<Item = u8>, { }" := by decide +kernel
/-- `lifetime_param_and_ref` (line 152) -/
example : Gives c! "alias = a" c! "fn my_fn<'alias>(x: &'alias u8) {}" c! "fn my_fn<'a>(x: &'a u8) {}" := by decide +kernel
/-- `const_generic_expr_in_type` (line 164) -/
example : Gives c! "alias = N" c! "fn my_fn<const alias: usize>() { let _: [u8; alias + 1]; }" c! "fn my_fn<const N: usize>() { let _: [u8; N + 1]; }" := by decide +kernel
/-- `where_clause_assoc_type_name` (line 180) -/
example : Gives c! "alias = Item" c! "fn my_fn<T>() where T: Iterator<alias = u8>, { }" c! "fn my_fn<T>() where T: Iterator<Item = u8>, { }" := by decide +kernel

/-! ## `src/interpreter/tests/string_formatting.rs` -/

/-- `basic` (line 8) -/
example : Gives c! "my_alias = concat(foo, _, bar)" c! "static MY_STRING: &str = \"Hello, % my_alias %!\"; static MY_STRING_NO_WHITESPACE: &str = \"Hello, %my_alias%!\"; static MY_STRING_IRREGULAR_WHITESPACE: &str = \"Hello, % my_alias %!\";" c! "static MY_STRING: &str = \"Hello, foo_bar!\"; static MY_STRING_NO_WHITESPACE: &str = \"Hello, foo_bar!\"; static MY_STRING_IRREGULAR_WHITESPACE: &str = \"Hello, foo_bar!\";" := by decide +kernel
/-- `doc_attr` (line 24) -/
example : Gives c! "my_fn = concat(foo, _, bar)" c! "#[doc = \"My doc comment for % my_fn %\"] fn my_fn() -> u32 { 42 }" c! "#[doc = \"My doc comment for foo_bar\"] fn foo_bar() -> u32 { 42 }" := by decide +kernel
/-- `escape_percent` (line 42) -/
example : Gives c! "my_alias = concat(foo, _, bar)" c! "static MY_STRING: &str = \"Hello, % my_alias % %%\";" c! "static MY_STRING: &str = \"Hello, foo_bar %\";" := by decide +kernel
/-- `undefined_alias` (line 54) -/
example : Gives c! "my_other_alias = foo" c! "static MY_STRING: &str = \"Hello, % my_alias %!\";" c! "static MY_STRING: &str = \"Hello, % my_alias %!\";" := by decide +kernel
/-- `unterminated_placeholder` (line 66) -/
example : Gives c! "my_alias = concat(foo, _, bar)" c! "static MY_STRING: &str = \"Hello, % my_alias\";" c! "static MY_STRING: &str = \"Hello, % my_alias\";" := by decide +kernel
/-- `percent_non_placeholder` (line 78) -/
example : Gives c! "my_alias = concat(foo, _, bar)" c! "static MY_STRING: &str = \"Value: %x\";" c! "static MY_STRING: &str = \"Value: %x\";" := by decide +kernel

/-! ## `src/interpreter/tests/types.rs` -/

/-- `ident` (line 8) -/
example : Gives c! "alias = foo" c! "fn alias() -> u32 { 1 }" c! "fn foo() -> u32 { 1 }" := by decide +kernel
/-- `raw_keyword` (line 15) -/
example : Gives c! "alias = r#type" c! "fn alias() -> u32 { 1 }" c! "fn r#type() -> u32 { 1 }" := by decide +kernel
/-- `ident_with_digits` (line 22) -/
example : Gives c! "alias = foo123" c! "fn alias() {}" c! "fn foo123() {}" := by decide +kernel
/-- `underscore` (line 29) -/
example : Gives c! "alias = _" c! "fn f() { let alias = 1; }" c! "fn f() { let _ = 1; }" := by decide +kernel
/-- `path_simple` (line 38) -/
example : Gives c! "alias = foo::bar" c! "fn f(_: alias) {}" c! "fn f(_: foo::bar) {}" := by decide +kernel
/-- `path_with_generic_args` (line 45) -/
example : Gives c! "alias = Result<i32, String>" c! "fn f(_: alias) {}" c! "fn f(_: Result<i32, String>) {}" := by decide +kernel
/-- `path_with_lifetime_generic_param` (line 52) -/
example : Gives c! "alias = std::slice::Iter<'a, T>" c! "fn f<'a, T>(_: alias) {}" c! "fn f<'a, T>(_: std::slice::Iter<'a, T>) {}" := by decide +kernel
/-- `type_array` (line 61) -/
example : Gives c! "alias = [u8; 32]" c! "fn f(_: alias) {}" c! "fn f(_: [u8; 32]) {}" := by decide +kernel
/-- `type_fn` (line 68) -/
example : Gives c! "alias = fn(i32) -> i32" c! "fn f(_: alias) {}" c! "fn f(_: fn(i32) -> i32) {}" := by decide +kernel
/-- `type_dyn_bounds` (line 75) -/
example : Gives c! "alias = dyn Iterator<Item = u8> + Send + 'static" c! "fn f(_: alias) {}" c! "fn f(_: dyn Iterator<Item = u8> + Send + 'static) {}" := by decide +kernel
/-- `expr_binary` (line 84) -/
example : Gives c! "alias = 2 + 2" c! "fn f() { let _ = alias; }" c! "fn f() { let _ = 2 + 2; }" := by decide +kernel
/-- `expr_block` (line 91) -/
example : Gives c! "alias = { let x = 1; x + 1 }" c! "fn f() { let _ = alias; }" c! "fn f() { let _ = { let x = 1; x + 1 }; }" := by decide +kernel
/-- `expr_call` (line 98) -/
example : Gives c! "alias = foo(1, 2)" c! "fn f() { let _ = alias; }" c! "fn f() { let _ = foo(1, 2); }" := by decide +kernel
/-- `litint_dec` (line 107) -/
example : Gives c! "alias = 123" c! "fn f() { let _ = alias; }" c! "fn f() { let _ = 123; }" := by decide +kernel
/-- `litint_underscore` (line 114) -/
example : Gives c! "alias = 1_000_000" c! "fn f() { let _ = alias; }" c! "fn f() { let _ = 1_000_000; }" := by decide +kernel
/-- `litstr_simple` (line 123) -/
example : Gives c! "alias = \"hello\"" c! "fn f() { let _ = alias; }" c! "fn f() { let _ = \"hello\"; }" := by decide +kernel
/-- `litstr_raw_hashes` (line 130) -/
example : Gives c! "alias = r#\"he\"llo\"#" c! "fn f() { let _ = alias; }" c! "fn f() { let _ = r#\"he\"llo\"#; }" := by decide +kernel
/-- `tokens_item_injection` (line 139) -/
example : Gives c! "alias = #[derive(Default)] struct X;" c! "alias" c! "#[derive(Default)] struct X;" := by decide +kernel
/-- `tokens_let_stmt` (line 146) -/
example : Gives c! "alias = let x = 1;" c! "fn f() { alias }" c! "fn f() { let x = 1; }" := by decide +kernel

end Verif.Lite
