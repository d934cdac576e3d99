import Verif.Lite.Rust
/-! # The repository's tests of the built-in functions, as examples about the model (generated by `tools/concordance.py`) -/

namespace Verif.Lite
open Verif

/-! ## `src/interpreter/tests/funcs/camel_case.rs` -/

/-- `ident` (line 8) -/
example : Gives c! "alias = camel_case(foo_bar_baz)" c! "fn alias() -> u32 { 1 }" c! "fn fooBarBaz() -> u32 { 1 }" := by decide +kernel
/-- `str` (line 19) -/
example : Gives c! "alias = camel_case(\"foo_bar\")" c! "fn my_fn() -> &str { alias }" c! "fn my_fn() -> &str { \"fooBar\" }" := by decide +kernel
/-- `path_failure` (line 30) -/
example : Fails c! "alias = camel_case(foo::bar)" c! "fn my_fn() -> &str { alias }" .signature := by decide +kernel
/-- `expr_failure` (line 39) -/
example : Fails c! "alias = camel_case(|| 42)" c! "fn my_fn() -> &str { alias }" .signature := by decide +kernel
/-- `int_failure` (line 48) -/
example : Fails c! "alias = camel_case(42)" c! "fn my_fn() -> &str { alias }" .signature := by decide +kernel
/-- `tokens_failure` (line 57) -/
example : Fails c! "alias = camel_case(let x = 1;)" c! "fn my_fn() -> &str { alias }" .signature := by decide +kernel

/-! ## `src/interpreter/tests/funcs/concat.rs` -/

/-- `idents` (line 8) -/
example : Gives c! "alias = concat(foo, Bar, Baz)" c! "fn alias() -> u32 { 42 }" c! "fn fooBarBaz() -> u32 { 42 }" := by decide +kernel
/-- `idents_and_tokens` (line 23) -/
example : Gives c! "alias = concat(foo, _, 1, _, bar)" c! "fn alias() -> u32 { 42 }" c! "fn foo_1_bar() -> u32 { 42 }" := by decide +kernel
/-- `idents_and_tokens_failure` (line 38) -/
example : Fails c! "alias = concat(foo, _, 1, _, &'static str)" c! "fn alias() -> u32 { 42 }" .eval := by decide +kernel
/-- `strs` (line 49) -/
example : Gives c! "alias = concat(\"foo\", \"bar\", \"baz\")" c! "fn my_fn() -> &str { alias }" c! "fn my_fn() -> &str { \"foobarbaz\" }" := by decide +kernel
/-- `ints` (line 64) -/
example : Gives c! "alias = concat(1, 2, 3)" c! "fn my_fn() -> u32 { alias }" c! "fn my_fn() -> u32 { 123 }" := by decide +kernel
/-- `tokens` (line 79) -/
example : Gives c! "alias = concat(Result<, raw(u32,), String, >)" c! "fn my_fn() -> alias { Ok(42) }" c! "fn my_fn() -> Result<u32, String> { Ok(42) }" := by decide +kernel

/-! ## `src/interpreter/tests/funcs/hash.rs` -/

/-- `ident` (line 7) -/
example : Gives c! "alias = hash(FooBar)" c! "fn alias() -> u32 { 1 }" c! "fn __1864179433826574950() -> u32 { 1 }" := by decide +kernel
/-- `str` (line 19) -/
example : Gives c! "alias = hash(\"foo\")" c! "fn my_fn() -> &str { alias }" c! "fn my_fn() -> &str { \"10172337927241793445\" }" := by decide +kernel
/-- `tokens` (line 30) -/
example : Gives c! "alias = hash(let x = 1;)" c! "fn alias() -> u32 { 1 }" c! "fn __18050448427594546802() -> u32 { 1 }" := by decide +kernel

/-! ## `src/interpreter/tests/funcs/lower.rs` -/

/-- `ident` (line 8) -/
example : Gives c! "alias = lower(FooBar)" c! "fn alias() -> u32 { 1 }" c! "fn foobar() -> u32 { 1 }" := by decide +kernel
/-- `str` (line 19) -/
example : Gives c! "alias = lower(\"FoO\")" c! "fn my_fn() -> &str { alias }" c! "fn my_fn() -> &str { \"foo\" }" := by decide +kernel
/-- `path_failure` (line 30) -/
example : Fails c! "alias = lower(foo::bar)" c! "fn my_fn() -> &str { alias }" .signature := by decide +kernel
/-- `expr_failure` (line 39) -/
example : Fails c! "alias = lower(|| 42)" c! "fn my_fn() -> &str { alias }" .signature := by decide +kernel
/-- `int_failure` (line 48) -/
example : Fails c! "alias = lower(42)" c! "fn my_fn() -> &str { alias }" .signature := by decide +kernel
/-- `tokens_failure` (line 57) -/
example : Fails c! "alias = lower(let x = 1;)" c! "fn my_fn() -> &str { alias }" .signature := by decide +kernel

/-! ## `src/interpreter/tests/funcs/normalize.rs` -/

/-- `lifetime` (line 7) -/
example : Gives c! "alias = normalize(&'static str)" c! "fn alias() -> u32 { 6 }" c! "fn static_str() -> u32 { 6 }" := by decide +kernel
/-- `generic_type` (line 18) -/
example : Gives c! "alias = normalize(Result<T, E>)" c! "fn my_fn() { let alias = 7; }" c! "fn my_fn() { let Result_T_E = 7; }" := by decide +kernel
/-- `path` (line 29) -/
example : Gives c! "alias = normalize(Foo::Bar)" c! "fn my_fn() { let alias = 7; }" c! "fn my_fn() { let Foo_Bar = 7; }" := by decide +kernel
/-- `path_turbofish` (line 40) -/
example : Gives c! "alias = normalize(HashMap::<String, i32>)" c! "fn my_fn() { let alias = 7; }" c! "fn my_fn() { let HashMap_String_i32 = 7; }" := by decide +kernel
/-- `path_tuple` (line 51) -/
example : Gives c! "alias = normalize(HashMap::<(u64, u64), i32>)" c! "fn my_fn() { let alias = 7; }" c! "fn my_fn() { let HashMap_u64_u64_i32 = 7; }" := by decide +kernel
/-- `valid_function_call` (line 62) -/
example : Gives c! "alias = normalize(lower(FOO))" c! "fn my_fn() { let alias = 7; }" c! "fn my_fn() { let lower_FOO = 7; }" := by decide +kernel

/-! ## `src/interpreter/tests/funcs/normalize2.rs` -/

/-- `ident` (line 8) -/
example : Gives c! "alias = normalize2(foo)" c! "fn alias() -> u32 { 6 }" c! "fn foo() -> u32 { 6 }" := by decide +kernel
/-- `string` (line 16) -/
example : Gives c! "alias = normalize2(\"foo bar\")" c! "fn alias() -> u32 { 6 }" c! "fn foo_bar() -> u32 { 6 }" := by decide +kernel
/-- `int` (line 24) -/
example : Gives c! "alias = normalize2(123)" c! "fn alias() -> u32 { 6 }" c! "fn _123() -> u32 { 6 }" := by decide +kernel
/-- `path` (line 32) -/
example : Gives c! "alias = normalize2(Foo::Bar)" c! "fn alias() -> u32 { 6 }" c! "fn Foo_Bar() -> u32 { 6 }" := by decide +kernel
/-- `type_` (line 40) -/
example : Gives c! "alias = normalize2(&'static str)" c! "fn alias() -> u32 { 6 }" c! "fn static_str() -> u32 { 6 }" := by decide +kernel
/-- `expr` (line 48) -/
example : Gives c! "alias = normalize2(1 + 2)" c! "fn alias() -> u32 { 6 }" c! "fn _1_2() -> u32 { 6 }" := by decide +kernel
/-- `tokens_via_raw` (line 56) -/
example : Gives c! "alias = normalize2(raw(Result<u32, String>))" c! "fn alias() -> u32 { 6 }" c! "fn Result_u32_String() -> u32 { 6 }" := by decide +kernel

/-! ## `src/interpreter/tests/funcs/pascal_case.rs` -/

/-- `ident` (line 8) -/
example : Gives c! "alias = pascal_case(foo_bar_baz)" c! "fn alias() -> u32 { 1 }" c! "fn FooBarBaz() -> u32 { 1 }" := by decide +kernel
/-- `str` (line 19) -/
example : Gives c! "alias = pascal_case(\"foo_bar\")" c! "fn my_fn() -> &str { alias }" c! "fn my_fn() -> &str { \"FooBar\" }" := by decide +kernel
/-- `path_failure` (line 30) -/
example : Fails c! "alias = pascal_case(foo::bar)" c! "fn my_fn() -> &str { alias }" .signature := by decide +kernel
/-- `expr_failure` (line 39) -/
example : Fails c! "alias = pascal_case(|| 42)" c! "fn my_fn() -> &str { alias }" .signature := by decide +kernel
/-- `int_failure` (line 48) -/
example : Fails c! "alias = pascal_case(42)" c! "fn my_fn() -> &str { alias }" .signature := by decide +kernel
/-- `tokens_failure` (line 57) -/
example : Fails c! "alias = pascal_case(let x = 1;)" c! "fn my_fn() -> &str { alias }" .signature := by decide +kernel

/-! ## `src/interpreter/tests/funcs/raw.rs` -/

/-- `trailing_comma` (line 8) -/
example : Gives c! "alias = raw(u64,)" c! "fn my_fn() -> (alias) { (1,) }" c! "fn my_fn() -> (u64,) { (1,) }" := by decide +kernel
/-- `module` (line 20) -/
example : Gives c! "alias = raw(mod foo { fn bar() -> u32 { 0 } })" c! "alias" c! "mod foo { fn bar() -> u32 { 0 } }" := by decide +kernel

/-! ## `src/interpreter/tests/funcs/snake_case.rs` -/

/-- `ident` (line 8) -/
example : Gives c! "alias = snake_case(FooBarBaz)" c! "fn alias() -> u32 { 1 }" c! "fn foo_bar_baz() -> u32 { 1 }" := by decide +kernel
/-- `str` (line 19) -/
example : Gives c! "alias = snake_case(\"FooBar\")" c! "fn my_fn() -> &str { alias }" c! "fn my_fn() -> &str { \"foo_bar\" }" := by decide +kernel
/-- `path_failure` (line 30) -/
example : Fails c! "alias = snake_case(foo::bar)" c! "fn my_fn() -> &str { alias }" .signature := by decide +kernel
/-- `expr_failure` (line 39) -/
example : Fails c! "alias = snake_case(|| 42)" c! "fn my_fn() -> &str { alias }" .signature := by decide +kernel
/-- `int_failure` (line 48) -/
example : Fails c! "alias = snake_case(42)" c! "fn my_fn() -> &str { alias }" .signature := by decide +kernel
/-- `tokens_failure` (line 57) -/
example : Fails c! "alias = snake_case(let x = 1;)" c! "fn my_fn() -> &str { alias }" .signature := by decide +kernel

/-! ## `src/interpreter/tests/funcs/to_expr.rs` -/

/-- `ident` (line 8) -/
example : Gives c! "alias = to_expr(foo)" c! "fn f() { let _ = alias; }" c! "fn f() { let _ = foo; }" := by decide +kernel
/-- `path` (line 19) -/
example : Gives c! "alias = to_expr(foo::bar)" c! "fn f() { let _ = alias; }" c! "fn f() { let _ = foo::bar; }" := by decide +kernel
/-- `expr` (line 30) -/
example : Gives c! "alias = to_expr(1 + 2)" c! "fn f() { let _ = alias; }" c! "fn f() { let _ = 1 + 2; }" := by decide +kernel
/-- `int` (line 41) -/
example : Gives c! "alias = to_expr(42)" c! "fn f() { let _ = alias; }" c! "fn f() { let _ = 42; }" := by decide +kernel
/-- `str` (line 52) -/
example : Gives c! "alias = to_expr(\"foo\")" c! "fn f() { let _ = alias; }" c! "fn f() { let _ = \"foo\"; }" := by decide +kernel
/-- `tokens_failure` (line 63) -/
example : Fails c! "alias = to_expr(let x = 1;)" c! "fn my_fn() -> &str { alias }" .type := by decide +kernel
/-- `valid_function_call` (line 72) -/
example : Gives c! "alias = to_expr(lower(FOO))" c! "fn my_fn() { alias }" c! "fn my_fn() { foo }" := by decide +kernel

/-! ## `src/interpreter/tests/funcs/to_ident.rs` -/

/-- `ident` (line 8) -/
example : Gives c! "alias = to_ident(fooBar)" c! "fn alias() -> u32 { 1 }" c! "fn fooBar() -> u32 { 1 }" := by decide +kernel
/-- `str` (line 19) -/
example : Gives c! "alias = to_ident(\"fooBar\")" c! "fn alias() -> u32 { 1 }" c! "fn fooBar() -> u32 { 1 }" := by decide +kernel
/-- `path_failure` (line 30) -/
example : Fails c! "alias = to_ident(foo::bar)" c! "fn my_fn() -> &str { alias }" .type := by decide +kernel
/-- `expr_failure` (line 39) -/
example : Fails c! "alias = to_ident(|| 42)" c! "fn my_fn() -> &str { alias }" .type := by decide +kernel
/-- `int_failure` (line 48) -/
example : Fails c! "alias = to_ident(42)" c! "fn my_fn() -> &str { alias }" .type := by decide +kernel
/-- `str_failure` (line 57) -/
example : Fails c! "alias = to_ident(\"&foo\")" c! "fn my_fn() -> &str { alias }" .type := by decide +kernel
/-- `tokens_failure` (line 66) -/
example : Fails c! "alias = to_ident(let x = 1;)" c! "fn my_fn() -> &str { alias }" .type := by decide +kernel
/-- `valid_function_call_failure` (line 75) -/
example : Gives c! "alias = to_ident(lower(FOO))" c! "fn my_fn() { alias }" c! "fn my_fn() { foo }" := by decide +kernel

/-! ## `src/interpreter/tests/funcs/to_int.rs` -/

/-- `int` (line 8) -/
example : Gives c! "alias = to_int(42)" c! "fn f() { let _ = alias; }" c! "fn f() { let _ = 42; }" := by decide +kernel
/-- `ident_failure` (line 19) -/
example : Fails c! "alias = to_int(fooBar)" c! "fn my_fn() -> &str { alias }" .type := by decide +kernel
/-- `path_failure` (line 28) -/
example : Fails c! "alias = to_int(foo::bar)" c! "fn my_fn() -> &str { alias }" .type := by decide +kernel
/-- `expr_failure` (line 37) -/
example : Fails c! "alias = to_int(|| 42)" c! "fn my_fn() -> &str { alias }" .type := by decide +kernel
/-- `str_failure` (line 46) -/
example : Fails c! "alias = to_int(\"42\")" c! "fn my_fn() -> &str { alias }" .type := by decide +kernel
/-- `tokens_failure` (line 55) -/
example : Fails c! "alias = to_int(let x = 1;)" c! "fn my_fn() -> &str { alias }" .type := by decide +kernel

/-! ## `src/interpreter/tests/funcs/to_path.rs` -/

/-- `ident` (line 8) -/
example : Gives c! "alias = to_path(foo)" c! "fn f(_: alias) {}" c! "fn f(_: foo) {}" := by decide +kernel
/-- `path` (line 19) -/
example : Gives c! "alias = to_path(foo::bar)" c! "fn f(_: alias) {}" c! "fn f(_: foo::bar) {}" := by decide +kernel
/-- `expr_failure` (line 30) -/
example : Fails c! "alias = to_path(|| 42)" c! "fn my_fn() -> &str { alias }" .type := by decide +kernel
/-- `int_failure` (line 39) -/
example : Fails c! "alias = to_path(42)" c! "fn my_fn() -> &str { alias }" .type := by decide +kernel
/-- `str_failure` (line 48) -/
example : Fails c! "alias = to_path(\"foo\")" c! "fn my_fn() -> &str { alias }" .type := by decide +kernel
/-- `tokens_failure` (line 57) -/
example : Fails c! "alias = to_path(let x = 1;)" c! "fn my_fn() -> &str { alias }" .type := by decide +kernel
/-- `valid_function_call` (line 66) -/
example : Gives c! "alias = to_path(lower(FOO))" c! "fn my_fn() { alias }" c! "fn my_fn() { foo }" := by decide +kernel

/-! ## `src/interpreter/tests/funcs/to_str.rs` -/

/-- `ident` (line 8) -/
example : Gives c! "alias = to_str(fooBar)" c! "fn my_fn() -> &str { alias }" c! "fn my_fn() -> &str { \"fooBar\" }" := by decide +kernel
/-- `str` (line 19) -/
example : Gives c! "alias = to_str(\"foo\")" c! "fn my_fn() -> &str { alias }" c! "fn my_fn() -> &str { \"foo\" }" := by decide +kernel
/-- `path_failure` (line 30) -/
example : Fails c! "alias = to_str(foo::bar)" c! "fn my_fn() -> &str { alias }" .type := by decide +kernel
/-- `expr_failure` (line 39) -/
example : Fails c! "alias = to_str(|| 42)" c! "fn my_fn() -> &str { alias }" .type := by decide +kernel
/-- `int_failure` (line 48) -/
example : Fails c! "alias = to_str(42)" c! "fn my_fn() -> &str { alias }" .type := by decide +kernel
/-- `tokens_failure` (line 57) -/
example : Fails c! "alias = to_str(let x = 1;)" c! "fn my_fn() -> &str { alias }" .type := by decide +kernel

/-! ## `src/interpreter/tests/funcs/to_tokens.rs` -/

/-- `trailing_comma` (line 8) -/
example : Gives c! "alias = to_tokens(u64,)" c! "fn my_fn() -> alias { 1 }" c! "fn my_fn() -> u64 { 1 }" := by decide +kernel
/-- `let_stmt` (line 20) -/
example : Gives c! "alias = to_tokens(let x = 1;)" c! "fn f() { alias }" c! "fn f() { let x = 1; }" := by decide +kernel
/-- `item` (line 32) -/
example : Gives c! "alias = to_tokens(#[derive(Default)] struct X;)" c! "alias" c! "#[derive(Default)] struct X;" := by decide +kernel
/-- `valid_function_call` (line 44) -/
example : Gives c! "alias = to_tokens(lower(FOO))" c! "alias" c! "foo" := by decide +kernel

/-! ## `src/interpreter/tests/funcs/to_type.rs` -/

/-- `ident` (line 8) -/
example : Gives c! "alias = to_type(Foo)" c! "fn f(_: alias) {}" c! "fn f(_: Foo) {}" := by decide +kernel
/-- `path` (line 19) -/
example : Gives c! "alias = to_type(foo::bar)" c! "fn f(_: alias) {}" c! "fn f(_: foo::bar) {}" := by decide +kernel
/-- `expr_failure` (line 30) -/
example : Fails c! "alias = to_type(|| 42)" c! "fn my_fn() -> &str { alias }" .type := by decide +kernel
/-- `int_failure` (line 39) -/
example : Fails c! "alias = to_type(42)" c! "fn my_fn() -> &str { alias }" .type := by decide +kernel
/-- `str_failure` (line 48) -/
example : Fails c! "alias = to_type(\"foo\")" c! "fn my_fn() -> &str { alias }" .type := by decide +kernel
/-- `tokens_failure` (line 57) -/
example : Fails c! "alias = to_type(let x = 1;)" c! "fn my_fn() -> &str { alias }" .type := by decide +kernel
/-- `valid_function_call` (line 66) -/
example : Gives c! "alias = to_type(lower(FOO))" c! "fn my_fn() { alias }" c! "fn my_fn() { foo }" := by decide +kernel

/-! ## `src/interpreter/tests/funcs/upper.rs` -/

/-- `ident` (line 8) -/
example : Gives c! "alias = upper(fooBar)" c! "fn alias() -> u32 { 1 }" c! "fn FOOBAR() -> u32 { 1 }" := by decide +kernel
/-- `str` (line 19) -/
example : Gives c! "alias = upper(\"foo\")" c! "fn my_fn() -> &str { alias }" c! "fn my_fn() -> &str { \"FOO\" }" := by decide +kernel
/-- `path_failure` (line 30) -/
example : Fails c! "alias = upper(foo::bar)" c! "fn my_fn() -> &str { alias }" .signature := by decide +kernel
/-- `expr_failure` (line 39) -/
example : Fails c! "alias = upper(|| 42)" c! "fn my_fn() -> &str { alias }" .signature := by decide +kernel
/-- `int_failure` (line 48) -/
example : Fails c! "alias = upper(42)" c! "fn my_fn() -> &str { alias }" .signature := by decide +kernel
/-- `tokens_failure` (line 57) -/
example : Fails c! "alias = upper(let x = 1;)" c! "fn my_fn() -> &str { alias }" .signature := by decide +kernel

end Verif.Lite
