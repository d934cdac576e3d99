import Verif.Lite.Units
/-! # The repository's tests of substitution, as examples about the model (generated by `tools/concordance.py`) -/

namespace Verif.Lite
open Verif

/-! ## `src/substitution/alias_substitution_visitor.rs` -/

/-- `substituting_single_token` (line 474) -/
example : Visits [(c! "foo", .ident (c! "bar"))] c! "fn foo() -> u32 { 1 }" c! "fn bar() -> u32 { 1 }" := by decide +kernel
/-- `substituting_multiple_tokens` (line 485) -/
example : Visits [(c! "foo", .ident (c! "baz"))] c! "let foo = 1; let bar = foo + 1;" c! "let baz = 1; let bar = baz + 1;" := by decide +kernel
/-- `substituting_with_multiple_tokens` (line 498) -/
example : Visits [(c! "T", .type (toks (c! "Result<u32, String>")))] c! "fn foo() -> T { 1 }" c! "fn foo() -> Result<u32, String> { 1 }" := by decide +kernel
/-- `string_formatting` (line 509) -/
example : Visits [(c! "name", .ident (c! "World"))] c! "fn foo() -> &str { \"Hello, % name %!\" }" c! "fn foo() -> &str { \"Hello, World!\" }" := by decide +kernel
/-- `fn_identifier_substitution` (line 539) -/
example : Visits [(c! "foo", .ident (c! "bar"))] c! "fn foo() -> u32 { 42 }" c! "fn bar() -> u32 { 42 }" := by decide +kernel
/-- `fn_block_recursive_substitution` (line 550) -/
example : Visits [(c! "bar", .ident (c! "baz"))] c! "fn foo() -> u32 { bar }" c! "fn foo() -> u32 { baz }" := by decide +kernel
/-- `struct_identifier_substitution` (line 562) -/
example : Visits [(c! "Foo", .ident (c! "Bar"))] c! "struct Foo { a: u32 }" c! "struct Bar { a: u32 }" := by decide +kernel
/-- `struct_fields_recursive_type_substitution` (line 573) -/
example : Visits [(c! "T", .type (toks (c! "Result<u32, String>")))] c! "struct S { a: T }" c! "struct S { a: Result<u32, String> }" := by decide +kernel
/-- `struct_field_identifier_substitution` (line 584) -/
example : Visits [(c! "foo", .ident (c! "bar"))] c! "struct S { foo: u32 }" c! "struct S { bar: u32 }" := by decide +kernel
/-- `enum_identifier_substitution` (line 596) -/
example : Visits [(c! "Foo", .ident (c! "Bar"))] c! "enum Foo { A }" c! "enum Bar { A }" := by decide +kernel
/-- `enum_variant_identifier_substitution` (line 607) -/
example : Visits [(c! "Foo", .ident (c! "Bar"))] c! "enum E { Foo }" c! "enum E { Bar }" := by decide +kernel
/-- `enum_variant_discriminant_recursive_substitution` (line 618) -/
example : Visits [(c! "foo", .ident (c! "bar"))] c! "enum E { A = foo }" c! "enum E { A = bar }" := by decide +kernel
/-- `union_identifier_substitution` (line 630) -/
example : Visits [(c! "U", .ident (c! "V"))] c! "union U { a: u32 }" c! "union V { a: u32 }" := by decide +kernel
/-- `union_field_type_recursive_substitution` (line 641) -/
example : Visits [(c! "T", .type (toks (c! "Result<u32, String>")))] c! "union U { a: T }" c! "union U { a: Result<u32, String> }" := by decide +kernel
/-- `trait_identifier_substitution` (line 653) -/
example : Visits [(c! "Foo", .ident (c! "Bar"))] c! "trait Foo {}" c! "trait Bar {}" := by decide +kernel
/-- `trait_supertrait_recursive_substitution` (line 664) -/
example : Visits [(c! "Foo", .ident (c! "Bar"))] c! "trait T: Foo {}" c! "trait T: Bar {}" := by decide +kernel
/-- `trait_fn_default_block_recursive_substitution` (line 675) -/
example : Visits [(c! "foo", .ident (c! "bar"))] c! "trait T { fn f() { foo } }" c! "trait T { fn f() { bar } }" := by decide +kernel
/-- `impl_self_type_substitution` (line 691) -/
example : Visits [(c! "Foo", .ident (c! "Bar"))] c! "impl Foo { fn g() -> u32 { 1 } }" c! "impl Bar { fn g() -> u32 { 1 } }" := by decide +kernel
/-- `impl_trait_path_substitution` (line 702) -/
example : Visits [(c! "Foo", .ident (c! "Bar"))] c! "struct S; impl Foo for S {}" c! "struct S; impl Bar for S {}" := by decide +kernel
/-- `impl_associated_const_identifier_substitution` (line 715) -/
example : Visits [(c! "FOO", .ident (c! "BAR"))] c! "impl S { const FOO: u32 = 1; }" c! "impl S { const BAR: u32 = 1; }" := by decide +kernel
/-- `module_identifier_substitution` (line 727) -/
example : Visits [(c! "foo", .ident (c! "bar"))] c! "mod foo {}" c! "mod bar {}" := by decide +kernel
/-- `module_recursive_item_substitution` (line 738) -/
example : Visits [(c! "foo", .ident (c! "bar"))] c! "mod m { fn foo() -> u32 { 1 } }" c! "mod m { fn bar() -> u32 { 1 } }" := by decide +kernel
/-- `foreign_mod_abi_string_formatting` (line 750) -/
example : Visits [(c! "abi", .ident (c! "C"))] c! "extern \"% abi %\" {}" c! "extern \"C\" {}" := by decide +kernel
/-- `foreign_mod_recursive_item_substitution` (line 761) -/
example : Visits [(c! "foo", .ident (c! "bar"))] c! "extern \"C\" { fn foo(); }" c! "extern \"C\" { fn bar(); }" := by decide +kernel
/-- `block_trailing_semicolon` (line 773) -/
example : Visits [(c! "baz", .ident (c! "qux"))] c! "fn foo() { bar(); baz(); }" c! "fn foo() { bar(); qux(); }" := by decide +kernel
/-- `block_no_trailing_semicolon` (line 790) -/
example : Visits [(c! "baz", .ident (c! "qux"))] c! "fn foo() { bar(); baz() }" c! "fn foo() { bar(); qux() }" := by decide +kernel

/-! ## `src/substitution/substitute_idents.rs` -/

/-- `substituting_single_token` (line 132) -/
example : Substitutes [(c! "foo", .ident (c! "bar"))] c! "fn foo() -> u32 { 1 }" c! "fn bar() -> u32 { 1 }" := by decide +kernel
/-- `substituting_multiple_tokens` (line 143) -/
example : Substitutes [(c! "foo", .ident (c! "baz"))] c! "let foo = 1; let bar = foo + 1;" c! "let baz = 1; let bar = baz + 1;" := by decide +kernel
/-- `substituting_with_multiple_tokens` (line 156) -/
example : Substitutes [(c! "T", .type (toks (c! "Result<u32, String>")))] c! "fn foo() -> T { 1 }" c! "fn foo() -> Result<u32, String> { 1 }" := by decide +kernel
/-- `string_formatting` (line 167) -/
example : Substitutes [(c! "name", .ident (c! "World"))] c! "fn foo() -> &str { \"Hello, % name %!\" }" c! "fn foo() -> &str { \"Hello, World!\" }" := by decide +kernel

end Verif.Lite
