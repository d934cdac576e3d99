import Verif.Lite.Units
/-! # The repository's tests of the parser of values, as examples about the model (generated by `tools/concordance.py`) -/

namespace Verif.Lite
open Verif

/-- `ident_simple` (`src/parse/value.rs`, line 129) -/
example : Parsed c! "foo, 42" c! "foo" .ident c! ", 42" := by decide +kernel
/-- `ident_type` (`src/parse/value.rs`, line 130) -/
example : Parsed c! "u32, 42" c! "u32" .ident c! ", 42" := by decide +kernel
/-- `ident_underscore` (`src/parse/value.rs`, line 131) -/
example : Parsed c! "_, 42" c! "_" .ident c! ", 42" := by decide +kernel
/-- `ident_camel_case` (`src/parse/value.rs`, line 132) -/
example : Parsed c! "FooBar, 42" c! "FooBar" .ident c! ", 42" := by decide +kernel
/-- `ident_with_digits` (`src/parse/value.rs`, line 133) -/
example : Parsed c! "foo123, 42" c! "foo123" .ident c! ", 42" := by decide +kernel
/-- `ident_leading_underscore` (`src/parse/value.rs`, line 134) -/
example : Parsed c! "_foo, 42" c! "_foo" .ident c! ", 42" := by decide +kernel
/-- `ident_double_underscore` (`src/parse/value.rs`, line 135) -/
example : Parsed c! "__, 42" c! "__" .ident c! ", 42" := by decide +kernel
/-- `ident_snake_mixed` (`src/parse/value.rs`, line 136) -/
example : Parsed c! "foo_bar_123, 42" c! "foo_bar_123" .ident c! ", 42" := by decide +kernel
/-- `ident_raw_keyword` (`src/parse/value.rs`, line 137) -/
example : Parsed c! "r#type, 42" c! "r#type" .ident c! ", 42" := by decide +kernel
/-- `ident_option_plain` (`src/parse/value.rs`, line 138) -/
example : Parsed c! "Option, 42" c! "Option" .ident c! ", 42" := by decide +kernel
/-- `path_simple` (`src/parse/value.rs`, line 140) -/
example : Parsed c! "foo::bar, 42" c! "foo :: bar" .path c! ", 42" := by decide +kernel
/-- `path_type_generic` (`src/parse/value.rs`, line 141) -/
example : Parsed c! "Result<i32, String>, 42" c! "Result < i32 , String >" .path c! ", 42" := by decide +kernel
/-- `path_type_generic_turbofish` (`src/parse/value.rs`, line 147) -/
example : Parsed c! "Vec::<i32>, 42" c! "Vec :: < i32 >" .path c! ", 42" := by decide +kernel
/-- `path_type_generic_lifetime` (`src/parse/value.rs`, line 148) -/
example : Parsed c! "std::slice::Iter<'a, T>, 42" c! "std :: slice :: Iter < 'a , T >" .path c! ", 42" := by decide +kernel
/-- `path_generic_nested` (`src/parse/value.rs`, line 154) -/
example : Parsed c! "a::b::C<D<E<F>>, G<H>>, 42" c! "a :: b :: C < D < E < F > > , G < H > >" .path c! ", 42" := by decide +kernel
/-- `path_root_crate` (`src/parse/value.rs`, line 160) -/
example : Parsed c! "crate::foo, 42" c! "crate :: foo" .path c! ", 42" := by decide +kernel
/-- `path_expr` (`src/parse/value.rs`, line 161) -/
example : Parsed c! "Option::<i32>::None, 42" c! "Option :: < i32 > :: None" .path c! ", 42" := by decide +kernel
/-- `path_raw_segments` (`src/parse/value.rs`, line 167) -/
example : Parsed c! "r#type::r#match::r#dyn, 42" c! "r#type :: r#match :: r#dyn" .path c! ", 42" := by decide +kernel
/-- `type_array` (`src/parse/value.rs`, line 174) -/
example : Parsed c! "[u8; 32], 42" c! "[u8 ; 32]" .type c! ", 42" := by decide +kernel
/-- `type_array_const_expr` (`src/parse/value.rs`, line 175) -/
example : Parsed c! "[u8; 1 + 2], 42" c! "[u8 ; 1 + 2]" .type c! ", 42" := by decide +kernel
/-- `type_never` (`src/parse/value.rs`, line 176) -/
example : Parsed c! "!, 42" c! "!" .type c! ", 42" := by decide +kernel
/-- `type_tuple` (`src/parse/value.rs`, line 177) -/
example : Parsed c! "(u32, u32), 42" c! "(u32 , u32)" .type c! ", 42" := by decide +kernel
/-- `type_unit` (`src/parse/value.rs`, line 178) -/
example : Parsed c! "(), 42" c! "()" .type c! ", 42" := by decide +kernel
/-- `type_paren_wrapped` (`src/parse/value.rs`, line 179) -/
example : Parsed c! "(T), 42" c! "(T)" .type c! ", 42" := by decide +kernel
/-- `type_macro_simple` (`src/parse/value.rs`, line 180) -/
example : Parsed c! "ty!(u32), 42" c! "ty ! (u32)" .type c! ", 42" := by decide +kernel
/-- `type_macro_nested_args` (`src/parse/value.rs`, line 181) -/
example : Parsed c! "ty!(Result<u8, E>), 42" c! "ty ! (Result < u8 , E >)" .type c! ", 42" := by decide +kernel
/-- `type_ref` (`src/parse/value.rs`, line 187) -/
example : Parsed c! "&'a mut T, 42" c! "& 'a mut T" .type c! ", 42" := by decide +kernel
/-- `type_fn` (`src/parse/value.rs`, line 188) -/
example : Parsed c! "fn(i32) -> i32, 42" c! "fn (i32) -> i32" .type c! ", 42" := by decide +kernel
/-- `type_fn_zero_args` (`src/parse/value.rs`, line 189) -/
example : Parsed c! "fn(), 42" c! "fn ()" .type c! ", 42" := by decide +kernel
/-- `type_fn_hrtb` (`src/parse/value.rs`, line 190) -/
example : Parsed c! "for<'a> fn(&'a str) -> &'a str, 42" c! "for < 'a > fn (& 'a str) -> & 'a str" .type c! ", 42" := by decide +kernel
/-- `type_fn_extern_c` (`src/parse/value.rs`, line 196) -/
example : Parsed c! "extern \"C\" fn(i32) -> i32, 42" c! "extern \"C\" fn (i32) -> i32" .type c! ", 42" := by decide +kernel
/-- `type_dyn_simple` (`src/parse/value.rs`, line 202) -/
example : Parsed c! "dyn Display, 42" c! "dyn Display" .type c! ", 42" := by decide +kernel
/-- `type_dyn_bounds` (`src/parse/value.rs`, line 203) -/
example : Parsed c! "dyn Iterator<Item = u8> + Send + 'static, 42" c! "dyn Iterator < Item = u8 > + Send + 'static" .type c! ", 42" := by decide +kernel
/-- `type_dyn_hrtb_fn` (`src/parse/value.rs`, line 209) -/
example : Parsed c! "dyn for<'a> Fn(&'a T) + Send, 42" c! "dyn for < 'a > Fn (& 'a T) + Send" .type c! ", 42" := by decide +kernel
/-- `type_impl_trait` (`src/parse/value.rs`, line 215) -/
example : Parsed c! "impl Iterator<Item=u8>, 42" c! "impl Iterator < Item = u8 >" .type c! ", 42" := by decide +kernel
/-- `type_impl_multiple_bounds` (`src/parse/value.rs`, line 221) -/
example : Parsed c! "impl Read + Write + 'a, 42" c! "impl Read + Write + 'a" .type c! ", 42" := by decide +kernel
/-- `type_qual_path_assoc` (`src/parse/value.rs`, line 227) -/
example : Parsed c! "<T as Iterator>::Item, 42" c! "< T as Iterator > :: Item" .type c! ", 42" := by decide +kernel
/-- `expr_unary_not` (`src/parse/value.rs`, line 234) -/
example : Parsed c! "!flag, 42" c! "! flag" .expr c! ", 42" := by decide +kernel
/-- `expr_binary` (`src/parse/value.rs`, line 235) -/
example : Parsed c! "2 + 2, 42" c! "2 + 2" .expr c! ", 42" := by decide +kernel
/-- `expr_if_else` (`src/parse/value.rs`, line 236) -/
example : Parsed c! "if cond { 1 } else { 0 }, 42" c! "if cond { 1 } else { 0 }" .expr c! ", 42" := by decide +kernel
/-- `expr_if_let` (`src/parse/value.rs`, line 242) -/
example : Parsed c! "if let Some(x) = opt { x } else { 0 }, 42" c! "if let Some (x) = opt { x } else { 0 }" .expr c! ", 42" := by decide +kernel
/-- `expr_match` (`src/parse/value.rs`, line 248) -/
example : Parsed c! "match x { 0 => 1, _ => 2 }, 42" c! "match x { 0 => 1 , _ => 2 }" .expr c! ", 42" := by decide +kernel
/-- `expr_block` (`src/parse/value.rs`, line 254) -/
example : Parsed c! "{ let x = 1; x }, 42" c! "{ let x = 1 ; x }" .expr c! ", 42" := by decide +kernel
/-- `expr_async_block` (`src/parse/value.rs`, line 255) -/
example : Parsed c! "async { 1 + 2 }, 42" c! "async { 1 + 2 }" .expr c! ", 42" := by decide +kernel
/-- `expr_unsafe_block` (`src/parse/value.rs`, line 256) -/
example : Parsed c! "unsafe { do_something() }, 42" c! "unsafe { do_something () }" .expr c! ", 42" := by decide +kernel
/-- `expr_call_with_args` (`src/parse/value.rs`, line 262) -/
example : Parsed c! "foo(1, 2), 42" c! "foo (1 , 2)" .expr c! ", 42" := by decide +kernel
/-- `expr_method_call` (`src/parse/value.rs`, line 263) -/
example : Parsed c! "obj.method(1, 2), 42" c! "obj . method (1 , 2)" .expr c! ", 42" := by decide +kernel
/-- `expr_method_call_turbofish` (`src/parse/value.rs`, line 264) -/
example : Parsed c! "obj.method::<T>(x), 42" c! "obj . method :: < T > (x)" .expr c! ", 42" := by decide +kernel
/-- `expr_await_call` (`src/parse/value.rs`, line 270) -/
example : Parsed c! "make_future().await, 42" c! "make_future () . await" .expr c! ", 42" := by decide +kernel
/-- `expr_array_simple` (`src/parse/value.rs`, line 276) -/
example : Parsed c! "[1, 2, 3], 42" c! "[1 , 2 , 3]" .expr c! ", 42" := by decide +kernel
/-- `expr_array_repeat` (`src/parse/value.rs`, line 277) -/
example : Parsed c! "[0; N], 42" c! "[0 ; N]" .expr c! ", 42" := by decide +kernel
/-- `expr_array_index` (`src/parse/value.rs`, line 278) -/
example : Parsed c! "arr[0], 42" c! "arr [0]" .expr c! ", 42" := by decide +kernel
/-- `expr_tuple_struct_literal` (`src/parse/value.rs`, line 279) -/
example : Parsed c! "Point(1, 2), 42" c! "Point (1 , 2)" .expr c! ", 42" := by decide +kernel
/-- `expr_field_access` (`src/parse/value.rs`, line 280) -/
example : Parsed c! "s.field, 42" c! "s . field" .expr c! ", 42" := by decide +kernel
/-- `expr_closure` (`src/parse/value.rs`, line 281) -/
example : Parsed c! "|| 42, 42" c! "| | 42" .expr c! ", 42" := by decide +kernel
/-- `expr_return` (`src/parse/value.rs`, line 282) -/
example : Parsed c! "return 5, 42" c! "return 5" .expr c! ", 42" := by decide +kernel
/-- `expr_pathlike_1` (`src/parse/value.rs`, line 283) -/
example : Parsed c! "foo::<i32>(), 42" c! "foo :: < i32 > ()" .expr c! ", 42" := by decide +kernel
/-- `expr_pathlike_2` (`src/parse/value.rs`, line 284) -/
example : Parsed c! "Option::<i32>::Some(1), 42" c! "Option :: < i32 > :: Some (1)" .expr c! ", 42" := by decide +kernel
/-- `expr_macro_chained_method` (`src/parse/value.rs`, line 290) -/
example : Parsed c! "vec![1, 2].len(), 42" c! "vec ! [1 , 2] . len ()" .expr c! ", 42" := by decide +kernel
/-- `expr_path_call_turbofish` (`src/parse/value.rs`, line 296) -/
example : Parsed c! "Option::<i32>::Some(1), 42" c! "Option :: < i32 > :: Some (1)" .expr c! ", 42" := by decide +kernel
/-- `expr_trait_fn_call` (`src/parse/value.rs`, line 302) -/
example : Parsed c! "Trait::method(x), 42" c! "Trait :: method (x)" .expr c! ", 42" := by decide +kernel
/-- `litint_dec` (`src/parse/value.rs`, line 304) -/
example : Parsed c! "123, 42" c! "123" .litInt c! ", 42" := by decide +kernel
/-- `litint_underscore` (`src/parse/value.rs`, line 305) -/
example : Parsed c! "1_000_000, 42" c! "1_000_000" .litInt c! ", 42" := by decide +kernel
/-- `litint_hex` (`src/parse/value.rs`, line 306) -/
example : Parsed c! "0xFF, 42" c! "0xFF" .litInt c! ", 42" := by decide +kernel
/-- `litint_bin_suffix` (`src/parse/value.rs`, line 307) -/
example : Parsed c! "0b1010_1010u8, 42" c! "0b1010_1010u8" .litInt c! ", 42" := by decide +kernel
/-- `litint_suffix_usize` (`src/parse/value.rs`, line 308) -/
example : Parsed c! "0usize, 42" c! "0usize" .litInt c! ", 42" := by decide +kernel
/-- `litstr_simple` (`src/parse/value.rs`, line 310) -/
example : Parsed c! "\"hello\", 42" c! "\"hello\"" .litStr c! ", 42" := by decide +kernel
/-- `litstr_escape` (`src/parse/value.rs`, line 311) -/
example : Parsed c! "\"a \\\"quote\\\"\", 42" c! "\"a \\\"quote\\\"\"" .litStr c! ", 42" := by decide +kernel
/-- `litstr_unicode` (`src/parse/value.rs`, line 312) -/
example : Parsed c! "\"😀\", 42" c! "\"😀\"" .litStr c! ", 42" := by decide +kernel
/-- `litstr_raw` (`src/parse/value.rs`, line 313) -/
example : Parsed c! "r\"no escapes\", 42" c! "r\"no escapes\"" .litStr c! ", 42" := by decide +kernel
/-- `litstr_raw_hashes` (`src/parse/value.rs`, line 314) -/
example : Parsed c! "r#\"he\"llo\"#, 42" c! "r#\"he\"llo\"#" .litStr c! ", 42" := by decide +kernel
/-- `tokens_simple` (`src/parse/value.rs`, line 316) -/
example : Parsed c! "pub fn foo() -> u32 { 42 }, 42" c! "pub fn foo () -> u32 { 42 }" .tokens c! ", 42" := by decide +kernel
/-- `tokens_let_stmt` (`src/parse/value.rs`, line 322) -/
example : Parsed c! "let x = 1;, 42" c! "let x = 1 ;" .tokens c! ", 42" := by decide +kernel
/-- `tokens_use_stmt` (`src/parse/value.rs`, line 323) -/
example : Parsed c! "use crate::path::Item;, 42" c! "use crate :: path :: Item ;" .tokens c! ", 42" := by decide +kernel
/-- `tokens_keyword` (`src/parse/value.rs`, line 329) -/
example : Parsed c! "fn, 42" c! "fn" .tokens c! ", 42" := by decide +kernel
/-- `tokens_attr_struct` (`src/parse/value.rs`, line 330) -/
example : Parsed c! "#[derive(Debug)] struct S;, 42" c! "# [derive (Debug)] struct S ;" .tokens c! ", 42" := by decide +kernel
/-- `tokens_impl_block` (`src/parse/value.rs`, line 336) -/
example : Parsed c! "impl Trait for T {}, 42" c! "impl Trait for T { }" .tokens c! ", 42" := by decide +kernel
/-- `tokens_where_clause` (`src/parse/value.rs`, line 342) -/
example : Parsed c! "where T: Trait, 42" c! "where T : Trait" .tokens c! ", 42" := by decide +kernel
/-- `tokens_angle_params_one` (`src/parse/value.rs`, line 343) -/
example : Parsed c! "<'a>, 42" c! "<'a >" .tokens c! ", 42" := by decide +kernel
end Verif.Lite
