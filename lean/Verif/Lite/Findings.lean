import Verif.Lite.TestsUnits
/-!
# Findings, as whole invocations

Surprising behaviour of the macros that the properties describe, run on source text. The numbers refer to the properties.
-/

namespace Verif.Lite
open Verif

def Panicked (inv : Invocation) : Prop := result inv = .panicked
instance (inv : Invocation) : Decidable (Panicked inv) := inferInstanceAs (Decidable (_ = _))

-- C04: an underscore at the end stays
example : Expands (compose c! "A = normalize(a__), { fn A() {} }") (c! "fn a_() {}") := by decide +kernel
-- C09: three percents do not give one and a half
example : Expands (compose c! "A = x, { fn A() { \"%%%\" } }") (c! "fn x() { \"%%\" }") := by decide +kernel
-- C17: where-clauses of structs are lost
example : Expands (compose c! "A = x, { struct A<T> where T: Copy { f: T } }") (c! "struct x<T> { f: T }") := by decide +kernel
-- C18: inner attributes
example : Panicked (compose c! "A = x, { mod A { #![allow(dead_code)] fn f() {} } }") := by decide +kernel
-- C20: coercion of a keyword to a type
example : Rejected (compose c! "A = to_type(concat(f, n)), { fn f() -> A {} }") (.typeError (.cast .tokens .type)) := by decide +kernel
-- C25: with an empty loop nothing is checked
example : Expands (compose c! "for x in [] A = lower(1, 2, 3), A = y, { fn A() {} }") (c! "") := by decide +kernel
-- C31: leading zeros
example : Expands (compose c! "A = concat(1, concat(0, 2)), B = concat(1, 0, 2), { const X: (u8, u8) = (A, B); }")
    (c! "const X: (u8, u8) = (12, 102);") := by decide +kernel
-- C36: identifiers which become empty
example : Panicked (compose c! "A = snake_case(_), { fn A() {} }") := by decide +kernel
-- C42: tuples of different shapes
example : Expands (compose c! "for ((a, b), (c)) in [((x), (y, z))] { fn a() { b(c) } }") (c! "fn x() { y(z) }") := by decide +kernel
-- C45, C46: separators at the end of an attribute
example : Expands (composeItem (c! "A = lower(x),;") (c! "fn A() {}")) (c! "fn x() {}") := by decide +kernel
example : Rejected (composeItem (c! "A = x;") (c! "fn A() {}")) (.substitution (c! "A") (c! "x ;")) := by decide +kernel
-- C48, C68: a call followed by something else makes all arguments disappear
example : Rejected (compose c! "A = upper(lower(a) b, c), { fn A() {} }")
    (.signature (c! "upper(str) -> str | upper(ident) -> ident") [.str c! "upper", .str c! "(", .str c! ")"]) := by decide +kernel
-- C49: `;` after a plain value
example : Rejected (compose c! "A = x; B = y, { fn A() {} }") (.substitution (c! "A") (c! "x ; B = y")) := by decide +kernel
-- C69: the arguments of a generic path are not shown in strings
example : Expands (compose c! "T = Vec<u8>, { const X: (T, &str) = (Vec::new(), \"a %T%\"); }")
    (c! "const X: (Vec<u8>, &str) = (Vec::new(), \"a Vec\");") := by decide +kernel
-- C73, C74: a name or what it stands for
example : Expands (compose c! "X = to_ident(to_ident(to_ident(f))), A = concat(X, n), { f!(A); }") (c! "f!(fn);") := by decide +kernel
example : Rejected (compose c! "A = concat(to_ident(to_ident(to_ident(f))), n), { f!(A); }")
    (.evalError [toks c! "f", toks c! "n"]) := by decide +kernel
-- C79: two examples of the reference
example : Rejected (compose c! "A = to_path(concat(std, ::, vec)), { use A; }") (.evalError [toks c! "std", [.punct ':' true, .punct ':' true], toks c! "vec"]) := by decide +kernel
example : Rejected (compose c! "A = to_type(concat(Vec, <, u32, >)), { type T = A; }")
    (.evalError [toks c! "Vec", [.punct '<' true], toks c! "u32", toks c! ">"]) := by decide +kernel
-- C82: functions put together
example : Panicked (compose c! "A = camel_case(hash(x)), { fn A() {} }") := by decide +kernel
example : Panicked (compose c! "A = camel_case(normalize(1)), { fn A() {} }") := by decide +kernel
-- C83: a block which is taken for a part of the value
example : Rejected (compose c! "A = x; { fn A() {} }") .parse := by decide +kernel
-- C84: a comma after the argument of `normalize`
example : Expands (compose c! "A = normalize(x_,), B = normalize(x_), { fn A() { B() } }") (c! "fn x_() { x() }") := by decide +kernel
-- C86: one value or two
example : Expands (compose c! "T = Result<u32, E>, { type A = T; }") (c! "type A = Result<u32, E>;") := by decide +kernel
example : ¬ Expands (compose c! "T = to_path(Result<u32, E>), { type A = T; }") (c! "type A = Result<u32, E>;") := by decide +kernel
example : Expands (compose c! "T = (u8, u16), { type A = T; }") (c! "type A = (u8, u16);") := by decide +kernel
example : Rejected (compose c! "for T in [(u8, u16)] { type A = T; }") (.typeError .loopKind) := by decide +kernel
-- C88: a name that is a keyword spoils the code, others do not
example : Rejected (compose c! "A = concat(f, n), { struct A; }") (.substitution (c! "A") (c! "fn")) := by decide +kernel
example : Expands (compose c! "A = concat(f, m), { struct A; }") (c! "struct fm;") := by decide +kernel
-- C90: `concat` in `concat`
example : Expands (compose c! "A = concat(1, concat(a, b)), B = concat(1, a, b), { f!(A, B); }") (c! "f!(1 ab, 1 a b);") := by decide +kernel
example : Expands (compose c! "A = concat(a, concat(0x10, 2)), B = concat(a, 0x10, 2), { f!(A, B); }") (c! "f!(a162, a0x102);") := by decide +kernel
example : Rejected (compose c! "A = concat(x, concat(1, b)), { f!(A); }") (.evalError [toks c! "x", toks c! "1 b"]) := by decide +kernel
example : Expands (compose c! "A = concat(x, 1, b), { f!(A); }") (c! "f!(x1b);") := by decide +kernel
-- C90: a comment
example : Expands (compose c! "A = concat(a, /, /, b), B = concat(x, concat(a, /, /, b), c), C = concat(x, a, /, /, b, c), { f!(A, B, C); }")
    (c! "f!(a, xac, xa);") := by decide +kernel
-- C93: an invocation inside another, and one invocation
example : Expands (compose c! "A = x, { compose!(B = normalize(A), { fn B() {} }); }") (c! "compose!(B = normalize(x), { fn B() {} });") := by decide +kernel
example : Expands (compose c! "B = normalize(x), { fn B() {} }") (c! "fn x() {}") := by decide +kernel
example : Expands (compose c! "A = x, B = normalize(A), { fn B() {} }") (c! "fn A() {}") := by decide +kernel
-- C93: the outer alias is defined again
example : Expands (compose c! "A = x, { compose!(A = y, { fn A() {} }); }") (c! "compose!(x = y, { fn x() {} });") := by decide +kernel
-- C98: a literal seen as it is written, or evaluated
example : Expands (compose c! "A = normalize(\"a_\"), B = normalize2(\"a_\"), { fn A() { B() } }") (c! "fn a_() { a() }") := by decide +kernel
example : Expands (compose c! "A = normalize(0x10), B = normalize2(0x10), { fn A() { B() } }") (c! "fn _0x10() { _16() }") := by decide +kernel
-- C99: what is not the same when it is done twice
example : Expands (compose c! "A = pascal_case(a_b_c), B = pascal_case(pascal_case(a_b_c)), { fn A() { B() } }") (c! "fn ABC() { Abc() }") := by decide +kernel
example : Expands (compose c! "A = camel_case(a_b_c), B = camel_case(camel_case(a_b_c)), { fn A() { B() } }") (c! "fn aBC() { aBc() }") := by decide +kernel
example : Expands (compose c! "A = normalize2(a__), B = normalize2(normalize2(a__)), { fn A() { B() } }") (c! "fn a_() { a() }") := by decide +kernel
-- C99: another cast changes the overload
example : Expands (compose c! "A = concat(to_ident(to_ident(f)), n), { m! { A } }") (c! "m! { fn }") := by decide +kernel
example : Rejected (compose c! "A = concat(to_ident(to_ident(to_ident(f))), n), { m! { A } }") (.evalError [[.ident c! "f"], [.ident c! "n"]]) := by decide +kernel
-- C100: each definition doubles the one before
example : Expands (compose c! "a = raw(1,), b = concat(a, a), c = concat(b, b), d = concat(c, c), { fn f() { let z = [d]; } }")
    (c! "fn f() { let z = [1, 1, 1, 1, 1, 1, 1, 1,]; }") := by decide +kernel
-- C103: a cast changes the overload of `concat`, and what strings show
example : Expands (compose c! "a = concat(hash(\"b\"), 1), { m! { a } }") (c! "m! { __180681326729791792721 }") := by decide +kernel
example : Expands (compose c! "a = to_tokens(concat(hash(\"b\"), 1)), { m! { a } }") (c! "m! { \"6974358769237588822\" 1 }") := by decide +kernel
example : Expands (compose c! "a = Vec<u8>, { m! { a \"%a%\" } }") (c! "m! { Vec<u8> \"Vec\" }") := by decide +kernel
example : Expands (compose c! "a = to_type(Vec<u8>), { m! { a \"%a%\" } }") (c! "m! { Vec<u8> \"Vec < u8 >\" }") := by decide +kernel
-- C112: an expression is not one operand
example : Expands (compose c! "x = a + b, { fn f() { x * 2 } }") (c! "fn f() { a + b * 2 }") := by decide +kernel
-- C113: a raw identifier is another name
example : Expands (compose c! "x = a, { fn r#x() {} }") (c! "fn r#x() {}") := by decide +kernel

end Verif.Lite
