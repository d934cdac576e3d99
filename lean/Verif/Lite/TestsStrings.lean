import Verif.Lite.Units
/-! # The repository's tests of `normalize` and `concat` on strings, as examples about the model (generated by `tools/concordance.py`) -/

namespace Verif.Lite
open Verif

example : normalize CharClass.ascii (c! "hello_world") = c! "hello_world" := by decide +kernel
example : normalize CharClass.ascii (c! "$hello_world") = c! "hello_world" := by decide +kernel
example : normalize CharClass.ascii (c! "_hello_world") = c! "hello_world" := by decide +kernel
example : normalize CharClass.ascii (c! "hello_world$") = c! "hello_world" := by decide +kernel
example : normalize CharClass.ascii (c! "hello world") = c! "hello_world" := by decide +kernel
example : normalize CharClass.ascii (c! "hello__world") = c! "hello__world" := by decide +kernel
example : normalize CharClass.ascii (c! "hello-world") = c! "hello_world" := by decide +kernel
example : normalize CharClass.ascii (c! "hello.world") = c! "hello_world" := by decide +kernel
example : normalize CharClass.ascii (c! "hello...world") = c! "hello_world" := by decide +kernel
example : normalize CharClass.ascii (c! "hello-_-world") = c! "hello___world" := by decide +kernel
example : normalize CharClass.ascii (c! "123hello") = c! "_123hello" := by decide +kernel
example : normalize CharClass.ascii (c! "123") = c! "_123" := by decide +kernel
example : normalize CharClass.ascii (c! "_123") = c! "_123" := by decide +kernel
example : normalize CharClass.ascii (c! "#$%^&*") = c! "_" := by decide +kernel
example : normalize CharClass.ascii (c! "") = c! "_" := by decide +kernel
example : normalize CharClass.ascii (c! "a__b___c") = c! "a__b___c" := by decide +kernel
example : normalize CharClass.ascii (c! "a b c") = c! "a_b_c" := by decide +kernel
example : normalize CharClass.ascii (c! "a.b.c") = c! "a_b_c" := by decide +kernel
example : normalize CharClass.ascii (c! "a!@#b$%^c") = c! "a_b_c" := by decide +kernel
example : normalize CharClass.ascii (c! "a_!@#_b") = c! "a___b" := by decide +kernel
example : normalize CharClass.ascii (c! "&'static str") = c! "static_str" := by decide +kernel
example : normalize CharClass.ascii (c! "&'static str ") = c! "static_str" := by decide +kernel
example : normalize CharClass.ascii (c! "Result<T, E>") = c! "Result_T_E" := by decide +kernel
example : normalize CharClass.ascii (c! "Result< T, E >") = c! "Result_T_E" := by decide +kernel
example : List.flatten ([] : List Str) = c! "" := by decide
example : List.flatten ([c! "hello"] : List Str) = c! "hello" := by decide
example : List.flatten ([c! "hello", c! "world"] : List Str) = c! "helloworld" := by decide
example : List.flatten ([c! "foo", c! "_", c! "bar"] : List Str) = c! "foo_bar" := by decide
example : List.flatten ([c! "a", c! "b", c! "c", c! "d"] : List Str) = c! "abcd" := by decide
example : List.flatten ([c! "", c! "hello", c! "", c! "world", c! ""] : List Str) = c! "helloworld" := by decide
end Verif.Lite
