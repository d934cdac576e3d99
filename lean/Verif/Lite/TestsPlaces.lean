import Verif.Lite.TestsUnits
import Verif.Model.Reports
import Verif.Model.Spans
/-! # Where the errors of the repository's tests point to (`tests/compile/**/*.stderr`), as examples about the model -/

namespace Verif.Lite
open Verif

/-- The syntax error of an invocation in a fresh process: the message, and the tokens from the place it points to. -/
def syntaxErrorOf (inv : Invocation) : Option (Why × Toks) :=
  (syntaxError syn (Env.builtin 1).hasFunc (fun k => k + 1) setupDraws inv).map fun e => (e.1, plain e.2)

/-- All that is reported. -/
def reportsOf (inv : Invocation) : Option (List (Why × Toks)) :=
  (reports syn (Env.builtin 1).hasFunc (fun k => k + 1) setupDraws inv).map fun es => es.map fun e => (e.1, plain e.2)

-- `tests/compile/semicolon/mixed_separators.stderr`: 6:38 is the brace of the block
example : syntaxErrorOf (compose c! "my_fn_1 = concat(foo, _, bar), my_fn_2 = concat(spam, _, eggs); { fn my_fn_1() -> u32 { 123 } fn my_fn_2() -> u32 { 321 } }") =
    some (.mixed, plain (toks c! "{ fn my_fn_1() -> u32 { 123 } fn my_fn_2() -> u32 { 321 } }")) := by decide +kernel
example : Why.mixed.text = some (c! "Mixing \",\" and \";\" as separators is not allowed") := by decide +kernel
-- and there is no second message
example : (reportsOf (compose c! "my_fn_1 = concat(foo, _, bar), my_fn_2 = concat(spam, _, eggs); { fn my_fn_1() -> u32 { 123 } fn my_fn_2() -> u32 { 321 } }")).map
    (·.map (·.1)) = some [.mixed] := by decide +kernel
-- `tests/compile/compose_item/trailing_comma_after_loops.stderr`: 5:27 is the comma
example : syntaxErrorOf (composeItem (c! "for name in [foo, bar],") (c! "fn name() {}")) = some (.loopsSep, plain (toks c! ",")) := by decide +kernel
example : Why.loopsSep.text = some (c! "Trailing separator after loops is not allowed in #[compose_item].") := by decide +kernel
example : (reportsOf (composeItem (c! "for name in [foo, bar],") (c! "fn name() {}"))).map (·.map (·.1)) = some [.loopsSep] := by decide +kernel
-- `tests/compile/error_reporting.stderr`: 6:8 is the name of the function, here the place 8; the value of the alias is at 5
example : substituteIdentsS ext (validNode .ident) [(c! "my_fn", .litStr (c! "\"foo bar\"") (c! "foo bar") 5)] [.ident (c! "my_fn") 8] =
    .err (.substitution (c! "my_fn") (c! "\"foo bar\"")) 8 := by rfl

end Verif.Lite
