import Verif.Spec.Literals
/-!
# Inline arguments of format strings

`println!("{x} {y:?}")` uses the variables `x` and `y`.
-/

namespace Verif.Spec
open Verif

/-- Where one is in a format string: in its text, in the name of an argument (what has been read of it), or after the colon. -/
inductive InFormat
  | text
  | name (read : Str)
  | rest

/-- The names of arguments that follow. (Simplified: those of widths and precisions, as in `{:w$}`, are not considered.) -/
def inlineFrom : InFormat → Str → List Str
  | _, [] => []
  | .text, '{' :: '{' :: s => inlineFrom .text s
  | .text, '{' :: s => inlineFrom (.name []) s
  | .text, _ :: s => inlineFrom .text s
  | .name n, '}' :: s => n :: inlineFrom .text s
  | .name n, ':' :: s => n :: inlineFrom .rest s
  | .name n, c :: s => inlineFrom (.name (n ++ [c])) s
  | .rest, '}' :: s => inlineFrom .text s
  | .rest, _ :: s => inlineFrom .rest s

/-- The names of arguments in a format string; numbers and nothing, as in `{0}` and `{}`, are not names. -/
def inlineArgs (s : Str) : List Str := (inlineFrom .text s).filter fun n => !n.all Char.isDigit

/-- The same for each string among literals. -/
def inlineArgsOf : List Lit → List (List Str)
  | [] => []
  | .str _ v :: ls => inlineArgs v :: inlineArgsOf ls
  | _ :: ls => inlineArgsOf ls

end Verif.Spec
