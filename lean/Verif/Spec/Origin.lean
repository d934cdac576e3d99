import Verif.Spec.Depth
import Verif.Spec.Deprecation
/-! # What code is written with -/

namespace Verif.Spec
open Verif

/-- What is seen of a token: names, signs, literals, and the delimiters of groups. -/
inductive Glyph where
  | name (s : Str)
  | sign (c : Char)
  | str (value : Str)
  | int (repr : Str) (value : Nat)
  /-- characters, floating point numbers, byte strings, … -/
  | other (repr : Str)
  | delim (d : Delim)
  deriving DecidableEq, Repr

mutual
/-- Everything in some code, in the order of the text. -/
def glyphsTok : Tok → List Glyph
  | .ident s => [.name s]
  | .punct c _ => [.sign c]
  | .lit (.str _ v) => [.str v]
  | .lit (.int r v) => [.int r v]
  | .lit (.other r) => [.other r]
  | .group d ts => .delim d :: glyphs ts
def glyphs : Toks → List Glyph
  | [] => []
  | t :: ts => glyphsTok t ++ glyphs ts
end

/-- All that is handed to a macro; with the attribute, this is its argument and the code it is attached to. -/
def inputToks : Invocation → Toks
  | .compose ts => ts
  | .composeIdents ts => ts
  | .composeItem attr item => attr ++ item

/-- Functions whose results may be names that are written nowhere. -/
def nameMakers : List Str :=
  [S "upper", S "lower", S "snake_case", S "camel_case", S "pascal_case", S "normalize", S "normalize2", S "hash", S "concat", S "to_ident"]

/-- Functions whose results may be strings that are written nowhere. -/
def strMakers : List Str :=
  [S "upper", S "lower", S "snake_case", S "camel_case", S "pascal_case", S "hash", S "concat", S "to_str"]

end Verif.Spec
