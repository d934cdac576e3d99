import Verif.Spec.Fields
/-!
# Literals in code
-/

namespace Verif.Spec
open Verif

mutual
/-- The literals of code, at any depth, in order. -/
def literalsTok : Tok → List Lit
  | .lit l => [l]
  | .group _ ts => literals ts
  | _ => []
def literals : Toks → List Lit
  | [] => []
  | t :: ts => literalsTok t ++ literals ts
end

/-- Strings are changed by `str`; numbers, characters, byte strings, … are not. -/
def onlyStrings (str : Str → Lit) : Lit → Lit
  | .str _ v => str v
  | l => l

end Verif.Spec
