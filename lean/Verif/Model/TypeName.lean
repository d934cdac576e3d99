import Verif.Model.Parse
/-! # The parser of type names (`src/parse/type_.rs`) -/

namespace Verif

/-- `impl Parse for Type`, `src/parse/type_.rs:5-22`. (Nothing in the crate calls it.) The error does not contain its message here. -/
def parseTy : P Ty := do
  let name ← parseIdentTok
  if name = c! "ident" then return .ident
  else if name = c! "type" then return .type
  else if name = c! "path" then return .path
  else if name = c! "str" then return .litStr
  else if name = c! "int" then return .litInt
  else if name = c! "tokens" then return .tokens
  else P.fail .parse

end Verif
