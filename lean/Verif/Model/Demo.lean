import Verif.Model.Value
/-! # A small concrete instance of the external code, for examples only -/

namespace Verif

mutual
/-- Token printing of the demo instance: tokens separated by spaces. -/
def Tok.demoRender : Tok → Str
  | .ident s => s
  | .punct c _ => [c]
  | .lit (.str r _) => r
  | .lit (.int r _) => r
  | .lit (.other r) => r
  | .group .paren ts => '(' :: Tok.demoRenderL ts ++ [')']
  | .group .brace ts => '{' :: Tok.demoRenderL ts ++ ['}']
  | .group .bracket ts => '[' :: Tok.demoRenderL ts ++ [']']
  | .group .none ts => Tok.demoRenderL ts
def Tok.demoRenderL : Toks → Str
  | [] => []
  | [t] => t.demoRender
  | t :: ts => t.demoRender ++ ' ' :: Tok.demoRenderL ts
end

/-- Lexer of the demo instance: one identifier, one plain string literal or one number. -/
def demoLex (s : Str) : Option Toks :=
  match s with
  | '"' :: rest =>
    if rest.getLast? = some '"' && !(rest.dropLast.contains '"') then some [.lit (.str s rest.dropLast)] else none
  | _ =>
    if !s.isEmpty && s.all Char.isDigit then some [.lit (.int s (ofDecimal s))]
    else if CharClass.ascii.lexIdent s then some [.ident s]
    else none

/-- Paths of the demo instance: identifiers separated by `::`. -/
def demoPathSegs : Toks → Option (List Str)
  | [.ident s] => if keywords.contains s then none else some [s]
  | .ident s :: .punct ':' true :: .punct ':' false :: ts => (demoPathSegs ts).map (s :: ·)
  | _ => none

/-- The demo instance: ASCII only, `heck` replaced by simple functions, types are paths, expressions are literals
and paths. -/
def Ext.demo : Ext where
  toCharClass := CharClass.ascii
  toUppercase s := s.map Char.toUpper
  toLowercase s := s.map Char.toLower
  snake s := s.map Char.toLower
  lowerCamel s := s.filter (· ≠ '_')
  pascal s := match s.filter (· ≠ '_') with
    | [] => []
    | c :: cs => c.toUpper :: cs
  render := Tok.demoRenderL
  strRepr s := '"' :: s ++ ['"']
  lex := demoLex
  isPath ts := (demoPathSegs ts).isSome
  isType ts := (demoPathSegs ts).isSome
  isExpr ts := (demoPathSegs ts).isSome || (match ts with | [.lit _] => true | _ => false)
  pathSegs ts := (demoPathSegs ts).getD []

end Verif
