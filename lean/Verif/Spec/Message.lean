import Verif.Model.Resolve
/-! # How signatures and calls are written in messages -/

namespace Verif.Spec

/-- The name of a type. -/
def typeName : Ty → Str
  | .ident => c! "ident"
  | .path => c! "path"
  | .type => c! "type"
  | .expr => c! "expr"
  | .litStr => c! "str"
  | .litInt => c! "int"
  | .tokens => c! "tokens"
  | .raw => c! "raw"
  | .variadic t => typeName t ++ c! "..."

/-- `name(type, …, type) -> type`. -/
def sigText (f : Func) : Str :=
  f.name ++ c! "(" ++ (c! ", ").intercalate (f.args.map typeName) ++ c! ") -> " ++ typeName f.out

/-- The signatures of all overloads, in order. -/
def sigsText (fs : List Func) : Str := (c! " | ").intercalate (fs.map sigText)

/-- A value in a message: strings in quotes but otherwise unescaped, integers in base ten, everything else as its tokens. -/
def shownValue : VKind → Text
  | .litStr _ v => [.str ('"' :: v ++ ['"'])]
  | .litInt i => [.str ((if i.neg then ['-'] else []) ++ Nat.toDigits 10 i.val)]
  | .ident s => [.str s]
  | k => [.toks k.toTokens]

mutual
/-- An expression in a message. A call shows its arguments as they were written if there is exactly one and the tokens are
known, and the arguments separated by commas otherwise. -/
def exprText : Expr → Text
  | .value _ k => shownValue k
  | .call _ n [_] (some (_, ts)) => [.str n, .str c! "(", .toks ts, .str c! ")"]
  | .call _ n args _ => [.str n, .str c! "("] ++ [.str c! ", "].intercalate (exprTexts args) ++ [.str c! ")"]
def exprTexts : List Expr → List Text
  | [] => []
  | e :: es => exprText e :: exprTexts es
end

/-- The error for a call which fits none of the overloads `fs`. -/
def refusal (fs : List Func) (call : Expr) : Err := .signature (sigsText fs) (exprText call)

/-- An error without the call or value it is about. -/
def blur : Err → Err
  | .signature sig _ => .signature sig []
  | .typeError (.coercion _ t) => .typeError (.coercion t t)
  | x => x

/-- A result, with errors blurred. -/
def blurR {α : Type} : Res α → Res α
  | .err x => .err (blur x)
  | r => r

/-- A result, with errors blurred. -/
def blurE {α : Type} : Except Err α → Except Err α
  | .error x => .error (blur x)
  | r => r

end Verif.Spec
