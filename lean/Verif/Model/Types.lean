import Verif.Model.Value
/-! # Coercions and casts (`src/core/type_.rs`, `src/ast/value.rs`) -/

namespace Verif

/-- `impl Display for Type`, `src/core/type_.rs:26-40`. -/
def Ty.show : Ty → Str
  | .ident => c! "ident"
  | .path => c! "path"
  | .type => c! "type"
  | .expr => c! "expr"
  | .litStr => c! "str"
  | .litInt => c! "int"
  | .tokens => c! "tokens"
  | .raw => c! "raw"
  | .variadic t => t.show ++ c! "..."

/-- `#[derive(Debug)]` of `Type`, `src/core/type_.rs:13`. -/
def Ty.debug : Ty → Str
  | .ident => c! "Ident"
  | .path => c! "Path"
  | .type => c! "Type"
  | .expr => c! "Expr"
  | .litStr => c! "LitStr"
  | .litInt => c! "LitInt"
  | .tokens => c! "Tokens"
  | .raw => c! "Raw"
  | .variadic t => c! "Variadic(" ++ t.debug ++ c! ")"

/-- `Type::coercion_cost_basic`, `src/core/type_.rs:43-53`, arms in order. -/
def coercionCostBasic (frm to : Ty) : Option Nat :=
  if frm = to then some 0
  else match frm, to with
    | .ident, .path => some 1
    | .ident, .type => some 2
    | .ident, .expr => some 3
    | _, .tokens => some 4
    | _, .raw => some 5
    | _, _ => none

/-- `Type::coercion_cost`, `src/core/type_.rs:58-65`. -/
def coercionCost (frm to : Ty) : Option Nat :=
  match frm, to with
  | .variadic f, .variadic t => coercionCostBasic f t
  | f, t => coercionCostBasic f t

/-- `syn::parse_str::<Ident>`. -/
def parseStrIdent (E : Ext) (s : Str) : Option Str := (E.lex s).bind parseIdent

/-- `syn::parse_str::<LitStr>`. -/
def parseStrLitStr (E : Ext) (s : Str) : Option (Str × Str) := (E.lex s).bind parseLitStr

/-- `LitStr::new`. -/
def newLitStr (E : Ext) (v : Str) : VKind := .litStr (E.strRepr v) v

/-- `make_cast_error`, `src/ast/value.rs:80-102`, without the text of the `syn::Error`. -/
def castError (frm to : Ty) : Err := .typeError (.cast frm to)

/-- `from_lit_str_as_ident`, `src/ast/value.rs:104-114`. -/
def litStrAsIdent (E : Ext) (v : Str) : Res VKind :=
  (Res.ofOption (castError .litStr .ident) (parseStrIdent E v)).map .ident

/-- `Value::try_cast`, `src/ast/value.rs:117-255`, arms in order; every failure is a `TypeError` naming the two types. -/
def tryCast (E : Ext) (v : VKind) (to : Ty) : Res VKind :=
  if v.ty = to then .ok v
  else match v, to with
    | .ident s, .path => .ok (.path [.ident s])
    | .ident s, .type => if E.isType [.ident s] then .ok (.type [.ident s]) else .err (castError .ident .type)
    | .ident s, .expr => if E.isExpr [.ident s] then .ok (.expr [.ident s]) else .err (castError .ident .expr)
    | .ident s, .litStr =>
      (Res.ofOption (castError .ident .litStr) (parseStrLitStr E ('"' :: s ++ ['"']))).map (fun p => .litStr p.1 p.2)
    | .litStr _ s, .ident => litStrAsIdent E s
    | v, .ident =>
      match parseLitStr v.toTokens with
      | some (_, s) => litStrAsIdent E s
      | none => (Res.ofOption (castError v.ty .ident) (parseIdent v.toTokens)).map .ident
    | v, .path => if E.isPath v.toTokens then .ok (.path v.toTokens) else .err (castError v.ty .path)
    | v, .type => if E.isType v.toTokens then .ok (.type v.toTokens) else .err (castError v.ty .type)
    | v, .expr => if E.isExpr v.toTokens then .ok (.expr v.toTokens) else .err (castError v.ty .expr)
    | v, .litStr =>
      match parseIdent v.toTokens with
      | some s => .ok (newLitStr E s)
      | none => (Res.ofOption (castError v.ty .litStr) (parseLitStr v.toTokens)).map (fun p => .litStr p.1 p.2)
    | v, .litInt => (Res.ofOption (castError v.ty .litInt) (parseLitInt v.toTokens)).map .litInt
    | v, .tokens => .ok (.tokens v.toTokens)
    | v, .raw => .ok (.raw v.toTokens)
    | v, .variadic t => .err (castError v.ty (.variadic t))

end Verif
