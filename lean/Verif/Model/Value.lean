import Verif.Model.Chars
/-! # Values (`src/ast/value.rs`) and the interface to external code -/

namespace Verif

/-- Everything outside the repository that values and functions depend on: Unicode tables, `heck`, the printer and the
lexer of `proc_macro2`, and `syn`'s grammars of paths, types and expressions. Nothing is assumed about these fields
except where a theorem has an explicit hypothesis. -/
structure Ext extends CharClass where
  /-- `str::to_uppercase` -/
  toUppercase : Str → Str
  /-- `str::to_lowercase` -/
  toLowercase : Str → Str
  /-- `heck::ToSnakeCase` -/
  snake : Str → Str
  /-- `heck::ToLowerCamelCase` -/
  lowerCamel : Str → Str
  /-- `heck::ToPascalCase` -/
  pascal : Str → Str
  /-- `TokenStream::to_string` -/
  render : Toks → Str
  /-- source form of the literal made by `LitStr::new` from a string value -/
  strRepr : Str → Str
  /-- `TokenStream::from_str`, as used by `syn::parse_str` -/
  lex : Str → Option Toks
  /-- `syn::parse2::<syn::Path>` succeeds -/
  isPath : Toks → Bool
  /-- `syn::parse2::<syn::Type>` succeeds -/
  isType : Toks → Bool
  /-- `syn::parse2::<syn::Expr>` succeeds -/
  isExpr : Toks → Bool
  /-- identifiers of the segments of a path -/
  pathSegs : Toks → List Str

/-- The identifiers `syn::Ident` refuses to parse (`accept_as_ident` in syn 2): `_` and the keywords. -/
def keywords : List Str :=
  [c! "_", c! "abstract", c! "as", c! "async", c! "await", c! "become", c! "box", c! "break", c! "const", c! "continue",
   c! "crate", c! "do", c! "dyn", c! "else", c! "enum", c! "extern", c! "false", c! "final", c! "fn", c! "for", c! "if",
   c! "impl", c! "in", c! "let", c! "loop", c! "macro", c! "match", c! "mod", c! "move", c! "mut", c! "override", c! "priv",
   c! "pub", c! "ref", c! "return", c! "Self", c! "self", c! "static", c! "struct", c! "super", c! "trait", c! "true",
   c! "try", c! "type", c! "typeof", c! "unsafe", c! "unsized", c! "use", c! "virtual", c! "where", c! "while", c! "yield"]

/-- `syn::parse2::<Ident>` on tokens: one identifier token that is not a keyword. Simplification, also in `parseLitStr` and `parseLitInt`:
groups without delimiters, which `syn` would enter, are not entered. (The parser has read a single token in such a group as the
token itself; only the argument of `raw` and parts of longer values keep them.) -/
def parseIdent : Toks → Option Str
  | [.ident s] => if keywords.contains s then none else some s
  | _ => none

/-- `syn::parse2::<LitStr>` on tokens: source form and value. -/
def parseLitStr : Toks → Option (Str × Str)
  | [.lit (.str r v)] => some (r, v)
  | _ => none

/-- A `syn::LitInt`: sign, source form (without the sign) and absolute value. Negative ones exist because `syn` parses
`-1` as one literal. -/
structure IntLit where
  neg : Bool
  repr : Str
  val : Nat
  deriving DecidableEq, Repr

/-- `syn::parse2::<LitInt>` on tokens. -/
def parseLitInt : Toks → Option IntLit
  | [.lit (.int r v)] => some ⟨false, r, v⟩
  | [.punct '-' _, .lit (.int r v)] => some ⟨true, r, v⟩
  | _ => none

/-- The digits of a number in base ten. -/
def decimal (n : Nat) : Str := Nat.toDigits 10 n

/-- `LitInt::base10_digits`. -/
def IntLit.digits (i : IntLit) : Str := (if i.neg then ['-'] else []) ++ decimal i.val

/-- The tokens of a `LitInt`; a negative literal is two tokens in a `TokenStream`. -/
def IntLit.toTokens (i : IntLit) : Toks :=
  (if i.neg then [.punct '-' false] else []) ++ [.lit (.int i.repr i.val)]

/-- Value of a string of decimal digits. -/
def ofDecimal (s : Str) : Nat := s.foldl (fun n c => 10 * n + (c.toNat - '0'.toNat)) 0

/-- `LitInt::new` on strings of decimal digits and minus signs (the only ones the code passes,
`src/core/environment/init_funcs.rs:353-356`): panics unless it is an optional sign and at least one digit. -/
def newLitInt (s : Str) : Res IntLit :=
  let (neg, ds) := match s with
    | '-' :: ds => (true, ds)
    | ds => (false, ds)
  if !ds.isEmpty && ds.all Char.isDigit then .ok ⟨neg, ds, ofDecimal ds⟩ else .panic

/-- `ValueKind`, `src/ast/value.rs:25-35`. A parsed `syn::Path`, `syn::Type` or `syn::Expr` is represented by its tokens.
Simplification: parsing followed by `to_token_stream` is the identity. -/
inductive VKind where
  | ident (s : Str)
  | path (ts : Toks)
  | type (ts : Toks)
  | expr (ts : Toks)
  | litStr (repr value : Str)
  | litInt (i : IntLit)
  | tokens (ts : Toks)
  | raw (ts : Toks)
  deriving DecidableEq, Repr

namespace VKind

/-- `Value::type_`, `src/ast/value.rs:68-79`. -/
def ty : VKind → Ty
  | ident _ => .ident
  | path _ => .path
  | type _ => .type
  | expr _ => .expr
  | litStr _ _ => .litStr
  | litInt _ => .litInt
  | tokens _ => .tokens
  | raw _ => .raw

/-- `impl ToTokens for Value`, `src/ast/value.rs:292-305`. -/
def toTokens : VKind → Toks
  | ident s => [.ident s]
  | path ts => ts
  | type ts => ts
  | expr ts => ts
  | litStr r v => [.lit (.str r v)]
  | litInt i => i.toTokens
  | tokens ts => ts
  | raw ts => ts

/-- Strings joined by a separator (`[String]::join`). -/
def joinWith (sep : Str) : List Str → Str
  | [] => []
  | [s] => s
  | s :: ss => s ++ sep ++ joinWith sep ss

/-- `format_value`, `src/substitution/format_string.rs:9-25`. -/
def format (E : Ext) : VKind → Str
  | ident s => s
  | path ts => joinWith (S "::") (E.pathSegs ts)
  | type ts => E.render ts
  | expr ts => E.render ts
  | litStr _ v => v
  -- `LitInt` displays as its literal
  | litInt i => (if i.neg then ['-'] else []) ++ i.repr
  | tokens ts => E.render ts
  | raw ts => E.render ts

end VKind

/-- `HashMap<String, Rc<Value>>`: the substitutions of one block rewrite (`src/interpreter/core.rs:69-76`), as a list of
entries with different keys. -/
abbrev Subs := List (Str × VKind)

/-- `HashMap::get`. -/
def Subs.get (subs : Subs) (name : Str) : Option VKind := (subs.find? (fun e => e.1 == name)).map (·.2)

end Verif
