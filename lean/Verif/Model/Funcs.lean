import Verif.Model.Types
import Verif.Model.SipHash
import Verif.Model.Normalize
/-! # Functions and the table of built-in functions (`src/core/type_.rs`, `src/funcs.rs`, `src/core/environment`) -/

namespace Verif

/-- `struct Func`, `src/core/type_.rs:74-80`. `impl` gets the external code, the seed of the environment and the argument
values. `id` is drawn from the global counter when the function is created; only its order is used, so that in the
table below it is the position of the function. -/
structure Func where
  id : Nat
  name : Str
  args : List Ty
  out : Ty
  impl : Ext → Nat → List VKind → Res VKind

/-- `matches!(t, Type::Variadic(_))`, `src/core/type_.rs:166`. -/
def Ty.isVariadic : Ty → Bool
  | .variadic _ => true
  | _ => false

namespace Func

/-- `is_variadic`, `src/core/type_.rs:163-167`. -/
def isVariadic (f : Func) : Bool := f.args.any Ty.isVariadic

/-- `non_variadic_arg_types`, lines 169-175. -/
def fixedArgs (f : Func) : List Ty := f.args.filter (fun t => !t.isVariadic)

/-- `variadic_arg_type`, lines 177-188. -/
def variadicArg (f : Func) : Option Ty :=
  (f.args.find? Ty.isVariadic).bind (fun t => match t with | .variadic t => some t | _ => none)

/-- `signature`, lines 127-135. -/
def signature (f : Func) : Str :=
  f.name ++ c! "(" ++ VKind.joinWith c! ", " (f.args.map Ty.show) ++ c! ") -> " ++ f.out.show

end Func

/-- `struct Environment`, `src/core/environment/core.rs:11-16`: the seed and the functions by name. -/
structure Env where
  seed : Nat
  funcs : Str → Option (List Func)

/-- `make_pretty_func_sig`, `src/core/environment/core.rs:52-65`: the fold over the signatures. -/
def prettySigs (fs : List Func) : Str :=
  (fs.map Func.signature).foldl (fun acc sig => if acc.isEmpty then sig else acc ++ c! " | " ++ sig) []

/-- `make_pretty_func_sig(name).unwrap_or_else(…)`, `src/resolve/call.rs:194-196`. -/
def Env.prettySig (env : Env) (name : Str) : Str := ((env.funcs name).map prettySigs).getD c! "unknown function"

/-- `proc_macro2::Ident::new`: panics on what is not lexically an identifier (keywords are accepted). -/
def newIdent (E : Ext) (s : Str) : Res VKind := if E.lexIdent s then .ok (.ident s) else .panic

/-- `hash`, `src/funcs.rs:37-42`. -/
def hashStr (seed : Nat) (s : Str) : Str := decimal (hash64 seed s)

/-- `concat`, `src/funcs.rs:85-87`. -/
def concatStrs (ss : List Str) : Str := ss.flatten

/-- All values, if they have the wanted kind; otherwise the function panics (`arg_type_err!`,
`src/core/environment/init_funcs.rs:17-25`). -/
def allOf {α : Type} (sel : VKind → Option α) : List VKind → Res (List α)
  | [] => .ok []
  | v :: vs =>
    match sel v with
    | some a => (allOf sel vs).map (a :: ·)
    | none => .panic

namespace VKind
/-- Kind selections of the variadic functions, `src/core/environment/init_funcs.rs:272`, 296, 330, 350, 369. -/
def asIdent : VKind → Option Str
  | ident s => some s
  | _ => none
def asLitStr : VKind → Option Str
  | litStr _ v => some v
  | _ => none
def asLitInt : VKind → Option IntLit
  | litInt i => some i
  | _ => none
def asTokens : VKind → Option Toks
  | tokens ts => some ts
  | _ => none
end VKind

/-- `make_str_funcs!`, `src/core/environment/init_funcs.rs:28-61`. -/
def strFuncs (id : Nat) (name : Str) (f : Ext → Str → Str) : List Func :=
  [ { id, name, args := [.litStr], out := .litStr
      impl := fun E _ vs => match vs with
        | [.litStr _ s] => .ok (newLitStr E (f E s))
        | _ => .panic },
    { id := id + 1, name, args := [.ident], out := .ident
      impl := fun E _ vs => match vs with
        | [.ident s] => newIdent E (f E s)
        | _ => .panic } ]

/-- The text `normalize2` works on, `src/core/environment/init_funcs.rs:103-205`. -/
def normalize2Text (E : Ext) : VKind → Str
  | .ident s => s
  | .litStr _ s => s
  | .litInt i => i.digits
  | .path ts => E.render ts
  | .type ts => E.render ts
  | .expr ts => E.render ts
  | .tokens ts => E.render ts
  | .raw ts => E.render ts

/-- One overload of `normalize2`. -/
def normalize2For (id : Nat) (t : Ty) : Func where
  id
  name := c! "normalize2"
  args := [t]
  out := .ident
  impl := fun E _ vs => match vs with
    | [v] => if v.ty = t then newIdent E (normalize E.toCharClass (normalize2Text E v)) else .panic
    | _ => .panic

/-- A casting function, lines 380-470. -/
def castFunc (id : Nat) (name : Str) (t : Ty) : Func where
  id
  name
  args := [.tokens]
  out := t
  impl := fun E _ vs => match vs with
    | [.tokens ts] => tryCast E (.tokens ts) t
    | _ => .panic

/-- `normalize`, lines 87-102. -/
def normalizeFunc (id : Nat) : Func where
  id
  name := c! "normalize"
  args := [.raw]
  out := .ident
  impl := fun E _ vs => match vs with
    | [.raw ts] => newIdent E (normalize E.toCharClass (E.render ts))
    | _ => .panic

/-- `hash`, lines 206-260. -/
def hashFuncs (id : Nat) : List Func :=
  [ { id, name := c! "hash", args := [.litStr], out := .litStr
      impl := fun E seed vs => match vs with
        | [.litStr _ s] => .ok (newLitStr E (hashStr seed s))
        | _ => .panic },
    { id := id + 1, name := c! "hash", args := [.ident], out := .ident
      impl := fun E seed vs => match vs with
        | [.ident s] => newIdent E (c! "__" ++ hashStr seed s)
        | _ => .panic },
    { id := id + 2, name := c! "hash", args := [.tokens], out := .ident
      impl := fun E seed vs => match vs with
        | [.tokens ts] => newIdent E (c! "__" ++ hashStr seed (E.render ts))
        | _ => .panic } ]

/-- `concat(ident...)`, lines 264-283. -/
def concatIdents (id : Nat) : Func where
  id
  name := c! "concat"
  args := [.variadic .ident]
  out := .ident
  impl := fun E _ vs => do
    let ss ← allOf VKind.asIdent vs
    newIdent E (concatStrs ss)

/-- `concat(ident, tokens...)`, lines 284-321. -/
def concatIdentTokens (id : Nat) : Func where
  id
  name := c! "concat"
  args := [.ident, .variadic .tokens]
  out := .ident
  impl := fun E _ vs => match vs with
    | [] => .panic
    | first :: rest => do
      let ts ← allOf VKind.asTokens rest
      match parseStrIdent E (concatStrs (E.render first.toTokens :: ts.map E.render)) with
      | some s => .ok (.ident s)
      | none => .err (.evalError (vs.map VKind.toTokens))

/-- `concat(str...)`, lines 322-341. -/
def concatLitStrs (id : Nat) : Func where
  id
  name := c! "concat"
  args := [.variadic .litStr]
  out := .litStr
  impl := fun E _ vs => do
    let ss ← allOf VKind.asLitStr vs
    .ok (newLitStr E (concatStrs ss))

/-- `concat(int...)`, lines 342-360. -/
def concatLitInts (id : Nat) : Func where
  id
  name := c! "concat"
  args := [.variadic .litInt]
  out := .litInt
  impl := fun _ _ vs => do
    let is ← allOf VKind.asLitInt vs
    let i ← newLitInt (concatStrs (is.map IntLit.digits))
    .ok (.litInt i)

/-- `concat(tokens...)`, lines 361-377. -/
def concatTokens (id : Nat) : Func where
  id
  name := c! "concat"
  args := [.variadic .tokens]
  out := .tokens
  impl := fun _ _ vs => do
    let tss ← allOf VKind.asTokens vs
    .ok (.tokens tss.flatten)

/-- `to_tokens`, lines 471-485. -/
def toTokensFunc (id : Nat) : Func where
  id
  name := c! "to_tokens"
  args := [.tokens]
  out := .tokens
  impl := fun _ _ vs => match vs with
    | [.tokens ts] => .ok (.tokens ts)
    | _ => .panic

/-- `raw`, lines 486-500. -/
def rawFunc (id : Nat) : Func where
  id
  name := c! "raw"
  args := [.raw]
  out := .tokens
  impl := fun _ _ vs => match vs with
    | [.raw ts] => .ok (.tokens ts)
    | _ => .panic

/-- `Environment::init_funcs`, lines 65-502: all built-in functions, in the order of their creation. -/
def builtins : List Func :=
  strFuncs 0 c! "upper" (fun E => E.toUppercase) ++
  strFuncs 2 c! "lower" (fun E => E.toLowercase) ++
  strFuncs 4 c! "snake_case" (fun E => E.snake) ++
  strFuncs 6 c! "camel_case" (fun E => E.lowerCamel) ++
  strFuncs 8 c! "pascal_case" (fun E => E.pascal) ++
  [ normalizeFunc 10,
    normalize2For 11 .ident, normalize2For 12 .litStr, normalize2For 13 .litInt, normalize2For 14 .path,
    normalize2For 15 .type, normalize2For 16 .expr, normalize2For 17 .tokens ] ++
  hashFuncs 18 ++
  [ concatIdents 21, concatIdentTokens 22, concatLitStrs 23, concatLitInts 24, concatTokens 25,
    castFunc 26 c! "to_ident" .ident, castFunc 27 c! "to_path" .path, castFunc 28 c! "to_type" .type,
    castFunc 29 c! "to_expr" .expr, castFunc 30 c! "to_str" .litStr, castFunc 31 c! "to_int" .litInt,
    toTokensFunc 32, rawFunc 33 ]

/-- `get_func_variants` (`src/core/environment/core.rs:33-35`) of the table of built-in functions. -/
def builtinFuncs (name : Str) : Option (List Func) :=
  match builtins.filter (fun f => f.name == name) with
  | [] => none
  | fs => some fs

/-- `Environment::new_initialized`, `src/core/environment/core.rs:27-30`. -/
def Env.builtin (seed : Nat) : Env := ⟨seed, builtinFuncs⟩

end Verif
