import Verif.Model.Resolve
/-! # The texts of errors (`src/error.rs`) -/

namespace Verif

/-- The characters of a text. -/
def Text.print (E : Ext) : Text → Str
  | [] => []
  | .str s :: ps => s ++ Text.print E ps
  | .toks ts :: ps => E.render ts ++ Text.print E ps

/-- The text of a `TypeError`. `syn` is the message of the `syn::Error` that made a cast fail. The only cast that fails without
one, to a variadic type, has a fixed text (`src/ast/value.rs:246-251`). -/
def Mismatch.text (syn : Str) : Mismatch → Str
  -- `src/error.rs:43-48`
  | .coercion f t => c! "impossible to coerce from " ++ f.show ++ c! " to " ++ t.show
  -- `src/ast/value.rs:80-102`
  | .cast f t => c! "Unable to cast " ++ f.debug ++ c! " to " ++ t.debug ++ c! ": " ++
      if t.isVariadic then c! "impossible cast" else syn
  -- `src/expand/raw_ast.rs:17`
  | .tupleSize => c! "Mismatched number of elements in the tuple"
  -- `src/expand/raw_ast.rs:30-31`
  | .tupleShape => c! "Shape of the value tuple doesn't match the shape of the alias tuple"
  -- `src/expand/raw_ast.rs:67`
  | .loopKind => c! "Mismatched alias and value types"

/-- `impl Display for Error`, `src/error.rs:8-24`, which is also the message of the compile error (`src/error.rs:74-79`,
`src/lib.rs:63-66`). `syn` is the message of the `syn::Error` the error carries, if any; it is the whole message of a
parse error. The text of an internal error is left out: there are none (C65). -/
def Err.message (E : Ext) (syn : Str) : Err → Str
  | .typeError m => c! "TypeError: " ++ m.text syn
  | .evalError args => c! "EvalError: " ++
      (c! "Failed to produce a valid identifier from concatenated arguments: " ++ VKind.joinWith c! ", " (args.map E.render))
  | .redefined n => c! "RedefinedNameError: name " ++ n ++ c! " has already been defined"
  | .signature sig call => c! "SignatureError: function " ++ sig ++ c! " has been called with incompatible arguments: " ++
      Text.print E call
  | .undefinedFunction n => c! "UndefinedFunctionError: function \"" ++ n ++ c! "(...)\" is undefined"
  | .substitution o r => c! "SubstitutionError: failed to substitute:\n\n  " ++ o ++ c! "\n\nwith:\n\n  " ++ r ++
      c! "\n\nEncountered an error:\n\n  " ++ syn
  | .internal => c! "InternalError: "
  | .parse => syn

/-- `ErrorType`, `src/error.rs:78-87`, and `parse` for errors of `syn`. -/
inductive ErrorType
  | type | eval | redefinedName | signature | undefinedFunction | substitution | internal | parse
  deriving DecidableEq, Repr

/-- `Error::type_`, `src/error.rs:54-64`. -/
def errorType : Err → ErrorType
  | .typeError _ => .type
  | .evalError _ => .eval
  | .redefined _ => .redefinedName
  | .signature _ _ => .signature
  | .undefinedFunction _ => .undefinedFunction
  | .substitution _ _ => .substitution
  | .internal => .internal
  | .parse => .parse

end Verif
