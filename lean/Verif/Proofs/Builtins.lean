import Verif.Model.Funcs
/-! # The built-in functions by name -/

namespace Verif

/-- `f` is a built-in function with this name. -/
def Builtin (name : String) (f : Func) : Prop := ∃ fs, builtinFuncs (S name) = some fs ∧ f ∈ fs

theorem builtin_iff {name : String} {fs : List Func} (h : builtinFuncs (S name) = some fs) {f : Func} :
    Builtin name f ↔ f ∈ fs := by
  simp [Builtin, h]

theorem builtin_upper : builtinFuncs (S "upper") = some (strFuncs 0 c! "upper" (fun E => E.toUppercase)) := rfl
theorem builtin_lower : builtinFuncs (S "lower") = some (strFuncs 2 c! "lower" (fun E => E.toLowercase)) := rfl
theorem builtin_snake : builtinFuncs (S "snake_case") = some (strFuncs 4 c! "snake_case" (fun E => E.snake)) := rfl
theorem builtin_camel : builtinFuncs (S "camel_case") = some (strFuncs 6 c! "camel_case" (fun E => E.lowerCamel)) := rfl
theorem builtin_pascal : builtinFuncs (S "pascal_case") = some (strFuncs 8 c! "pascal_case" (fun E => E.pascal)) := rfl
theorem builtin_normalize : builtinFuncs (S "normalize") = some [normalizeFunc 10] := rfl
theorem builtin_normalize2 : builtinFuncs (S "normalize2") = some
    [normalize2For 11 .ident, normalize2For 12 .litStr, normalize2For 13 .litInt, normalize2For 14 .path,
     normalize2For 15 .type, normalize2For 16 .expr, normalize2For 17 .tokens] := rfl
theorem builtin_hash : builtinFuncs (S "hash") = some (hashFuncs 18) := rfl
theorem builtin_concat : builtinFuncs (S "concat") = some
    [concatIdents 21, concatIdentTokens 22, concatLitStrs 23, concatLitInts 24, concatTokens 25] := rfl
theorem builtin_to_ident : builtinFuncs (S "to_ident") = some [castFunc 26 c! "to_ident" .ident] := rfl
theorem builtin_to_path : builtinFuncs (S "to_path") = some [castFunc 27 c! "to_path" .path] := rfl
theorem builtin_to_type : builtinFuncs (S "to_type") = some [castFunc 28 c! "to_type" .type] := rfl
theorem builtin_to_expr : builtinFuncs (S "to_expr") = some [castFunc 29 c! "to_expr" .expr] := rfl
theorem builtin_to_str : builtinFuncs (S "to_str") = some [castFunc 30 c! "to_str" .litStr] := rfl
theorem builtin_to_int : builtinFuncs (S "to_int") = some [castFunc 31 c! "to_int" .litInt] := rfl
theorem builtin_to_tokens : builtinFuncs (S "to_tokens") = some [toTokensFunc 32] := rfl
theorem builtin_raw : builtinFuncs (S "raw") = some [rawFunc 33] := rfl

end Verif
