import Verif.Spec.WriteOut
/-! # The order in which functions are declared -/

namespace Verif.Spec
open Verif

/-- A function without the number it got when it was declared. -/
def anyId (f : Func) : Func := { f with id := 0 }

/-- The same functions, declared in any order. -/
def SameFunctions (T T' : Str → Option (List Func)) : Prop :=
  ∀ name, (T name = none ∧ T' name = none) ∨
    ∃ fs fs', T name = some fs ∧ T' name = some fs' ∧ (fs.map anyId).Perm (fs'.map anyId)

/-- The same error, except that the overloads a call does not fit are listed in another order. -/
def SameError (x x' : Err) : Prop :=
  x = x' ∨ ∃ fs fs' call, (fs.map anyId).Perm (fs'.map anyId) ∧ x = refusal fs call ∧ x' = refusal fs' call

/-- In the definitions `hash` of a string is nowhere the argument of another call. -/
def hashesOutermost : List (Str × Expr) → TyEnv → Prop
  | [], _ => True
  | (name, e) :: items, Γ =>
    (match e with | .value _ _ => True | .call _ _ args _ => noStrHashL Γ args) ∧
    ∀ c te, check builtinFuncs Γ e none = .ok (c, te) → hashesOutermost items (extend Γ name te.target)

end Verif.Spec
