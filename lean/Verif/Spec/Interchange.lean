import Verif.Spec.Typing
/-!
# Exchanging parts of definitions

Two expressions are interchangeable if no context can tell them apart: against every type that may be expected both fail, or both have the same cost, the
same type and the same value. Names in `F` are taken not to be aliases.
-/

namespace Verif.Spec
open Verif

/-- Nothing in `F` is an alias. -/
def Free {α : Type} (F : Str → Prop) (Γ : Str → Option α) : Prop := ∀ s, F s → Γ s = none

/-- The same result of typing, as far as the outside can see. At the top of a definition (where no type is expected) the errors are the same as well, apart
from the quotation. -/
def AlikeChecks (E : Ext) (seed : Nat) (F : Str → Prop) (expected : Option Ty) : Except Err (Nat × TExpr) → Except Err (Nat × TExpr) → Prop
  | .ok (c, te), .ok (c', te') => c = c' ∧ te.target = te'.target ∧ ∀ ρ, Free F ρ → te.eval E seed ρ = te'.eval E seed ρ
  | .error x, .error x' => expected = none → blur x = blur x'
  | _, _ => False

/-- The same result of typing apart from the cost, which does not matter at the top of a definition. -/
def AlikeValues (E : Ext) (seed : Nat) (F : Str → Prop) : Except Err (Nat × TExpr) → Except Err (Nat × TExpr) → Prop
  | .ok (_, te), .ok (_, te') => te.target = te'.target ∧ ∀ ρ, Free F ρ → te.eval E seed ρ = te'.eval E seed ρ
  | .error x, .error x' => blur x = blur x'
  | _, _ => False

/-- The same as the value of a definition. -/
def SameValue (E : Ext) (seed : Nat) (F : Str → Prop) (e e' : Expr) : Prop :=
  ∀ Γ, Free F Γ → AlikeValues E seed F (check builtinFuncs Γ e none) (check builtinFuncs Γ e' none)

/-- The same wherever they stand. -/
structure SameMeaning (E : Ext) (seed : Nat) (F : Str → Prop) (e e' : Expr) : Prop where
  check : ∀ Γ, Free F Γ → ∀ expected, AlikeChecks E seed F expected (check builtinFuncs Γ e expected) (check builtinFuncs Γ e' expected)

/-- Interchangeable expressions: costs overflow in both or in neither. -/
structure Interchangeable (E : Ext) (seed : Nat) (F : Str → Prop) (e e' : Expr) : Prop extends SameMeaning E seed F e e' where
  overflows : ∀ Γ, Free F Γ → ∀ expected, overflows builtinFuncs Γ e expected = overflows builtinFuncs Γ e' expected

mutual
/-- `e'` is `e` with some parts exchanged by `B`. The numbers of the nodes may be others. (`raw` and `normalize` see the text of their arguments, which is left
alone.) -/
inductive Exchanged (B : Expr → Expr → Prop) : Expr → Expr → Prop
  | here {e e' : Expr} (h : B e e') : Exchanged B e e'
  | same (e : Expr) : Exchanged B e e
  | value (i i' : Nat) (k : VKind) : Exchanged B (.value i k) (.value i' k)
  | text (i i' r r' : Nat) (ts : Toks) (args args' : List Expr) {n : Str} (hn : n = S "raw" ∨ n = S "normalize") :
      Exchanged B (.call i n args (some (r, ts))) (.call i' n args' (some (r', ts)))
  | call (i i' : Nat) (n : Str) (raw raw' : Option (Nat × Toks)) {args args' : List Expr} (hn : n ≠ S "raw") (hn' : n ≠ S "normalize")
      (h : ExchangedL B args args') : Exchanged B (.call i n args raw) (.call i' n args' raw')
/-- The same in several expressions. -/
inductive ExchangedL (B : Expr → Expr → Prop) : List Expr → List Expr → Prop
  | nil : ExchangedL B [] []
  | cons {e e' : Expr} {es es' : List Expr} (h : Exchanged B e e') (hs : ExchangedL B es es') : ExchangedL B (e :: es) (e' :: es')
end

/-- Definitions of the same names, their values related by `R`. -/
inductive DefsBy (R : Expr → Expr → Prop) : List (Str × Expr) → List (Str × Expr) → Prop
  | nil : DefsBy R [] []
  | cons (n : Str) {e e' : Expr} {ds ds' : List (Str × Expr)} (h : R e e') (hs : DefsBy R ds ds') : DefsBy R ((n, e) :: ds) ((n, e') :: ds')

/-- Parts are exchanged in definitions. -/
abbrev ExchangedDefs (B : Expr → Expr → Prop) := DefsBy (Exchanged B)

end Verif.Spec
