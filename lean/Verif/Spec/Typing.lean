import Verif.Spec.Message
/-!
# Pure typing and evaluation of alias definitions

A specification without node ids, side tables, scopes or machine integers. Coercion costs are those of `coercionCost`
(pinned down by C19), casts those of `tryCast` (C20, C21).
-/

namespace Verif.Spec
open Verif

/-- Types of the aliases defined so far. -/
abbrev TyEnv := Str → Option Ty

/-- Definition of one more alias. -/
def extend {α : Type} (Γ : Str → Option α) (name : Str) (a : α) : Str → Option α :=
  fun n => if n = name then some a else Γ n

/-- A typed expression: values with the type they are cast to, calls with the chosen overload. -/
inductive TExpr where
  | val (k : VKind) (target : Ty)
  | call (f : Func) (args : List TExpr) (target : Ty)

/-- The type a typed expression has. -/
def TExpr.target : TExpr → Ty
  | val _ t => t
  | call _ _ t => t

/-- The type of a value, before casting: that of the alias it names, if there is one. -/
def natural (Γ : TyEnv) : VKind → Ty
  | .ident s => (Γ s).getD .ident
  | k => k.ty

/-- An overload that can be used for a call, with its cost and its typed arguments. -/
structure Choice where
  cost : Nat
  func : Func
  args : List TExpr

/-- Ranking of overloads: cost, then non-variadic before variadic, then number of parameters, then declaration order. -/
def Choice.better (a b : Choice) : Prop :=
  a.cost < b.cost ∨ a.cost = b.cost ∧
    ((a.func.isVariadic = false ∧ b.func.isVariadic = true) ∨ a.func.isVariadic = b.func.isVariadic ∧
      (a.func.args.length < b.func.args.length ∨ a.func.args.length = b.func.args.length ∧ a.func.id < b.func.id))

instance (a b : Choice) : Decidable (a.better b) := by unfold Choice.better; infer_instance

/-- The best choice; the first of several equally good ones. -/
def best : List Choice → Option Choice
  | [] => none
  | x :: xs =>
    match best xs with
    | none => some x
    | some y => if y.better x then some y else some x

/-- The parameters of an overload as seen by `n` arguments: type and cost multiplier. `none` if the number of arguments
does not fit. -/
def paramsFor (f : Func) (n : Nat) : Option (List (Ty × Nat)) :=
  match f.variadicArg with
  | none => if f.args.length = n then some (f.args.map (·, 1)) else none
  | some t =>
    if f.args.length ≤ n then
      some (f.fixedArgs.map (·, 1) ++ List.replicate (n - f.fixedArgs.length) (t, 2))
    else none

/-- Cost of using a result of type `out` where `expected` is expected, if anything is. -/
def outCost (out : Ty) : Option Ty → Option Nat
  | none => some 0
  | some t => coercionCost out t

/-- Whether (and how) an overload can be used, given how to type the arguments against parameters. -/
def usable (raw : Option (Nat × Toks)) (n : Nat) (expected : Option Ty)
    (args : List (Ty × Nat) → Option (Nat × List TExpr)) (f : Func) : Option Choice := do
  let co ← outCost f.out expected
  match if f.args = [.raw] then raw else none with
  | some (_, ts) => some ⟨co, f, [.val (.raw ts) .raw]⟩
  | none => do
    let ps ← paramsFor f n
    let (c, tes) ← args ps
    some ⟨co + c, f, tes⟩

mutual
/-- Typing of an expression against an expected type: cost and typed expression, or the error. -/
def check (T : Str → Option (List Func)) (Γ : TyEnv) : Expr → Option Ty → Except Err (Nat × TExpr)
  | .value _ k, expected =>
    match coercionCost (natural Γ k) (expected.getD (natural Γ k)) with
    | some c => .ok (c, .val k (expected.getD (natural Γ k)))
    | none => .error (.typeError (.coercion k.ty (expected.getD (natural Γ k))))
  | .call id name args raw, expected =>
    match T name with
    | none => .error (.undefinedFunction name)
    | some fs =>
      match best (fs.filterMap (usable raw args.length expected (fun ps => checkArgs T Γ args ps))) with
      | some ch => .ok (ch.cost, .call ch.func ch.args (expected.getD ch.func.out))
      | none => .error (refusal fs (.call id name args raw))
/-- Typing of arguments against parameters. -/
def checkArgs (T : Str → Option (List Func)) (Γ : TyEnv) : List Expr → List (Ty × Nat) → Option (Nat × List TExpr)
  | e :: es, (t, m) :: ps =>
    match check T Γ e (some t) with
    | .ok (c, te) => (checkArgs T Γ es ps).map (fun r => (c * m + r.1, te :: r.2))
    | .error _ => none
  | _, _ => some (0, [])
end

mutual
/-- Evaluation of a typed expression, given the values of the aliases. -/
def TExpr.eval (E : Ext) (seed : Nat) (ρ : Str → Option VKind) : TExpr → Res VKind
  | .val k t =>
    match tryCast E (match k with | .ident s => (ρ s).getD k | _ => k) t with
    | .ok v => .ok v
    | _ => .panic
  | .call f args t => do
    let vs ← TExpr.evalL E seed ρ args
    let r ← f.impl E seed vs
    tryCast E r t
def TExpr.evalL (E : Ext) (seed : Nat) (ρ : Str → Option VKind) : List TExpr → Res (List VKind)
  | [] => .ok []
  | te :: tes => do
    let v ← te.eval E seed ρ
    let vs ← TExpr.evalL E seed ρ tes
    .ok (v :: vs)
end

/-- Typing of a list of definitions. -/
def checkSpec (T : Str → Option (List Func)) : List (Str × Expr) → TyEnv → Except Err (List (Str × TExpr))
  | [], _ => .ok []
  | (name, e) :: items, Γ =>
    match check T Γ e none with
    | .error x => .error x
    | .ok (_, te) =>
      if (Γ name).isSome then .error (.redefined name)
      else match checkSpec T items (extend Γ name te.target) with
        | .error x => .error x
        | .ok rest => .ok ((name, te) :: rest)

/-- Evaluation of a list of typed definitions. -/
def evalSpecT (E : Ext) (seed : Nat) : List (Str × TExpr) → (Str → Option VKind) → Res (List (Str × VKind))
  | [], _ => .ok []
  | (name, te) :: items, ρ => do
    let v ← te.eval E seed ρ
    let rest ← evalSpecT E seed items (extend ρ name v)
    .ok ((name, v) :: rest)

/-- The values of a list of definitions, or the error. All definitions are checked before any is evaluated. -/
def denote (E : Ext) (env : Env) (items : List (Str × Expr)) : Res (List (Str × VKind)) :=
  match checkSpec env.funcs items (fun _ => none) with
  | .error x => .err x
  | .ok tes => evalSpecT E env.seed tes (fun _ => none)

mutual
/-- Costs are 32-bit numbers: `overflows` says that some sum does not fit. All overloads are tried, and the arguments of
one from left to right until one cannot be used. -/
def overflows (T : Str → Option (List Func)) (Γ : TyEnv) : Expr → Option Ty → Bool
  | .value _ _, _ => false
  | .call _ name args raw, expected =>
    match T name with
    | none => false
    | some fs => fs.any fun f =>
      match outCost f.out expected, (if f.args = [.raw] then raw else none), paramsFor f args.length with
      | some co, none, some ps => overflowsArgs T Γ args ps co
      | _, _, _ => false
/-- The same for arguments, `c` being the cost so far. -/
def overflowsArgs (T : Str → Option (List Func)) (Γ : TyEnv) : List Expr → List (Ty × Nat) → Nat → Bool
  | e :: es, (t, m) :: ps, c =>
    overflows T Γ e (some t) ||
      match check T Γ e (some t) with
      | .ok (ce, _) => decide (2 ^ 32 ≤ c + ce * m) || overflowsArgs T Γ es ps (c + ce * m)
      | .error _ => false
  | _, _, _ => false
end

/-- The same for definitions. -/
def overflowsSpec (T : Str → Option (List Func)) : List (Str × Expr) → TyEnv → Bool
  | [], _ => false
  | (name, e) :: items, Γ =>
    overflows T Γ e none ||
      match check T Γ e none with
      | .ok (_, te) => !(Γ name).isSome && overflowsSpec T items (extend Γ name te.target)
      | .error _ => false

/-- The values of a list of definitions, or the error; a panic if costs overflow. -/
def outcome (E : Ext) (env : Env) (items : List (Str × Expr)) : Res (List (Str × VKind)) :=
  if overflowsSpec env.funcs items (fun _ => none) then .panic else denote E env items

mutual
/-- All node ids of an expression. -/
def ids : Expr → List Nat
  | .value id _ => [id]
  | .call id _ args raw => id :: (raw.map (·.1)).toList ++ idsL args
def idsL : List Expr → List Nat
  | [] => []
  | e :: es => ids e ++ idsL es
end

mutual
/-- A bound for all costs that can come up in an expression. -/
def costBound : Expr → Nat
  | .value _ _ => 5
  | .call _ _ args _ => 5 + costBoundL args
def costBoundL : List Expr → Nat
  | [] => 0
  | e :: es => 2 * costBound e + costBoundL es
end

mutual
/-- Number of values and calls in an expression. -/
def nodes : Expr → Nat
  | .value _ _ => 1
  | .call _ _ args _ => nodesL args + 1
def nodesL : List Expr → Nat
  | [] => 0
  | e :: es => nodes e + nodesL es
end

mutual
/-- How deeply calls are nested. -/
def nesting : Expr → Nat
  | .value _ _ => 0
  | .call _ _ args _ => nestingL args + 1
def nestingL : List Expr → Nat
  | [] => 0
  | e :: es => max (nesting e) (nestingL es)
end

end Verif.Spec
