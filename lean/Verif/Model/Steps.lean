import Verif.Model.Eval
/-!
# How much is done

The resolve and the eval phase once more, now counting how often a node is visited: how often `Expr::resolve` (`src/resolve/expr.rs:9-19`)
and `Expr::eval` (`src/eval/expr.rs:8-13`) are entered. The functions here do what those of the same name without `C` do.

Simplification: one visit is one step. What is done in addition for each overload tried, `Scope::deep_clone` (`src/resolve/core.rs:37-41`), which
copies the metadata of all nodes resolved so far, is not counted; it is in `Model/Copies`.
-/

namespace Verif

/-- Outcome of a Rust computation, with the number of visits it took. -/
def CRes (α : Type) : Type := Res α × Nat

namespace CRes

/-- The `?` operator. -/
def bind {α β : Type} (x : CRes α) (f : α → CRes β) : CRes β :=
  match x with
  | (.ok a, n) => ((f a).1, n + (f a).2)
  | (.err e, n) => (.err e, n)
  | (.panic, n) => (.panic, n)

instance : Monad CRes where
  pure a := (.ok a, 0)
  bind := bind

/-- A computation without visits. -/
def free {α : Type} (r : Res α) : CRes α := (r, 0)

/-- A computation entered by a visit. -/
def visit {α : Type} (x : CRes α) : CRes α := (x.1, x.2 + 1)

end CRes

/-- `resolve_call_for_func`, `src/resolve/call.rs:58-136`. -/
def resolveCallForFuncC (name : Str) (f : Func) (args : List Expr) (raw : Option (Nat × Toks)) (expected : Option Ty) (sc : Scope)
    (resolveArgs : List (Ty × Nat) → Nat → Scope → CRes (Nat × Scope × List Expr)) : CRes (Nat × Scope × List Expr) := do
  let c ← CRes.free (outCoercion f expected)
  let byCount :=
    if !f.isVariadic && f.args.length == args.length then resolveArgs (f.params args.length) c sc
    else if f.isVariadic && decide (f.args.length ≤ args.length) then resolveArgs (f.params args.length) c sc
    else CRes.free (.err (.signature f.signature (showCall name args raw)))
  match f.rawArg raw with
  | some (id, ts) => do
    let sc' ← CRes.visit (CRes.free (resolveValue id (.raw ts) (some .raw) sc))
    CRes.free (.ok (c, sc', [.value id (.raw ts)]))
  | none => byCount

/-- The loop over the candidate functions, `src/resolve/call.rs:162-177`. -/
def candidatesC (attempt : Func → CRes (Nat × Scope × List Expr)) : List Func → CRes (List Candidate)
  | [] => (.ok [], 0)
  | f :: fs =>
    match attempt f with
    | (.ok (c, sc, args), n) => ((candidatesC attempt fs).1.map (⟨c, sc, f, args⟩ :: ·), n + (candidatesC attempt fs).2)
    | (.err .internal, n) => (.err .internal, n)
    | (.err _, n) => ((candidatesC attempt fs).1, n + (candidatesC attempt fs).2)
    | (.panic, n) => (.panic, n)

mutual
/-- `impl Resolve for Expr`, `src/resolve/expr.rs:9-19`, with `impl Resolve for Call`, `src/resolve/call.rs:143-206`. -/
def Expr.resolveC (env : Env) : Expr → Option Ty → Scope → CRes Scope
  | .value id k, expected, sc => CRes.visit (CRes.free (resolveValue id k expected sc))
  | .call id name args raw, expected, sc => CRes.visit
    (match env.funcs name with
    | none => CRes.free (.err (.undefinedFunction name))
    | some fs => do
      let cs ← candidatesC (fun f => resolveCallForFuncC name f args raw expected sc
        (fun ps c sc => Expr.resolveArgsC env args ps c sc)) fs
      CRes.free (selectCandidate id (.signature (env.prettySig name) (showCall name args raw)) expected cs))
/-- The loops of `resolve_call_for_func` over the arguments with `resolve_arg` (`src/resolve/call.rs:8-48`). -/
def Expr.resolveArgsC (env : Env) : List Expr → List (Ty × Nat) → Nat → Scope → CRes (Nat × Scope × List Expr)
  | e :: es, (t, m) :: ps, c, sc => do
    let sc ← Expr.resolveC env e (some t) sc
    let cost ← CRes.free (recordedCost e sc.md)
    let cost ← CRes.free (u32 (cost * m))
    let c ← CRes.free (u32 (c + cost))
    let (c, sc, rest) ← Expr.resolveArgsC env es ps c sc
    CRes.free (.ok (c, sc, e :: rest))
  | _, _, c, sc => CRes.free (.ok (c, sc, []))
end

/-- `impl Resolve for AliasSpecItem`, `src/resolve/alias_spec_item.rs:9-21`. -/
def resolveItemC (env : Env) (item : Alias × Expr) (sc : Scope) : CRes Scope := do
  let sc ← item.2.resolveC env none sc
  CRes.free (sc.tryAddName item.1.2 item.2.id)

/-- `impl Resolve for AliasSpec`, `src/resolve/alias_spec.rs:9-19`. -/
def resolveSpecC (env : Env) : List (Alias × Expr) → Scope → CRes Scope
  | [], sc => CRes.free (.ok sc)
  | item :: items, sc => do
    let sc ← resolveItemC env item sc
    resolveSpecC env items sc

/-- `.iter().map(f).collect::<Result<Vec<_>, _>>()`, `src/eval/call.rs:19-28`. -/
def mapCRes {α β : Type} (f : α → CRes β) : List α → CRes (List β)
  | [] => CRes.free (.ok [])
  | x :: xs => (f x).bind fun y => (mapCRes f xs).bind fun ys => CRes.free (.ok (y :: ys))

/-- `impl Eval for Expr`, `src/eval/expr.rs:8-13`, with `Call` (`src/eval/call.rs:8-36`) and `Value` (`src/eval/value.rs:8-29`), with fuel as
`evalExpr`. -/
def evalExprC (E : Ext) (env : Env) (m : Metadata) (vars : Vars) : Nat → Expr → CRes VKind
  | 0, _ => CRes.free .panic
  | _ + 1, .value id k => CRes.visit (CRes.free (evalValue E m vars id k))
  | n + 1, .call id _ _ _ => CRes.visit
    (match m.calls id with
    | none => CRes.free (.err .internal)
    | some md => do
      let args ← mapCRes (evalExprC E env m vars n) md.args
      let result ← CRes.free (md.func.impl E env.seed args)
      CRes.free (tryCast E result md.target))

/-- `impl Eval for AliasSpec`, `src/eval/alias_spec.rs:8-19`. -/
def evalSpecC (E : Ext) (env : Env) (m : Metadata) :
    List (Alias × Expr) → Vars → List (Alias × VKind) → CRes (List (Alias × VKind))
  | [], _, bindings => CRes.free (.ok bindings)
  | (alias, e) :: items, vars, bindings => do
    let v ← evalExprC E env m vars e.depth e
    evalSpecC E env m items (vars.add alias.2 v) (insertKey alias v bindings)

/-- `make_substitutions`, `src/interpreter/core.rs:55-78`. -/
def makeSubstitutionsC (E : Ext) (env : Env) (order : List (Alias × VKind) → List (Alias × VKind))
    (items : List (Alias × Expr)) : CRes Subs := do
  let sc ← resolveSpecC env items Scope.empty
  let bindings ← evalSpecC E env sc.md items (fun _ => none) []
  CRes.free (.ok (collectSubs (order bindings) []))

end Verif
