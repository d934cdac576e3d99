import Verif.Model.Resolve
/-!
# What is copied

The resolve phase once more, now with the list of the scopes that are copied: what `Scope::deep_clone` (`src/resolve/core.rs:37-41`) is called on, which is done
once for each overload tried (`src/resolve/call.rs:163`) and nowhere else. The functions here do what those of the same name without `T` do.

Simplification: a copy is listed as the scope that is copied; how a `HashMap` is copied is not modelled.
-/

namespace Verif

/-- Outcome of a Rust computation, with the scopes copied on the way. -/
def TRes (α : Type) : Type := Res α × List Scope

namespace TRes

/-- The `?` operator. -/
def bind {α β : Type} (x : TRes α) (f : α → TRes β) : TRes β :=
  match x with
  | (.ok a, l) => ((f a).1, l ++ (f a).2)
  | (.err e, l) => (.err e, l)
  | (.panic, l) => (.panic, l)

instance : Monad TRes where
  pure a := (.ok a, [])
  bind := bind

/-- A computation that copies nothing. -/
def free {α : Type} (r : Res α) : TRes α := (r, [])

end TRes

/-- `resolve_call_for_func`, `src/resolve/call.rs:58-136`. -/
def resolveCallForFuncT (name : Str) (f : Func) (args : List Expr) (raw : Option (Nat × Toks)) (expected : Option Ty) (sc : Scope)
    (resolveArgs : List (Ty × Nat) → Nat → Scope → TRes (Nat × Scope × List Expr)) : TRes (Nat × Scope × List Expr) := do
  let c ← TRes.free (outCoercion f expected)
  let byCount :=
    if !f.isVariadic && f.args.length == args.length then resolveArgs (f.params args.length) c sc
    else if f.isVariadic && decide (f.args.length ≤ args.length) then resolveArgs (f.params args.length) c sc
    else TRes.free (.err (.signature f.signature (showCall name args raw)))
  match f.rawArg raw with
  | some (id, ts) => do
    let sc' ← TRes.free (resolveValue id (.raw ts) (some .raw) sc)
    TRes.free (.ok (c, sc', [.value id (.raw ts)]))
  | none => byCount

/-- The loop over the candidate functions, `src/resolve/call.rs:162-177`. The scope `sc` is copied for each (line 163). -/
def candidatesT (sc : Scope) (attempt : Func → TRes (Nat × Scope × List Expr)) : List Func → TRes (List Candidate)
  | [] => (.ok [], [])
  | f :: fs =>
    match attempt f with
    | (.ok (c, sc', args), l) => ((candidatesT sc attempt fs).1.map (⟨c, sc', f, args⟩ :: ·), sc :: l ++ (candidatesT sc attempt fs).2)
    | (.err .internal, l) => (.err .internal, sc :: l)
    | (.err _, l) => ((candidatesT sc attempt fs).1, sc :: l ++ (candidatesT sc attempt fs).2)
    | (.panic, l) => (.panic, sc :: l)

mutual
/-- `impl Resolve for Expr`, `src/resolve/expr.rs:9-19`, with `impl Resolve for Call`, `src/resolve/call.rs:143-206`. -/
def Expr.resolveT (env : Env) : Expr → Option Ty → Scope → TRes Scope
  | .value id k, expected, sc => TRes.free (resolveValue id k expected sc)
  | .call id name args raw, expected, sc =>
    match env.funcs name with
    | none => TRes.free (.err (.undefinedFunction name))
    | some fs => do
      let cs ← candidatesT sc (fun f => resolveCallForFuncT name f args raw expected sc
        (fun ps c sc => Expr.resolveArgsT env args ps c sc)) fs
      TRes.free (selectCandidate id (.signature (env.prettySig name) (showCall name args raw)) expected cs)
/-- The loops of `resolve_call_for_func` over the arguments with `resolve_arg` (`src/resolve/call.rs:8-48`). -/
def Expr.resolveArgsT (env : Env) : List Expr → List (Ty × Nat) → Nat → Scope → TRes (Nat × Scope × List Expr)
  | e :: es, (t, m) :: ps, c, sc => do
    let sc ← Expr.resolveT env e (some t) sc
    let cost ← TRes.free (recordedCost e sc.md)
    let cost ← TRes.free (u32 (cost * m))
    let c ← TRes.free (u32 (c + cost))
    let (c, sc, rest) ← Expr.resolveArgsT env es ps c sc
    TRes.free (.ok (c, sc, e :: rest))
  | _, _, c, sc => TRes.free (.ok (c, sc, []))
end

/-- `impl Resolve for AliasSpecItem`, `src/resolve/alias_spec_item.rs:9-21`. -/
def resolveItemT (env : Env) (item : Alias × Expr) (sc : Scope) : TRes Scope := do
  let sc ← item.2.resolveT env none sc
  TRes.free (sc.tryAddName item.1.2 item.2.id)

/-- `impl Resolve for AliasSpec`, `src/resolve/alias_spec.rs:9-19`. -/
def resolveSpecT (env : Env) : List (Alias × Expr) → Scope → TRes Scope
  | [], sc => TRes.free (.ok sc)
  | item :: items, sc => do
    let sc ← resolveItemT env item sc
    resolveSpecT env items sc

end Verif
