import Verif.Model.Interp
/-!
# The macro built without overflow checks

In the release profile (and wherever `overflow-checks` and `debug-assertions` are off) the arithmetic on `u32` wraps around instead of panicking, and
`debug_assert!` does nothing. The assertions (`src/core/type_.rs:84-108`, `src/resolve/call.rs:91-94`) hold for all functions there are, see
`Model/Declare` and `C89_declared`, so that only the costs of overloads are different: `src/resolve/call.rs:43`. (Line 76 adds to zero. The other
additions of the crate are of lengths and indices, which memory bounds.) The functions here do what those of the same name without `R` do.
-/

namespace Verif

/-- Arithmetic on `u32` without overflow checks. -/
def wrap32 (n : Nat) : Nat := n % 2 ^ 32

mutual
/-- `impl Resolve for Expr`, `src/resolve/expr.rs:9-19`, with `impl Resolve for Call`, `src/resolve/call.rs:143-206`. -/
def Expr.resolveR (env : Env) : Expr → Option Ty → Scope → Res Scope
  | .value id k, expected, sc => resolveValue id k expected sc
  | .call id name args raw, expected, sc =>
    match env.funcs name with
    | none => .err (.undefinedFunction name)
    | some fs => do
      let cs ← candidates (fun f => resolveCallForFunc name f args raw expected sc
        (fun ps c sc => Expr.resolveArgsR env args ps c sc)) fs
      selectCandidate id (.signature (env.prettySig name) (showCall name args raw)) expected cs
/-- The loops of `resolve_call_for_func` over the arguments with `resolve_arg` (`src/resolve/call.rs:8-48`). -/
def Expr.resolveArgsR (env : Env) : List Expr → List (Ty × Nat) → Nat → Scope → Res (Nat × Scope × List Expr)
  | e :: es, (t, m) :: ps, c, sc => do
    let sc ← Expr.resolveR env e (some t) sc
    let cost ← recordedCost e sc.md
    let (c, sc, rest) ← Expr.resolveArgsR env es ps (wrap32 (c + wrap32 (cost * m))) sc
    .ok (c, sc, e :: rest)
  | _, _, c, sc => .ok (c, sc, [])
end

/-- `impl Resolve for AliasSpecItem`, `src/resolve/alias_spec_item.rs:9-21`. -/
def resolveItemR (env : Env) (item : Alias × Expr) (sc : Scope) : Res Scope := do
  let sc ← item.2.resolveR env none sc
  sc.tryAddName item.1.2 item.2.id

/-- `impl Resolve for AliasSpec`, `src/resolve/alias_spec.rs:9-19`. -/
def resolveSpecR (env : Env) : List (Alias × Expr) → Scope → Res Scope
  | [], sc => .ok sc
  | item :: items, sc => do
    let sc ← resolveItemR env item sc
    resolveSpecR env items sc

/-- `make_substitutions`, `src/interpreter/core.rs:55-78`. -/
def makeSubstitutionsR (E : Ext) (env : Env) (order : List (Alias × VKind) → List (Alias × VKind))
    (items : List (Alias × Expr)) : Res Subs := do
  let sc ← resolveSpecR env items Scope.empty
  let bindings ← evalSpec E env sc.md items (fun _ => none) []
  .ok (collectSubs (order bindings) [])

/-- `execute_block_rewrite`, `src/interpreter/core.rs:95-106`. -/
def executeBlockRewriteR (W : World) (env : Env) (order : List (Alias × VKind) → List (Alias × VKind)) (cell : ThreadCell)
    (br : BlockRewrite Alias Expr (List Stmt)) : Res Toks := do
  let subs ← makeSubstitutionsR W.E env order br.spec.items
  substitute W cell br.block subs

/-- The loop of `execute`, lines 115-118, and the concatenation, line 120. -/
def executeAllR (W : World) (env : Env) (orders : Orders) (cell : ThreadCell) : Nat → List (BlockRewrite Alias Expr (List Stmt)) → Res Toks
  | _, [] => .ok []
  | n, br :: brs => do
    let ts ← executeBlockRewriteR W env (orders n) cell br
    let rest ← executeAllR W env orders cell (n + 1) brs
    .ok (ts ++ rest)

/-- `execute`, lines 108-121. -/
def executeR (W : World) (env : Env) (orders : Orders) (cell : ThreadCell) (args : RawAst Alias Expr (List Stmt)) : Res Toks := do
  let expanded ← expand args
  executeAllR W env orders cell 0 expanded

/-- The part of `compose_core` after parsing, `src/lib.rs:61-67`. -/
def finishR (W : World) (env : Env) (orders : Orders) (cell : ThreadCell) : Res PAst → Output
  | .ok args => .ofRes (executeR W env orders cell args.forget)
  | .err e => .compileError e
  | .panic => .panicked

/-- `compose_core`, `src/lib.rs:31-68`. -/
def composeCoreR (W : World) (ids : Nat → Nat) (orders : Orders) (inv : Invocation) (t : Thread) : Output × Thread :=
  match (t.cell.maybeSet (Service.new inv.pre)).scoped with
  | .ok cell =>
    let env := Env.builtin (ids 0)
    let global := t.env.getD env
    let r := parseArgs W.Y global.hasFunc ids setupDraws cell inv
    (finishR W env orders r.2.2 r.1, ⟨r.2.2.dropScope, some global⟩)
  | _ => (.panicked, t)

/-- The invocations on one thread, one after the other: their outputs, and the thread afterwards. -/
def runAllR (W : World) : List (Invocation × Luck) → Thread → List Output × Thread
  | [], t => ([], t)
  | (inv, l) :: rest, t =>
    let r := composeCoreR W l.ids l.orders inv t
    let rs := runAllR W rest r.2
    (r.1 :: rs.1, rs.2)

end Verif
