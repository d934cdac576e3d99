import Verif.Model.Interp
/-!
# Where errors point

The phases after parsing once more, now with the spans of the errors (the last field of the variants of `Error`,
`src/error.rs:9-24`, which `Error::span`, lines 27-37, returns and `From<Error> for SynError`, lines 73-78, passes on). The functions here do what
those of the same name without `L` do; only the errors carry in addition the place they point to.

Simplification: a place is the node whose `span()` is taken, not the positions in the source file that make up the span. Inside the block
places are not followed.
-/

namespace Verif

/-- What the span of an error is taken from. -/
inductive Place
  /-- `Span::call_site()`: the whole invocation -/
  | callSite
  /-- the span of the expression with this id: of a call the name of the function (`src/parse/call.rs:13`), of a value its tokens
  (`src/ast/value.rs:263-273`) -/
  | expr (id : Nat)
  /-- the span of a value of a loop, `src/ast/loop_source_value_list.rs:31-38` -/
  | loopValue (v : LoopSourceValue Expr)
  /-- the span of an error of `syn`, `src/ast/value.rs:89` -/
  | syn
  /-- a token of the block, `src/substitution/substitute_idents.rs:48` -/
  | block

/-- Outcome of a Rust computation, as `Res`, with the places of errors. -/
inductive LRes (α : Type) where
  | ok (a : α)
  | err (e : Err) (p : Place)
  | panic

namespace LRes

/-- The `?` operator. -/
def bind {α β} (x : LRes α) (f : α → LRes β) : LRes β :=
  match x with
  | ok a => f a
  | err e p => err e p
  | panic => panic

instance : Monad LRes where
  pure := ok
  bind := bind

/-- The outcome without the place. -/
def forget {α} : LRes α → Res α
  | ok a => .ok a
  | err e _ => .err e
  | panic => .panic

/-- A computation whose errors, if any, point to places given by `p`. -/
def at_ {α} (p : Err → Place) : Res α → LRes α
  | .ok a => ok a
  | .err e => err e (p e)
  | .panic => panic

end LRes

/-- `Scope::try_add_name`, `src/resolve/core.rs:17-23`: `item` is the expression of the new definition
(`src/resolve/alias_spec_item.rs:19`). -/
def Scope.tryAddNameL (sc : Scope) (name : Str) (id : Nat) : LRes Scope :=
  match sc.aliases name with
  | some _ => .err (.redefined name) (.expr id)
  | none => .ok { sc with aliases := fun n => if n = name then some id else sc.aliases n }

/-- `impl Resolve for Value`, `src/resolve/value.rs:9-48`, with `make_coercion_error`, `src/error.rs:43-48`. -/
def resolveValueL (id : Nat) (k : VKind) (expected : Option Ty) (sc : Scope) : LRes Scope :=
  .at_ (fun _ => .callSite) (resolveValue id k expected sc)

/-- `resolve_call_for_func`, `src/resolve/call.rs:58-136`, for the call with the id `id`; coercion errors are made by
`make_coercion_error` (`src/error.rs:43-48`), signature errors by `make_sig_error` (lines 39-41). -/
def resolveCallForFuncL (id : Nat) (name : Str) (f : Func) (args : List Expr) (raw : Option (Nat × Toks)) (expected : Option Ty)
    (sc : Scope) (resolveArgs : List (Ty × Nat) → Nat → Scope → LRes (Nat × Scope × List Expr)) : LRes (Nat × Scope × List Expr) := do
  let c ← LRes.at_ (fun _ => .callSite) (outCoercion f expected)
  let byCount :=
    if !f.isVariadic && f.args.length == args.length then resolveArgs (f.params args.length) c sc
    else if f.isVariadic && decide (f.args.length ≤ args.length) then resolveArgs (f.params args.length) c sc
    else .err (.signature f.signature (showCall name args raw)) (.expr id)
  match f.rawArg raw with
  | some (rid, ts) => do
    let sc' ← resolveValueL rid (.raw ts) (some .raw) sc
    .ok (c, sc', [.value rid (.raw ts)])
  | none => byCount

/-- The loop over the candidate functions, `src/resolve/call.rs:162-177`. -/
def candidatesL (attempt : Func → LRes (Nat × Scope × List Expr)) : List Func → LRes (List Candidate)
  | [] => .ok []
  | f :: fs =>
    match attempt f with
    | .ok (c, sc, args) => (candidatesL attempt fs).bind fun cs => .ok (⟨c, sc, f, args⟩ :: cs)
    | .err .internal p => .err .internal p
    | .err _ _ => candidatesL attempt fs
    | .panic => .panic

mutual
/-- `impl Resolve for Expr`, `src/resolve/expr.rs:9-19`, with `impl Resolve for Call`, `src/resolve/call.rs:143-206`: both errors made
there point to the call, lines 155 and 200. -/
def Expr.resolveL (env : Env) : Expr → Option Ty → Scope → LRes Scope
  | .value id k, expected, sc => resolveValueL id k expected sc
  | .call id name args raw, expected, sc =>
    match env.funcs name with
    | none => .err (.undefinedFunction name) (.expr id)
    | some fs => do
      let cs ← candidatesL (fun f => resolveCallForFuncL id name f args raw expected sc
        (fun ps c sc => Expr.resolveArgsL env args ps c sc)) fs
      LRes.at_ (fun _ => .expr id) (selectCandidate id (.signature (env.prettySig name) (showCall name args raw)) expected cs)
/-- The loops of `resolve_call_for_func` over the arguments with `resolve_arg` (`src/resolve/call.rs:8-48`); internal errors have no
span of their own (`src/error.rs:35`). -/
def Expr.resolveArgsL (env : Env) : List Expr → List (Ty × Nat) → Nat → Scope → LRes (Nat × Scope × List Expr)
  | e :: es, (t, m) :: ps, c, sc => do
    let sc ← Expr.resolveL env e (some t) sc
    let cost ← LRes.at_ (fun _ => .callSite) (recordedCost e sc.md)
    let cost ← LRes.at_ (fun _ => .callSite) (u32 (cost * m))
    let c ← LRes.at_ (fun _ => .callSite) (u32 (c + cost))
    let (c, sc, rest) ← Expr.resolveArgsL env es ps c sc
    .ok (c, sc, e :: rest)
  | _, _, c, sc => .ok (c, sc, [])
end

/-- `impl Resolve for AliasSpecItem`, `src/resolve/alias_spec_item.rs:9-21`. -/
def resolveItemL (env : Env) (item : Alias × Expr) (sc : Scope) : LRes Scope := do
  let sc ← item.2.resolveL env none sc
  sc.tryAddNameL item.1.2 item.2.id

/-- `impl Resolve for AliasSpec`, `src/resolve/alias_spec.rs:9-19`. -/
def resolveSpecL (env : Env) : List (Alias × Expr) → Scope → LRes Scope
  | [], sc => .ok sc
  | item :: items, sc => do
    let sc ← resolveItemL env item sc
    resolveSpecL env items sc

/-- `.iter().map(f).collect::<Result<Vec<_>, _>>()`, `src/eval/call.rs:19-28`. -/
def mapLRes {α β : Type} (f : α → LRes β) : List α → LRes (List β)
  | [] => .ok []
  | x :: xs => (f x).bind fun y => (mapLRes f xs).bind fun ys => .ok (y :: ys)

/-- The place of an error of a built-in function which is given the span of the call `id` (`src/eval/call.rs:32`): an `EvalError` is made with that
span (`src/core/environment/init_funcs.rs:304-316`); the functions which cast (lines 380-470) pass on the error of `try_cast`, made with the span of the
error of `syn` (`src/ast/value.rs:86-90`; or of a message, line 97, which is the call site, a difference dropped here). -/
def implPlace (id : Nat) : Err → Place
  | .typeError _ => .syn
  | _ => .expr id

/-- `impl Eval for Expr`, `src/eval/expr.rs:8-13`, with `Call` (`src/eval/call.rs:8-36`) and `Value` (`src/eval/value.rs:8-29`), with fuel as
`evalExpr`. -/
def evalExprL (E : Ext) (env : Env) (m : Metadata) (vars : Vars) : Nat → Expr → LRes VKind
  | 0, _ => .panic
  | _ + 1, .value id k => .at_ (fun _ => .callSite) (evalValue E m vars id k)
  | n + 1, .call id _ _ _ =>
    match m.calls id with
    | none => .err .internal .callSite
    | some md => do
      let args ← mapLRes (evalExprL E env m vars n) md.args
      let result ← LRes.at_ (implPlace id) (md.func.impl E env.seed args)
      LRes.at_ (implPlace id) (tryCast E result md.target)

/-- `impl Eval for AliasSpec`, `src/eval/alias_spec.rs:8-19`. -/
def evalSpecL (E : Ext) (env : Env) (m : Metadata) :
    List (Alias × Expr) → Vars → List (Alias × VKind) → LRes (List (Alias × VKind))
  | [], _, bindings => .ok bindings
  | (alias, e) :: items, vars, bindings => do
    let v ← evalExprL E env m vars e.depth e
    evalSpecL E env m items (vars.add alias.2 v) (insertKey alias v bindings)

/-- `make_substitutions`, `src/interpreter/core.rs:55-78`. -/
def makeSubstitutionsL (E : Ext) (env : Env) (order : List (Alias × VKind) → List (Alias × VKind))
    (items : List (Alias × Expr)) : LRes Subs := do
  let sc ← resolveSpecL env items Scope.empty
  let bindings ← evalSpecL E env sc.md items (fun _ => none) []
  .ok (collectSubs (order bindings) [])

/-- `make_spec_items`, `src/expand/raw_ast.rs:41-73`, with `match_tuples`, lines 13-38: the errors point to the value (lines 18, 32
and 68). -/
def makeSpecItemsL {α : Type} (a : LoopAlias α) (v : LoopSourceValue Expr) : LRes (List (α × Expr)) :=
  .at_ (fun _ => .loopValue v) (makeSpecItems a v)

/-- The inner loop of `expand`, `src/expand/raw_ast.rs:102-106`. -/
def loopSpecItemsL {α : Type} : List (LoopAlias α × List (LoopSourceValue Expr)) → List (LoopSourceValue Expr) → LRes (List (α × Expr))
  | l :: ls, v :: vs => do
    let items ← makeSpecItemsL l.1 v
    let rest ← loopSpecItemsL ls vs
    .ok (items ++ rest)
  | _, _ => .ok []

/-- The outer loop of `expand`, lines 100-119. -/
def expandLoopL {α β : Type} (loops : List (LoopAlias α × List (LoopSourceValue Expr))) (spec : Option (AliasSpec α Expr)) (block : β) :
    Nat → CrossProduct (LoopSourceValue Expr) → LRes (List (BlockRewrite α Expr β))
  | 0, _ => .panic
  | n + 1, cp => do
    let (r, cp') ← LRes.at_ (fun _ => .callSite) cp.next
    match r with
    | none => .ok []
    | some vals => do
      let items ← loopSpecItemsL loops vals
      let br : BlockRewrite α Expr β :=
        match spec with
        | some s => ⟨⟨items ++ s.items, s.isCommaUsed⟩, block⟩
        | none => ⟨⟨items, none⟩, block⟩
      let rest ← expandLoopL loops spec block n cp'
      .ok (br :: rest)

/-- `impl Expand for RawAST`, lines 78-123. -/
def expandL {α β : Type} (ast : RawAst α Expr β) : LRes (List (BlockRewrite α Expr β)) :=
  match ast.loops with
  | none => .ok [⟨ast.spec.getD ⟨[], none⟩, ast.block⟩]
  | some loops =>
    let perLoop := loops.map (·.2)
    expandLoopL loops ast.spec ast.block ((perLoop.map List.length).foldr (· * ·) 1 + 1) (CrossProduct.fromVecs perLoop)

/-- `execute_block_rewrite`, `src/interpreter/core.rs:95-106`; the errors of `substitute` point to the block
(`src/substitution/substitute_idents.rs:83-88`). -/
def executeBlockRewriteL (W : World) (env : Env) (order : List (Alias × VKind) → List (Alias × VKind)) (cell : ThreadCell)
    (br : BlockRewrite Alias Expr (List Stmt)) : LRes Toks := do
  let subs ← makeSubstitutionsL W.E env order br.spec.items
  .at_ (fun _ => .block) (substitute W cell br.block subs)

/-- The loop of `execute`, lines 115-118, and the concatenation, line 120. -/
def executeAllL (W : World) (env : Env) (orders : Orders) (cell : ThreadCell) : Nat → List (BlockRewrite Alias Expr (List Stmt)) → LRes Toks
  | _, [] => .ok []
  | n, br :: brs => do
    let ts ← executeBlockRewriteL W env (orders n) cell br
    let rest ← executeAllL W env orders cell (n + 1) brs
    .ok (ts ++ rest)

/-- `execute`, lines 108-121. -/
def executeL (W : World) (env : Env) (orders : Orders) (cell : ThreadCell) (args : RawAst Alias Expr (List Stmt)) : LRes Toks := do
  let expanded ← expandL args
  executeAllL W env orders cell 0 expanded

end Verif
