import Verif.Model.Eval
import Verif.Model.Visitor
import Verif.Model.Parse
import Verif.Model.UniqueId
/-!
# The interpreter (`src/interpreter/core.rs`) and the entry points (`src/lib.rs`)
-/

namespace Verif

/-- What the crate uses from outside: strings and tokens, the grammar of Rust, and where items are inside a piece of code. -/
structure World where
  E : Ext
  Y : Syn
  sites : Sites

/-- Iteration orders of the hash maps of bindings, one for each copy of the block (they are random). -/
abbrev Orders := Nat → List (Alias × VKind) → List (Alias × VKind)

section
variable (W : World)

/-- `substitute`, `src/interpreter/core.rs:80-93`, and the printing of the statements, lines 104-105. -/
def substitute (cell : ThreadCell) (block : List Stmt) (subs : Subs) : Res Toks := do
  let stmts ← visitBlock W.E W.Y.toGrammar subs block
  .ok (cstsPrint (cell.emit W.E.strRepr (stmtsCst W.sites stmts)))

/-- `execute_block_rewrite`, lines 95-106. -/
def executeBlockRewrite (env : Env) (order : List (Alias × VKind) → List (Alias × VKind)) (cell : ThreadCell)
    (br : BlockRewrite Alias Expr (List Stmt)) : Res Toks := do
  let subs ← makeSubstitutions W.E env order br.spec.items
  substitute W cell br.block subs

/-- The loop of `execute`, lines 115-118, and the concatenation, line 120; `n` copies have been made before. -/
def executeAll (env : Env) (orders : Orders) (cell : ThreadCell) : Nat → List (BlockRewrite Alias Expr (List Stmt)) → Res Toks
  | _, [] => .ok []
  | n, br :: brs => do
    let ts ← executeBlockRewrite W env (orders n) cell br
    let rest ← executeAll env orders cell (n + 1) brs
    .ok (ts ++ rest)

/-- `execute`, lines 108-121. Ids drawn in this phase, for nodes made by `expand` and for computed values, are not followed:
nothing reads them. -/
def execute (env : Env) (orders : Orders) (cell : ThreadCell) (args : RawAst Alias Expr (List Stmt)) : Res Toks := do
  let expanded ← expand args
  executeAll W env orders cell 0 expanded

end

/-- An invocation of one of the three macros, `src/lib.rs:104-106`, `144-146` and `192-194`. -/
inductive Invocation
  | compose (input : Toks)
  | composeIdents (input : Toks)
  | composeItem (attr item : Toks)

/-- The prefix for warnings, `src/lib.rs:105`, `145`, `193`. -/
def Invocation.pre : Invocation → Str
  | .compose _ => S "compose!: "
  | .composeIdents _ => S "compose_idents!: "
  | .composeItem _ _ => S "compose_item!: "

/-- The thread-local state: `GLOBAL_DEPRECATION_SERVICE` (`src/util/deprecation.rs:12-14`) and `GLOBAL_ENVIRONMENT`
(`src/core/environment/core.rs:19-21`). -/
structure Thread where
  cell : ThreadCell
  env : Option Env

/-- A thread on which no macro has run yet. -/
def Thread.fresh : Thread := ⟨none, none⟩

/-- The output of a macro: tokens, the tokens of a compile error, or a panic, which the compiler reports as an error. -/
inductive Output
  | tokens (ts : Toks)
  | compileError (e : Err)
  | panicked
  deriving DecidableEq

/-- `src/lib.rs:61-67`. -/
def Output.ofRes : Res Toks → Output
  | .ok ts => .tokens ts
  | .err e => .compileError e
  | .panic => .panicked

/-- The decorated item as the block, `src/lib.rs:50-58`, with `from_compose_item_spec`, `src/ast/raw_ast.rs:48-55`. -/
def withItem (Y : Syn) (item : Toks) : Res PAst → Res PAst
  | .ok spec =>
    match Y.parseBlock item with
    | some block => .ok { spec with block }
    | none => .err .parse
  | .err e => .err e
  | .panic => .panic

/-- `let args = match invocation { … }`, `src/lib.rs:41-60`. -/
def parseArgs (Y : Syn) (known : Str → Bool) (ids : Nat → Nat) (k : Nat) (cell : ThreadCell) :
    Invocation → Res PAst × Nat × ThreadCell
  | .compose ts => parseRawAst Y known ids ts k cell
  | .composeIdents ts => parseRawAst Y known ids ts k cell
  | .composeItem attr item =>
    let r := parseAttr Y known ids attr k cell
    (withItem Y item r.1, r.2)

/-- `has_func`, `src/core/environment/core.rs:37-39`. -/
def Env.hasFunc (env : Env) (name : Str) : Bool := (env.funcs name).isSome

/-- The number of ids drawn before parsing: one for the seed (`src/lib.rs:36`) and one for each function
(`src/core/type_.rs:113`). -/
def setupDraws : Nat := 1 + builtins.length

/-- The part of `compose_core` after parsing, `src/lib.rs:61-67`. -/
def finish (W : World) (env : Env) (orders : Orders) (cell : ThreadCell) : Res PAst → Output
  | .ok args => .ofRes (execute W env orders cell args.forget)
  | .err e => .compileError e
  | .panic => .panicked

/-- `compose_core`, `src/lib.rs:31-68`. `ids` are the ids this invocation gets. The scope of the deprecation service is dropped on
every way out: with the interpreter, which `execute` takes, on an early return, and when a panic unwinds. -/
def composeCore (W : World) (ids : Nat → Nat) (orders : Orders) (inv : Invocation) (t : Thread) : Output × Thread :=
  match (t.cell.maybeSet (Service.new inv.pre)).scoped with
  | .ok cell =>
    let env := Env.builtin (ids 0)
    let global := t.env.getD env
    let r := parseArgs W.Y global.hasFunc ids setupDraws cell inv
    (finish W env orders r.2.2 r.1, ⟨r.2.2.dropScope, some global⟩)
  | _ => (.panicked, t)

/-- What is random about an invocation: the ids it gets, and the iteration orders of its hash maps. -/
structure Luck where
  ids : Nat → Nat
  orders : Orders

/-- The invocations on one thread, one after the other: their outputs, and the thread afterwards. -/
def runAll (W : World) : List (Invocation × Luck) → Thread → List Output × Thread
  | [], t => ([], t)
  | (inv, l) :: rest, t =>
    let r := composeCore W l.ids l.orders inv t
    let rs := runAll W rest r.2
    (r.1 :: rs.1, rs.2)

end Verif
