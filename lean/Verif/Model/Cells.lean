import Verif.Model.Eval
/-!
# The metadata as it is shared in memory

`Model/Resolve` and `Model/Eval` pass the metadata around by value. In the code it lies in memory behind an `Rc<RefCell<_>>`
(`src/resolve/core.rs:9-41`, `src/eval/core.rs:19-56`): who holds it sees what others write, and reading or writing it while another part
of the program writes it panics. This is modelled here, statement by statement; what does not touch the metadata is taken from the other
modules.

Simplifications: memory is never freed; after an error, `&mut Scope` is not read again by any caller, so that only a successful resolution
returns the scope.
-/

namespace Verif

/-- The borrow state of a `RefCell`: so many `Ref`s, or one `RefMut`, are alive. -/
inductive Flag
  | shared (n : Nat)
  | exclusive
  deriving DecidableEq

/-- A `RefCell<AstMetadata>`. -/
structure RCell where
  content : Metadata
  flag : Flag

/-- The cells in memory. An `Rc<RefCell<AstMetadata>>` is the position of its cell; clones of it are equal. -/
abbrev Heap := List RCell

/-- How a computation ends: `conflict` is the panic of `RefCell::borrow` or `RefCell::borrow_mut` on a cell that is borrowed otherwise. -/
inductive Out (α : Type) where
  | ok (a : α)
  | err (e : Err)
  | panic
  | conflict
  deriving DecidableEq

/-- Computations which read and write cells. -/
def Mem (α : Type) := Heap → Out α × Heap

namespace Mem

def pure {α : Type} (a : α) : Mem α := fun h => (.ok a, h)

/-- The `?` operator; panics go on. -/
def bind {α β : Type} (x : Mem α) (f : α → Mem β) : Mem β := fun h =>
  match x h with
  | (.ok a, h) => f a h
  | (.err e, h) => (.err e, h)
  | (.panic, h) => (.panic, h)
  | (.conflict, h) => (.conflict, h)

instance : Monad Mem where
  pure := pure
  bind := bind

/-- A computation without cells. -/
def lift {α : Type} (x : Res α) : Mem α := fun h =>
  match x with
  | .ok a => (.ok a, h)
  | .err e => (.err e, h)
  | .panic => (.panic, h)

/-- A call whose `Result` is looked at. -/
def result {α : Type} (x : Mem α) : Mem (Except Err α) := fun h =>
  match x h with
  | (.ok a, h) => (.ok (.ok a), h)
  | (.err e, h) => (.ok (.error e), h)
  | (.panic, h) => (.panic, h)
  | (.conflict, h) => (.conflict, h)

/-- `Rc::new(RefCell::new(content))`. -/
def alloc (content : Metadata) : Mem Nat := fun h => (.ok h.length, h ++ [⟨content, .shared 0⟩])

/-- Sets the borrow state of a cell. -/
def setFlag (r : Nat) (f : Flag) (h : Heap) : Heap := h.modify r (fun c => { c with flag := f })

/-- When a `Ref` is dropped. -/
def dropRef (r : Nat) (h : Heap) : Heap := h.modify r (fun c => match c.flag with
  | .shared n => { c with flag := .shared (n - 1) }
  | .exclusive => c)

/-- `let guard = cell.borrow(); body`, up to the end of the block: `body` gets what the guard shows. The guard is dropped on every way out. -/
def borrow {α : Type} (r : Nat) (body : Metadata → Mem α) : Mem α := fun h =>
  match h[r]? with
  | some ⟨m, .shared n⟩ =>
    let (o, h) := body m (setFlag r (.shared (n + 1)) h)
    (o, dropRef r h)
  | _ => (.conflict, h)

/-- `let mut guard = cell.borrow_mut(); body`, up to the end of the block. Nobody else can write the cell while the guard is alive, so that
`body` gets the content once, and returns what it has written, if it has. -/
def borrowMut {α : Type} (r : Nat) (body : Metadata → Mem (α × Option Metadata)) : Mem α := fun h =>
  match h[r]? with
  | some ⟨m, .shared 0⟩ =>
    match body m (setFlag r .exclusive h) with
    | (.ok (a, some m'), h) => (.ok a, h.modify r (fun _ => ⟨m', .shared 0⟩))
    | (.ok (a, none), h) => (.ok a, setFlag r (.shared 0) h)
    | (.err e, h) => (.err e, setFlag r (.shared 0) h)
    | (.panic, h) => (.panic, setFlag r (.shared 0) h)
    | (.conflict, h) => (.conflict, setFlag r (.shared 0) h)
  | _ => (.conflict, h)

end Mem

/-- `Scope`, `src/resolve/core.rs:9-13`, with the metadata behind an `Rc`. -/
structure ScopeRef where
  aliases : Str → Option Nat
  cell : Nat

/-- `Scope::default`. -/
def ScopeRef.new : Mem ScopeRef := do
  let r ← Mem.alloc Metadata.empty
  return ⟨fun _ => none, r⟩

/-- `Scope::deep_clone`, `src/resolve/core.rs:37-41`. -/
def ScopeRef.deepClone (sc : ScopeRef) : Mem ScopeRef := do
  let m ← Mem.borrow sc.cell (fun m => pure m)
  let r ← Mem.alloc m
  return ⟨sc.aliases, r⟩

/-- `Scope::try_add_name`, `src/resolve/core.rs:17-23`. -/
def ScopeRef.tryAddName (sc : ScopeRef) (name : Str) (id : Nat) : Mem ScopeRef :=
  match sc.aliases name with
  | some _ => Mem.lift (.err (.redefined name))
  | none => pure { sc with aliases := fun n => if n = name then some id else sc.aliases n }

namespace Cells

/-- `impl Resolve for Value`, `src/resolve/value.rs:9-48`: the `RefMut` of line 15 lives to the end. -/
def resolveValue (id : Nat) (k : VKind) (expected : Option Ty) (sc : ScopeRef) : Mem ScopeRef := do
  Mem.borrowMut sc.cell fun m => do
    let from_ ← Mem.lift (valueFromType k ⟨sc.aliases, m⟩)
    let expected := expected.getD from_
    match coercionCost from_ expected with
    | some c => return ((), some (m.setValue id ⟨expected, c⟩))
    | none => Mem.lift (.err (.typeError (.coercion k.ty expected)))
  return sc

/-- The second half of `resolve_arg`, `src/resolve/call.rs:23-48`: the `RefMut` of line 23 lives to the end. -/
def addCost (arg : Expr) (mult : Nat) (c : Nat) (sc : ScopeRef) : Mem Nat :=
  Mem.borrowMut sc.cell fun m => do
    let cost ← Mem.lift (recordedCost arg m)
    let cost ← Mem.lift (u32 (cost * mult))
    let c ← Mem.lift (u32 (c + cost))
    return (c, none)

/-- `resolve_call_for_func`, `src/resolve/call.rs:58-136`, around the resolution of the arguments. -/
def resolveCallForFunc (name : Str) (f : Func) (args : List Expr) (raw : Option (Nat × Toks)) (expected : Option Ty) (sc : ScopeRef)
    (resolveArgs : List (Ty × Nat) → Nat → ScopeRef → Mem (Nat × ScopeRef × List Expr)) : Mem (Nat × ScopeRef × List Expr) := do
  let c ← Mem.lift (outCoercion f expected)
  match f.rawArg raw with
  | some (id, ts) => do
    let sc' ← resolveValue id (.raw ts) (some .raw) sc
    return (c, sc', [.value id (.raw ts)])
  | none =>
    if !f.isVariadic && f.args.length == args.length then resolveArgs (f.params args.length) c sc
    else if f.isVariadic && decide (f.args.length ≤ args.length) then resolveArgs (f.params args.length) c sc
    else Mem.lift (.err (.signature f.signature (showCall name args raw)))

/-- `FuncResolutionMetadata`, `src/resolve/call.rs:138`. -/
structure Candidate where
  cost : Nat
  scope : ScopeRef
  func : Func
  args : List Expr

/-- The key of a candidate, `src/resolve/call.rs:180`, does not depend on the scope. -/
def Candidate.le (a b : Candidate) : Bool :=
  Verif.Candidate.le ⟨a.cost, Scope.empty, a.func, a.args⟩ ⟨b.cost, Scope.empty, b.func, b.args⟩

/-- Insertion into a sorted list. -/
def insertByKey (x : Candidate) : List Candidate → List Candidate
  | [] => [x]
  | y :: ys => if x.le y then x :: y :: ys else y :: insertByKey x ys

/-- `sort_by_key`, `src/resolve/call.rs:180`. -/
def sortByKey : List Candidate → List Candidate
  | [] => []
  | x :: xs => insertByKey x (sortByKey xs)

/-- The loop over the candidate functions, `src/resolve/call.rs:164-177`. -/
def candidates (sc : ScopeRef) (attempt : Func → ScopeRef → Mem (Nat × ScopeRef × List Expr)) : List Func → Mem (List Candidate)
  | [] => pure []
  | f :: fs => do
    let clone ← sc.deepClone
    match ← Mem.result (attempt f clone) with
    | .ok (c, sc', args) =>
      let rest ← candidates sc attempt fs
      return ⟨c, sc', f, args⟩ :: rest
    | .error .internal => Mem.lift (.err .internal)
    | .error _ => candidates sc attempt fs

/-- The end of `Call::resolve`, `src/resolve/call.rs:178-205`. The `RefMut` of line 184 lives for one statement; line 191 replaces the scope. -/
def selectCandidate (id : Nat) (refusal : Err) (expected : Option Ty) (cs : List Candidate) : Mem ScopeRef :=
  match sortByKey cs with
  | [] => Mem.lift (.err refusal)
  | c :: _ => do
    Mem.borrowMut c.scope.cell fun m => return ((), some (m.setCall id ⟨c.args, c.func, expected.getD c.func.out, c.cost⟩))
    return c.scope

mutual
/-- `impl Resolve for Expr`, `src/resolve/expr.rs:9-19`, with `impl Resolve for Call`, `src/resolve/call.rs:143-206`. -/
def resolve (env : Env) : Expr → Option Ty → ScopeRef → Mem ScopeRef
  | .value id k, expected, sc => resolveValue id k expected sc
  | .call id name args raw, expected, sc =>
    match env.funcs name with
    | none => Mem.lift (.err (.undefinedFunction name))
    | some fs => do
      let cs ← candidates sc (fun f sc => resolveCallForFunc name f args raw expected sc
        (fun ps c sc => resolveArgs env args ps c sc)) fs
      selectCandidate id (.signature (env.prettySig name) (showCall name args raw)) expected cs
/-- The loops of `resolve_call_for_func` over the arguments with `resolve_arg` (`src/resolve/call.rs:8-48`). -/
def resolveArgs (env : Env) : List Expr → List (Ty × Nat) → Nat → ScopeRef → Mem (Nat × ScopeRef × List Expr)
  | e :: es, (t, m) :: ps, c, sc => do
    let sc ← resolve env e (some t) sc
    let c ← addCost e m c sc
    let (c, sc, rest) ← resolveArgs env es ps c sc
    return (c, sc, e :: rest)
  | _, _, c, sc => return (c, sc, [])
end

/-- `impl Resolve for AliasSpecItem`, `src/resolve/alias_spec_item.rs:9-21`. -/
def resolveItem (env : Env) (item : Alias × Expr) (sc : ScopeRef) : Mem ScopeRef := do
  let sc ← resolve env item.2 none sc
  sc.tryAddName item.1.2 item.2.id

/-- `impl Resolve for AliasSpec`, `src/resolve/alias_spec.rs:9-19`. -/
def resolveSpec (env : Env) : List (Alias × Expr) → ScopeRef → Mem ScopeRef
  | [], sc => pure sc
  | item :: items, sc => do
    let sc ← resolveItem env item sc
    resolveSpec env items sc

/-- `impl Eval for Value`, `src/eval/value.rs:8-29`: the `Ref` of line 9 lives to the end. -/
def evalValue (E : Ext) (cell : Nat) (vars : Vars) (id : Nat) (k : VKind) : Mem VKind :=
  Mem.borrow cell fun m => Mem.lift (Verif.evalValue E m vars id k)

/-- `.iter().map(f).collect::<Result<Vec<_>, _>>()`, `src/eval/call.rs:19-28`. -/
def mapMem {α β : Type} (f : α → Mem β) : List α → Mem (List β)
  | [] => pure []
  | x :: xs => do
    let y ← f x
    let ys ← mapMem f xs
    return y :: ys

/-- `impl Eval for Expr`, `src/eval/expr.rs:8-13`, with `impl Eval for Call`, `src/eval/call.rs:8-36`: the `Ref` of line 10 is alive while the
arguments are evaluated. The fuel is as in `Verif.evalExpr`. -/
def evalExpr (E : Ext) (env : Env) (cell : Nat) (vars : Vars) : Nat → Expr → Mem VKind
  | 0, _ => Mem.lift .panic
  | _ + 1, .value id k => evalValue E cell vars id k
  | n + 1, .call id _ _ _ =>
    Mem.borrow cell fun m =>
      match m.calls id with
      | none => Mem.lift (.err .internal)
      | some md => do
        let args ← mapMem (evalExpr E env cell vars n) md.args
        let result ← Mem.lift (md.func.impl E env.seed args)
        Mem.lift (tryCast E result md.target)

/-- `impl Eval for AliasSpec`, `src/eval/alias_spec.rs:8-19`, with `AliasSpecItem` (`src/eval/alias_spec_item.rs:8-16`). -/
def evalSpec (E : Ext) (env : Env) (cell : Nat) : List (Alias × Expr) → Vars → List (Alias × VKind) → Mem (List (Alias × VKind))
  | [], _, bindings => pure bindings
  | (alias, e) :: items, vars, bindings => do
    let v ← evalExpr E env cell vars e.depth e
    evalSpec E env cell items (vars.add alias.2 v) (insertKey alias v bindings)

/-- `make_substitutions`, `src/interpreter/core.rs:55-78`: the context gets a clone of the `Rc` of the scope (line 64). -/
def makeSubstitutions (E : Ext) (env : Env) (order : List (Alias × VKind) → List (Alias × VKind))
    (items : List (Alias × Expr)) : Mem Subs := do
  let sc ← ScopeRef.new
  let sc ← resolveSpec env items sc
  let bindings ← evalSpec E env sc.cell items (fun _ => none) []
  return collectSubs (order bindings) []

end Cells
end Verif
