import Verif.Model.Funcs
/-! # Expressions and the resolve phase (`src/ast/expr.rs`, `src/ast/call.rs`, `src/resolve`) -/

namespace Verif

/-- `Expr`, `src/ast/expr.rs:8-17`, with `Value` (`src/ast/value.rs:18-23`) and `Call` (`src/ast/call.rs:8-17`) inlined. `raw` is the
`raw_tokens` of a call: a value of kind `Raw` with its own id (the only thing the parser puts there,
`src/parse/call.rs:36-39`). Spans are dropped. -/
inductive Expr where
  | value (id : Nat) (kind : VKind)
  | call (id : Nat) (name : Str) (args : List Expr) (raw : Option (Nat × Toks))
  deriving Repr

/-- `impl Ast for Expr`, `src/ast/expr.rs:46-52`. -/
def Expr.id : Expr → Nat
  | value id _ => id
  | call id _ _ _ => id

/-- `impl Display for Value`, `src/ast/value.rs:277-290`. -/
def VKind.show : VKind → Text
  | .ident s => [.str s]
  | .path ts => [.toks ts]
  | .type ts => [.toks ts]
  | .expr ts => [.toks ts]
  | .litStr _ v => [.str (c! "\"" ++ v ++ c! "\"")]
  | .litInt i => [.str i.digits]
  | .tokens ts => [.toks ts]
  | .raw ts => [.toks ts]

/-- `.join(", ")` of formatted texts. -/
def joinTexts : List Text → Text
  | [] => []
  | [t] => t
  | t :: ts => t ++ .str c! ", " :: joinTexts ts

/-- What stands between the parentheses of a displayed call, `src/ast/call.rs:69-76`. -/
def showArgs (args : List Text) (raw : Option (Nat × Toks)) : Text :=
  match raw with
  | some (_, ts) => if args.length == 1 then (VKind.raw ts).show else joinTexts args
  | none => joinTexts args

mutual
/-- `impl Display for Expr`, `src/ast/expr.rs:37-44`, with `impl Display for Call`, `src/ast/call.rs:62-79`. -/
def Expr.show : Expr → Text
  | .value _ k => k.show
  | .call _ name args raw => [.str name, .str c! "("] ++ showArgs (Expr.showL args) raw ++ [.str c! ")"]
/-- The displayed arguments of a call. -/
def Expr.showL : List Expr → List Text
  | [] => []
  | e :: es => e.show :: Expr.showL es
end

/-- `impl Display for Call`, `src/ast/call.rs:62-79`. -/
def showCall (name : Str) (args : List Expr) (raw : Option (Nat × Toks)) : Text :=
  [.str name, .str c! "("] ++ showArgs (Expr.showL args) raw ++ [.str c! ")"]

/-- `ValueMetadata`, `src/ast/value.rs:307-314`. -/
structure ValueMeta where
  target : Ty
  cost : Nat
  deriving DecidableEq

/-- `CallMetadata`, `src/ast/call.rs:80-91`. -/
structure CallMeta where
  args : List Expr
  func : Func
  target : Ty
  cost : Nat

/-- `AstMetadata`, `src/ast/core.rs:18-22`; a `HashMap` is the function from keys to values. -/
structure Metadata where
  vals : Nat → Option ValueMeta
  calls : Nat → Option CallMeta

namespace Metadata

/-- `AstMetadata::default`. -/
def empty : Metadata := ⟨fun _ => none, fun _ => none⟩

/-- `set_value_metadata`, `src/ast/core.rs:25-37`. -/
def setValue (m : Metadata) (id : Nat) (v : ValueMeta) : Metadata :=
  { m with vals := fun i => if i = id then some v else m.vals i }

/-- `set_call_metadata`, lines 44-65. -/
def setCall (m : Metadata) (id : Nat) (c : CallMeta) : Metadata :=
  { m with calls := fun i => if i = id then some c else m.calls i }

end Metadata

/-- `Scope`, `src/resolve/core.rs:9-13`. Of the node an alias refers to only the id is used. The metadata is shared by
`Rc<RefCell<_>>`; every sharing of it is made explicit below by passing the scope on, and `deep_clone` (lines 37-41), which
copies it, by using the same scope twice. -/
structure Scope where
  aliases : Str → Option Nat
  md : Metadata

/-- `Scope::default`. -/
def Scope.empty : Scope := ⟨fun _ => none, Metadata.empty⟩

/-- `Scope::try_add_name`, `src/resolve/core.rs:17-23`. -/
def Scope.tryAddName (sc : Scope) (name : Str) (id : Nat) : Res Scope :=
  match sc.aliases name with
  | some _ => .err (.redefined name)
  | none => .ok { sc with aliases := fun n => if n = name then some id else sc.aliases n }

/-- The type of a value before coercion, `src/resolve/value.rs:16-34`: that of the alias it names, if any. -/
def valueFromType (k : VKind) (sc : Scope) : Res Ty :=
  match k with
  | .ident name =>
    match sc.aliases name with
    | some id =>
      match sc.md.vals id with
      | some m => .ok m.target
      | none =>
        match sc.md.calls id with
        | some m => .ok m.target
        | none => .panic
    | none => .ok k.ty
  | _ => .ok k.ty

/-- `impl Resolve for Value`, `src/resolve/value.rs:9-48`. -/
def resolveValue (id : Nat) (k : VKind) (expected : Option Ty) (sc : Scope) : Res Scope := do
  let from_ ← valueFromType k sc
  let expected := expected.getD from_
  match coercionCost from_ expected with
  | some c => .ok { sc with md := sc.md.setValue id ⟨expected, c⟩ }
  | none => .err (.typeError (.coercion k.ty expected))

/-- Arithmetic on `u32`: an overflow panics (in builds without overflow checks it would wrap instead). -/
def u32 (n : Nat) : Res Nat := if n < 2 ^ 32 then .ok n else .panic

/-- The cost recorded for an argument, `src/resolve/call.rs:25-42`. -/
def recordedCost (arg : Expr) (m : Metadata) : Res Nat :=
  match arg with
  | .value id _ => Res.ofOption .internal ((m.vals id).map (·.cost))
  | .call id _ _ _ => Res.ofOption .internal ((m.calls id).map (·.cost))

/-- The expected type and the cost multiplier of each argument, `src/resolve/call.rs:109-133`: the fixed parameters once,
then the variadic one, with multiplier 2, for all remaining arguments. -/
def Func.params (f : Func) (n : Nat) : List (Ty × Nat) :=
  f.fixedArgs.map (·, 1) ++
    match f.variadicArg with
    | some t => List.replicate (n - f.fixedArgs.length) (t, 2)
    | none => []

/-- The cost of coercing the result of a call, `src/resolve/call.rs:70-80`. -/
def outCoercion (f : Func) : Option Ty → Res Nat
  | some t => Res.ofOption (.typeError (.coercion f.out t)) (coercionCost f.out t)
  | none => .ok 0

/-- The raw tokens of the call, if they are what the function takes: the first arm of the `match`,
`src/resolve/call.rs:90`. -/
def Func.rawArg (f : Func) (raw : Option (Nat × Toks)) : Option (Nat × Toks) := if f.args = [.raw] then raw else none

/-- The checks of `resolve_call_for_func`, `src/resolve/call.rs:58-136`, around the resolution of the arguments
`resolveArgs` (cost so far, parameters). Returns the cost, the scope and the arguments. -/
def resolveCallForFunc (name : Str) (f : Func) (args : List Expr) (raw : Option (Nat × Toks)) (expected : Option Ty) (sc : Scope)
    (resolveArgs : List (Ty × Nat) → Nat → Scope → Res (Nat × Scope × List Expr)) : Res (Nat × Scope × List Expr) := do
  let c ← outCoercion f expected
  let byCount :=
    if !f.isVariadic && f.args.length == args.length then resolveArgs (f.params args.length) c sc
    else if f.isVariadic && decide (f.args.length ≤ args.length) then resolveArgs (f.params args.length) c sc
    else .err (.signature f.signature (showCall name args raw))
  match f.rawArg raw with
  | some (id, ts) => do
    let sc' ← resolveValue id (.raw ts) (some .raw) sc
    .ok (c, sc', [.value id (.raw ts)])
  | none => byCount

/-- `FuncResolutionMetadata`, `src/resolve/call.rs:138`. -/
structure Candidate where
  cost : Nat
  scope : Scope
  func : Func
  args : List Expr

/-- The loop over the candidate functions, `src/resolve/call.rs:162-177`: internal errors are passed on, other errors
discard the candidate. -/
def candidates (attempt : Func → Res (Nat × Scope × List Expr)) : List Func → Res (List Candidate)
  | [] => .ok []
  | f :: fs =>
    match attempt f with
    | .ok (c, sc, args) => (candidates attempt fs).map (⟨c, sc, f, args⟩ :: ·)
    | .err .internal => .err .internal
    | .err _ => candidates attempt fs
    | .panic => .panic

/-- The order of the sort keys, `src/resolve/call.rs:180`: `(cost, is_variadic, num_args, id)`, lexicographically. -/
def Candidate.le (a b : Candidate) : Bool :=
  if a.cost ≠ b.cost then decide (a.cost < b.cost)
  else if a.func.isVariadic ≠ b.func.isVariadic then !a.func.isVariadic
  else if a.func.args.length ≠ b.func.args.length then decide (a.func.args.length < b.func.args.length)
  else decide (a.func.id ≤ b.func.id)

/-- Insertion into a sorted list, before the elements with an equal or greater key. -/
def insertByKey (x : Candidate) : List Candidate → List Candidate
  | [] => [x]
  | y :: ys => if x.le y then x :: y :: ys else y :: insertByKey x ys

/-- `sort_by_key`, which is stable. -/
def sortByKey : List Candidate → List Candidate
  | [] => []
  | x :: xs => insertByKey x (sortByKey xs)

/-- The end of `Call::resolve`, `src/resolve/call.rs:178-205`; `refusal` is the error of lines 193-202. -/
def selectCandidate (id : Nat) (refusal : Err) (expected : Option Ty) (cs : List Candidate) : Res Scope :=
  match sortByKey cs with
  | [] => .err refusal
  | c :: _ =>
    .ok { c.scope with md := c.scope.md.setCall id ⟨c.args, c.func, expected.getD c.func.out, c.cost⟩ }

mutual
/-- `impl Resolve for Expr`, `src/resolve/expr.rs:9-19`, with `impl Resolve for Call`, `src/resolve/call.rs:143-206`. -/
def Expr.resolve (env : Env) : Expr → Option Ty → Scope → Res Scope
  | .value id k, expected, sc => resolveValue id k expected sc
  | .call id name args raw, expected, sc =>
    match env.funcs name with
    | none => .err (.undefinedFunction name)
    | some fs => do
      let cs ← candidates (fun f => resolveCallForFunc name f args raw expected sc
        (fun ps c sc => Expr.resolveArgs env args ps c sc)) fs
      selectCandidate id (.signature (env.prettySig name) (showCall name args raw)) expected cs
/-- The loops of `resolve_call_for_func` over the arguments with `resolve_arg` (`src/resolve/call.rs:8-48`). -/
def Expr.resolveArgs (env : Env) : List Expr → List (Ty × Nat) → Nat → Scope → Res (Nat × Scope × List Expr)
  | e :: es, (t, m) :: ps, c, sc => do
    let sc ← Expr.resolve env e (some t) sc
    let cost ← recordedCost e sc.md
    let cost ← u32 (cost * m)
    let c ← u32 (c + cost)
    let (c, sc, rest) ← Expr.resolveArgs env es ps c sc
    .ok (c, sc, e :: rest)
  | _, _, c, sc => .ok (c, sc, [])
end

/-- `Alias`, `src/ast/alias.rs:6-9`: id and name. -/
abbrev Alias := Nat × Str

/-- `impl Resolve for AliasSpecItem`, `src/resolve/alias_spec_item.rs:9-21`. -/
def resolveItem (env : Env) (item : Alias × Expr) (sc : Scope) : Res Scope := do
  let sc ← item.2.resolve env none sc
  sc.tryAddName item.1.2 item.2.id

/-- `impl Resolve for AliasSpec`, `src/resolve/alias_spec.rs:9-19`; the expected type is always `None`
(`src/interpreter/core.rs:60-62`). -/
def resolveSpec (env : Env) : List (Alias × Expr) → Scope → Res Scope
  | [], sc => .ok sc
  | item :: items, sc => do
    let sc ← resolveItem env item sc
    resolveSpec env items sc

end Verif
