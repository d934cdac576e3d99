import Verif.Model.Resolve
/-! # The eval phase (`src/eval`) and `make_substitutions` (`src/interpreter/core.rs`) -/

namespace Verif

/-- The variables of `Context`, `src/eval/core.rs:19-23`; the metadata is passed separately. -/
abbrev Vars := Str → Option VKind

/-- `Context::add_variable`, `src/eval/core.rs:35-40`. -/
def Vars.add (vars : Vars) (name : Str) (v : VKind) : Vars := fun n => if n = name then some v else vars n

/-- `impl Eval for Value`, `src/eval/value.rs:8-29`: a failing cast panics. -/
def evalValue (E : Ext) (m : Metadata) (vars : Vars) (id : Nat) (k : VKind) : Res VKind :=
  let value := match k with
    | .ident s => (vars s).getD k
    | _ => k
  match m.vals id with
  | none => .err .internal
  | some md =>
    match tryCast E value md.target with
    | .ok v => .ok v
    | _ => .panic

/-- `impl Eval for Expr`, `src/eval/expr.rs:8-13`, with `impl Eval for Call`, `src/eval/call.rs:8-36`. The arguments of a call are
those stored in the metadata, so that the recursion is not structural: the fuel is the depth of the call stack, and
running out of it (never for resolved expressions, see `Verif.evalExpr_eq`) is a stack overflow. -/
def evalExpr (E : Ext) (env : Env) (m : Metadata) (vars : Vars) : Nat → Expr → Res VKind
  | 0, _ => .panic
  | _ + 1, .value id k => evalValue E m vars id k
  | n + 1, .call id _ _ _ =>
    match m.calls id with
    | none => .err .internal
    | some md => do
      let args ← mapRes (evalExpr E env m vars n) md.args
      let result ← md.func.impl E env.seed args
      tryCast E result md.target

mutual
/-- The depth of an expression, as fuel for `evalExpr`. -/
def Expr.depth : Expr → Nat
  | .value _ _ => 1
  | .call _ _ args _ => Expr.depthL args + 2
def Expr.depthL : List Expr → Nat
  | [] => 0
  | e :: es => max (Expr.depth e) (Expr.depthL es)
end

/-- `HashMap::insert` on a list of entries with different keys. -/
def insertKey {κ ν : Type} [BEq κ] (k : κ) (v : ν) (l : List (κ × ν)) : List (κ × ν) :=
  (k, v) :: l.filter (fun e => !(e.1 == k))

/-- `impl Eval for AliasSpec`, `src/eval/alias_spec.rs:8-19`, with `AliasSpecItem` (`src/eval/alias_spec_item.rs:8-16`) and `AliasValue`. The
bindings are keyed by the alias, i.e. by its id and name. -/
def evalSpec (E : Ext) (env : Env) (m : Metadata) :
    List (Alias × Expr) → Vars → List (Alias × VKind) → Res (List (Alias × VKind))
  | [], _, bindings => .ok bindings
  | (alias, e) :: items, vars, bindings => do
    let v ← evalExpr E env m vars e.depth e
    evalSpec E env m items (vars.add alias.2 v) (insertKey alias v bindings)

/-- The loop of `make_substitutions` over the bindings, `src/interpreter/core.rs:70-76`. -/
def collectSubs : List (Alias × VKind) → Subs → Subs
  | [], subs => subs
  | (alias, v) :: rest, subs => collectSubs rest (insertKey alias.2 v subs)

/-- `make_substitutions`, `src/interpreter/core.rs:55-78`. `order` is the iteration order of the hash map of bindings, which is
random at run time. -/
def makeSubstitutions (E : Ext) (env : Env) (order : List (Alias × VKind) → List (Alias × VKind))
    (items : List (Alias × Expr)) : Res Subs := do
  let sc ← resolveSpec env items Scope.empty
  let bindings ← evalSpec E env sc.md items (fun _ => none) []
  .ok (collectSubs (order bindings) [])

end Verif
