import Verif.Model.Interp
import Verif.Spec.Syntax
import Verif.Spec.Tuples
/-!
# Whole expansions

An expansion without node ids, side tables, hash maps or threads.
-/

namespace Verif.Spec
open Verif

/-- One copy of the block: the definitions in force get their values, the block is rewritten with them, and the warnings are
attached. -/
def copyOf (W : World) (env : Env) (sv : Service) (block : List Stmt) (defs : List (Str × Expr)) : Res Toks :=
  match outcome W.E env defs with
  | .ok vs =>
    match visitBlock W.E W.Y.toGrammar vs block with
    | .ok stmts => .ok (cstsPrint (sv.emit W.E.strRepr (stmtsCst W.sites stmts)))
    | .err e => .err e
    | .panic => .panic
  | .err e => .err e
  | .panic => .panic

/-- The first failure, or everything one after the other. -/
def joinAll : List (Res Toks) → Res Toks
  | [] => .ok []
  | .ok ts :: rs => (joinAll rs).map (ts ++ ·)
  | .err e :: _ => .err e
  | .panic :: _ => .panic

/-- The definitions in force in each iteration: what the loops bind, and the definitions as written. -/
def iterations (a : RawAst Str Expr (List Stmt)) : Res (List (List (Str × Expr))) := (expand a).map (·.map (·.spec.items))

/-- The whole expansion of a parsed input. -/
def expansion (W : World) (env : Env) (sv : Service) (a : RawAst Str Expr (List Stmt)) : Res Toks :=
  match iterations a with
  | .ok its => joinAll (its.map (copyOf W env sv a.block))
  | .err e => .err e
  | .panic => .panic

/-- The names of the built-in functions. -/
def isBuiltin (n : Str) : Bool := (builtinFuncs n).isSome

/-- `Reads W inv a`: the input of the invocation is read as `a`. -/
def Reads (W : World) : Invocation → PAst → Prop
  | .compose ts, a => ReadsInput isBuiltin W.Y ts a
  | .composeIdents ts, a => ReadsInput isBuiltin W.Y ts a
  | .composeItem attr item, a => ReadsAttr isBuiltin W.Y attr { a with block := [] } ∧ W.Y.parseBlock item = some a.block

/-- The tree without node ids. -/
def tree (a : PAst) : RawAst Str Expr (List Stmt) := a.conv (·.2) Expr.erase

/-- The definitions are separated by semicolons. -/
def withSemicolons : Option PSpec → Bool
  | some ⟨_, _, some false⟩ => true
  | _ => false

/-- The name of the invoked macro. -/
def macroName : Invocation → Str
  | .compose _ => S "compose"
  | .composeIdents _ => S "compose_idents"
  | .composeItem _ _ => S "compose_item"

/-- What warnings of the macro start with. -/
def macroPrefix (inv : Invocation) : Str := macroName inv ++ S "!: "

/-- The service during an invocation, with prefix `pre`. -/
def serviceFor (pre : Str) (semicolon : Bool) : Service :=
  ⟨if semicolon then [⟨S "Using semicolons as separators is deprecated, use commas instead", S "0.0.5"⟩] else [], 1, pre⟩

mutual
/-- The names of the functions called in an expression. -/
def calls : Expr → List Str
  | .value _ _ => []
  | .call _ n args _ => n :: callsL args
def callsL : List Expr → List Str
  | [] => []
  | e :: es => calls e ++ callsL es
end

/-- The expressions of a loop value. -/
def exprsOfValue {ε : Type} : LoopSourceValue ε → List ε
  | .value e => [e]
  | .tuple ts => inOrderL ts

/-- All expressions of an input: the loop values and the right-hand sides of the definitions. -/
def exprsIn {α ε β : Type} (a : RawAst α ε β) : List ε :=
  (a.loops.getD []).flatMap (fun l => l.2.flatMap exprsOfValue) ++ (a.spec.toList.flatMap fun s => s.items.map (·.2))

end Verif.Spec
