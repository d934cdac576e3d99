import Verif.Spec.Run
/-! # How deeply things are nested -/

namespace Verif.Spec
open Verif

mutual
/-- How many groups are around the innermost token. -/
def depthTok : Tok → Nat
  | .group _ ts => 1 + depth ts
  | _ => 0
def depth : Toks → Nat
  | [] => 0
  | t :: ts => max (depthTok t) (depth ts)
end

mutual
/-- How deeply an expression is nested: a call is one deeper than its arguments. This is how deeply the parser, the resolver and the evaluator call themselves. -/
def deep : Expr → Nat
  | .value _ k => depth k.toTokens
  | .call _ _ args raw => 1 + max (deepL args) (match raw with | some (_, ts) => depth ts | none => 0)
def deepL : List Expr → Nat
  | [] => 0
  | e :: es => max (deep e) (deepL es)
end

/-- The tokens in which loops and definitions are written. -/
def headerToks : Invocation → Toks
  | .compose ts => ts
  | .composeIdents ts => ts
  | .composeItem attr _ => attr

end Verif.Spec
