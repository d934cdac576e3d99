import Verif.Spec.Typing
/-! # Replacing aliases by values, dropping unused arguments -/

namespace Verif.Spec
open Verif

/-- A leaf with the alias `s` replaced by a value. -/
def inlineLeaf (s : Str) (v : VKind) : VKind → VKind
  | .ident n => if n = s then v else .ident n
  | k => k

mutual
/-- Replace the alias `s` by the value `v` wherever it is used (not in raw tokens, which are not evaluated). -/
def replaceAlias (s : Str) (v : VKind) : Expr → Expr
  | .value id k => .value id (inlineLeaf s v k)
  | .call id name args raw => .call id name (replaceAliasL s v args) raw
def replaceAliasL (s : Str) (v : VKind) : List Expr → List Expr
  | [] => []
  | e :: es => replaceAlias s v e :: replaceAliasL s v es
end

mutual
/-- The same for typed expressions. -/
def TExpr.replaceAlias (s : Str) (v : VKind) : TExpr → TExpr
  | .val k t => .val (inlineLeaf s v k) t
  | .call f args t => .call f (TExpr.replaceAliasL s v args) t
def TExpr.replaceAliasL (s : Str) (v : VKind) : List TExpr → List TExpr
  | [] => []
  | e :: es => TExpr.replaceAlias s v e :: TExpr.replaceAliasL s v es
end

/-- The identifier at a leaf. -/
def leafName : VKind → List Str
  | .ident n => [n]
  | _ => []

mutual
/-- The identifiers used in an expression. -/
def used : Expr → List Str
  | .value _ k => leafName k
  | .call _ _ args _ => usedL args
def usedL : List Expr → List Str
  | [] => []
  | e :: es => used e ++ usedL es
end

mutual
/-- Drop the arguments of calls of `raw` and `normalize` that also have raw tokens. -/
def dropUnused : Expr → Expr
  | .value id k => .value id k
  | .call id name args raw =>
    if (name = S "raw" ∨ name = S "normalize") ∧ raw.isSome then .call id name [] raw
    else .call id name (dropUnusedL args) raw
def dropUnusedL : List Expr → List Expr
  | [] => []
  | e :: es => dropUnused e :: dropUnusedL es
end

mutual
/-- The identifiers of a typed expression. -/
def TExpr.used : TExpr → List Str
  | .val k _ => leafName k
  | .call _ args _ => TExpr.usedL args
def TExpr.usedL : List TExpr → List Str
  | [] => []
  | e :: es => e.used ++ TExpr.usedL es
end

end Verif.Spec
