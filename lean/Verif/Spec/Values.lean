import Verif.Spec.Typing
/-! # Counting the values that are written -/

namespace Verif.Spec

mutual
/-- Number of values that are written, at least one for each call. -/
def tips : Expr → Nat
  | .value _ _ => 1
  | .call _ _ args _ => max 1 (tipsL args)
def tipsL : List Expr → Nat
  | [] => 0
  | e :: es => tips e + tipsL es
end

end Verif.Spec
