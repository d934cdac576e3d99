import Verif.Spec.Run
import Verif.Spec.Subst
import Verif.Spec.Loops
/-! # The size of values and of the code they are inserted in -/

namespace Verif.Spec
open Verif

/-- The number of tokens of a value. -/
def bulk (v : VKind) : Nat := count v.toTokens

/-- The number of tokens of several values. -/
def bulkL : List VKind → Nat
  | [] => 0
  | v :: vs => bulk v + bulkL vs

mutual
/-- The number of tokens an expression can have at most when it is evaluated: a call counts for one more than its arguments, an alias for its value.
The arguments of `raw` and `normalize` are not evaluated, they count as they are written. `σ` gives the sizes of the values of the aliases. -/
def grown (σ : Str → Option Nat) : Expr → Nat
  | .value _ (.ident s) => (σ s).getD 1
  | .value _ k => bulk k
  | .call _ n args raw =>
    1 + match (if n = S "raw" ∨ n = S "normalize" then raw else none) with
      | some (_, ts) => count ts
      | none => grownL σ args
/-- The same for several expressions. -/
def grownL (σ : Str → Option Nat) : List Expr → Nat
  | [] => 0
  | e :: es => grown σ e + grownL σ es
end

/-- The size of an expression as it is written, but at least one: names count for one whether they are aliases or not. -/
def written (e : Expr) : Nat := max 1 (grown (fun _ => none) e)

/-- The product of the sizes of definitions as they are written. -/
def growth (ds : List (Str × Expr)) : Nat := product (ds.map fun d => written d.2)

mutual
/-- The number of tokens of code in which every alias counts for its value. -/
def filledTok (σ : Str → Option Nat) : Tok → Nat
  | .ident n => (σ n).getD 1
  | .group _ ts => 1 + filled σ ts
  | _ => 1
def filled (σ : Str → Option Nat) : Toks → Nat
  | [] => 0
  | t :: ts => filledTok σ t + filled σ ts
end

end Verif.Spec
