import Verif.Spec.Respelled
/-!
# The spelling of numbers

A number can be written in several ways, as `16`, `0x10`, `1_6` or `16u8`.
-/

namespace Verif.Spec
open Verif

/-- The same number, with the same sign. -/
def SameNumber (i i' : IntLit) : Prop := i.neg = i'.neg ∧ i.val = i'.val

/-- The same numbers, one by one. -/
inductive SameNumbers : List Expr → List Expr → Prop
  | nil : SameNumbers [] []
  | cons (j j' : Nat) {i i' : IntLit} (hi : SameNumber i i') {es es' : List Expr} (h : SameNumbers es es') :
      SameNumbers (.value j (.litInt i) :: es) (.value j' (.litInt i') :: es')

/-- `normalize2` or `concat` of the same numbers, which are written differently. -/
inductive Rewritten : Expr → Expr → Prop
  | normalized (k k' j j' : Nat) {i i' : IntLit} (hi : SameNumber i i') (raw raw' : Option (Nat × Toks)) :
      Rewritten (.call k (S "normalize2") [.value j (.litInt i)] raw) (.call k' (S "normalize2") [.value j' (.litInt i')] raw')
  | joined (k k' : Nat) (raw raw' : Option (Nat × Toks)) {es es' : List Expr} (h : SameNumbers es es') :
      Rewritten (.call k (S "concat") es raw) (.call k' (S "concat") es' raw')

end Verif.Spec
