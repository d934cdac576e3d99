import Verif.Model.Resolve
import Verif.Spec.Typing
/-! # What a copied scope may hold -/

namespace Verif.Spec

/-- The scope holds metadata of the nodes `N` and aliases with the names `A` only. -/
structure HoldsOnly (N : List Nat) (A : List Str) (sc : Scope) : Prop where
  vals : ∀ i, (sc.md.vals i).isSome → i ∈ N
  calls : ∀ i, (sc.md.calls i).isSome → i ∈ N
  aliases : ∀ n, (sc.aliases n).isSome → n ∈ A

end Verif.Spec
