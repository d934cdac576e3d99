import Verif.Model.CrossProduct
/-! # Specification of loops -/

namespace Verif.Spec
open Verif

/-- All ways to pick one element from each list, first list varying slowest
(nested `for` loops, outermost first). -/
def picks {α : Type} : List (List α) → List (List α)
  | [] => [[]]
  | s :: ss => s.flatMap fun x => (picks ss).map fun xs => x :: xs

/-- The combinations of a loop nest; no loops, no combinations. -/
def combinations {α : Type} (ss : List (List α)) : List (List α) :=
  if ss = [] then [] else picks ss

/-- `xs` picks one element from each list. -/
inductive IsPick {α : Type} : List α → List (List α) → Prop
  | nil : IsPick [] []
  | cons {x xs s ss} : x ∈ s → IsPick xs ss → IsPick (x :: xs) (s :: ss)

/-- Product of the list lengths. -/
def product (ns : List Nat) : Nat := ns.foldr (· * ·) 1

/-- `Yields it xs`: calling `next` repeatedly on the iterator `it` returns exactly the elements of `xs` and
then `None`, without panicking. -/
inductive Yields {α : Type} : CrossProduct α → List (List α) → Prop
  | done {it it'} : it.next = .ok (none, it') → Yields it []
  | step {it it' x xs} : it.next = .ok (some x, it') → Yields it' xs → Yields it (x :: xs)

/-- `After it n it'`: `it'` is the state after `n` calls of `next`. -/
inductive After {α : Type} : CrossProduct α → Nat → CrossProduct α → Prop
  | zero {it} : After it 0 it
  | succ {it r it' n it''} : it.next = .ok (r, it') → After it' n it'' → After it (n + 1) it''

end Verif.Spec
