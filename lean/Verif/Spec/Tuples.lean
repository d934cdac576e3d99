import Verif.Model.Expand
/-! # Specification of tuple shapes and positions -/

namespace Verif.Spec
open Verif

variable {α β : Type}

/-- The shape of a tuple element: a leaf or a tuple of shapes. -/
abbrev Shape := Tup Unit

mutual
/-- Forget the values. -/
def shape : Tup α → Shape
  | .val _ => .val ()
  | .tup ts => .tup (shapes ts)
def shapes : List (Tup α) → List Shape
  | [] => []
  | t :: ts => shape t :: shapes ts
end

/-- The value at a position, given as the list of (0-based) indices from the outside in; a position of a value
inside a tuple is never empty. -/
def valueAt : List Nat → List (Tup α) → Option α
  | [], _ => none
  | i :: p, ts =>
    match ts[i]? with
    | none => none
    | some (.val a) => if p = [] then some a else none
    | some (.tup us) => valueAt p us

mutual
/-- The values of a tuple, read left to right. -/
def inOrder : Tup α → List α
  | .val a => [a]
  | .tup ts => inOrderL ts
def inOrderL : List (Tup α) → List α
  | [] => []
  | t :: ts => inOrder t ++ inOrderL ts
end

mutual
/-- The number of elements of a tuple at all depths: values and nested tuples. -/
def elements : Tup α → Nat
  | .val _ => 1
  | .tup ts => elementsL ts + 1
def elementsL : List (Tup α) → Nat
  | [] => 0
  | t :: ts => elements t + elementsL ts
end

/-- What is reported about two tuples that do not match: their sizes if these differ, else their shapes. -/
def tupleMismatch (as : List (Tup α)) (es : List (Tup β)) : Mismatch :=
  if elementsL as = elementsL es then .tupleShape else .tupleSize

/-- `Unmatched a v w`: the value `v` cannot be bound to the loop variable `a`, and `w` says why. -/
inductive Unmatched {ε : Type} : LoopAlias α → LoopSourceValue ε → Mismatch → Prop
  | simple (a : α) (es : List (Tup ε)) : Unmatched (.simple a) (.tuple es) .loopKind
  | tuple (as : List (Tup α)) (e : ε) : Unmatched (.tuple as) (.value e) .loopKind
  | size (as : List (Tup α)) (es : List (Tup ε)) (h : elementsL as ≠ elementsL es) : Unmatched (.tuple as) (.tuple es) .tupleSize
  | shape (as : List (Tup α)) (es : List (Tup ε)) (h : elementsL as = elementsL es) (hs : shapes as ≠ shapes es) :
      Unmatched (.tuple as) (.tuple es) .tupleShape

end Verif.Spec
