import Verif.Model.Basic
/-! # `CrossProduct` (`src/util/cross_product.rs`) -/

namespace Verif

/-- `struct CrossProduct`, `src/util/cross_product.rs:6-16`. -/
structure CrossProduct (α : Type) where
  sources : List (List α)
  indices : List Nat
  exhausted : Bool

namespace CrossProduct
variable {α : Type}

/-- `from_vecs`, lines 34-43. -/
def fromVecs (sources : List (List α)) : CrossProduct α :=
  { sources
    indices := List.replicate sources.length 0
    exhausted := sources.isEmpty || sources.any List.isEmpty }

/-- `current_combination`, lines 46-52; `source[idx]` panics when out of range. -/
def combination : List Nat → List (List α) → Res (List α)
  | i :: is, s :: ss =>
    match s[i]? with
    | some x => (combination is ss).map (x :: ·)
    | none => .panic
  | _, _ => .ok []

/-- The `for i in (0..indices.len()).rev()` loop of `advance_indices`, lines 64-73; the first argument is
the number of indices still to try. (Both vectors have the same length, so indexing is in range.) -/
def advLoop (sources : List (List α)) : Nat → List Nat → List Nat × Bool
  | 0, idx => (idx, false)
  | k + 1, idx =>
    let v := idx.getD k 0 + 1
    if v < (sources.getD k []).length then (idx.set k v, true)
    else advLoop sources k (idx.set k 0)

/-- `advance_indices`, lines 57-77. -/
def advance (cp : CrossProduct α) : CrossProduct α × Bool :=
  if cp.indices.isEmpty then (cp, false)
  else
    let r := advLoop cp.sources cp.indices.length cp.indices
    ({ cp with indices := r.1 }, r.2)

/-- `Iterator::next`, lines 116-128. -/
def next (cp : CrossProduct α) : Res (Option (List α) × CrossProduct α) :=
  if cp.exhausted then .ok (none, cp)
  else do
    let result ← combination cp.indices cp.sources
    let (cp', more) := cp.advance
    .ok (some result, if more then cp' else { cp' with exhausted := true })

/-- `usize::MAX + 1` on a 64-bit target. -/
def usizeSize : Nat := 2 ^ 64

/-- `usize::checked_mul`. -/
def checkedMul (a b : Nat) : Option Nat := if a * b < usizeSize then some (a * b) else none

/-- `total_combinations`, lines 80-89 (`try_fold` with `checked_mul`). -/
def totalCombinations (cp : CrossProduct α) : Option Nat :=
  if cp.sources.isEmpty then some 0
  else (cp.sources.map List.length).foldl (fun acc l => acc.bind (checkedMul · l)) (some 1)

/-- `has_empty_source`, lines 98-100. -/
def hasEmptySource (cp : CrossProduct α) : Bool := cp.sources.any List.isEmpty

/-- `reset`, lines 104-107. -/
def reset (cp : CrossProduct α) : CrossProduct α :=
  { cp with indices := List.replicate cp.indices.length 0, exhausted := cp.hasEmptySource }

/-- Checked `usize` arithmetic: overflow is a panic (debug builds). -/
def usize (n : Nat) : Res Nat := if n < usizeSize then .ok n else .panic

/-- The `for` loop of `size_hint`, lines 139-142, from the right; result `(generated, multiplier)`. -/
def hintLoop (cp : CrossProduct α) : Nat → Nat × Nat → Res (Nat × Nat)
  | 0, acc => .ok acc
  | k + 1, (generated, multiplier) => do
    let p ← usize (cp.indices.getD k 0 * multiplier)
    let g ← usize (generated + p)
    let m ← usize (multiplier * (cp.sources.getD k []).length)
    cp.hintLoop k (g, m)

/-- `size_hint`, lines 130-149. -/
def sizeHint (cp : CrossProduct α) : Res (Nat × Option Nat) :=
  if cp.exhausted then .ok (0, some 0)
  else
    match cp.totalCombinations with
    | some total => do
      let (generated, _) ← cp.hintLoop cp.indices.length (0, 1)
      let remaining := total - generated
      .ok (remaining, some remaining)
    | none => .ok (0, none)

end CrossProduct
end Verif
