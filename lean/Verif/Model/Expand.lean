import Verif.Model.CrossProduct
/-! # Tuples and the expand phase (`src/ast/tuple.rs`, `src/expand/raw_ast.rs`) -/

namespace Verif

/-- `TupleValueKind`, `src/ast/tuple.rs:118-122`; a `Tuple` (lines 10-15) is the list of its values.
Node ids and spans are dropped (no code reads the id of a tuple). -/
inductive Tup (α : Type) where
  | val (a : α)
  | tup (ts : List (Tup α))
  deriving Repr

namespace Tup
variable {α β : Type}

mutual
/-- Number of nodes of an element (fuel for the queue loops below). -/
def size : Tup α → Nat
  | val _ => 1
  | tup ts => 1 + sizeL ts
def sizeL : List (Tup α) → Nat
  | [] => 0
  | t :: ts => size t + sizeL ts
end

/-- All values produced by `TupleValuesRecursiveIterator` (lines 32-60): pop from the front, values are
yielded, the elements of a nested tuple are appended at the back. The fuel is the number of nodes, which is the
number of pops. -/
def leavesAux : Nat → List (Tup α) → List α
  | 0, _ => []
  | _ + 1, [] => []
  | n + 1, val a :: q => a :: leavesAux n q
  | n + 1, tup ts :: q => leavesAux n (q ++ ts)

/-- `Tuple::iter_recursive`, lines 26-28. -/
def leaves (ts : List (Tup α)) : List α := leavesAux (sizeL ts) ts

/-- All elements produced by `TupleValuesDestructuringIterator` (lines 148-173), up to what `match_tuples` looks at:
`true` for a value, `false` for a tuple. -/
def kindsAux : Nat → List (Tup α) → List Bool
  | 0, _ => []
  | _ + 1, [] => []
  | n + 1, val _ :: q => true :: kindsAux n q
  | n + 1, tup ts :: q => false :: kindsAux n (q ++ ts)

/-- `Tuple::iter_destructuring`, lines 29-31. -/
def kinds (ts : List (Tup α)) : List Bool := kindsAux (sizeL ts) ts

end Tup

/-- `match_tuples`, `src/expand/raw_ast.rs:13-38`: the counts are compared first, then the kinds pairwise; both
failures are a `TypeError`. -/
def matchTuples {α β : Type} (as : List (Tup α)) (es : List (Tup β)) : Res Unit :=
  if (Tup.kinds as).length ≠ (Tup.kinds es).length then .err (.typeError .tupleSize)
  else if (List.zip (Tup.kinds as) (Tup.kinds es)).all (fun p => p.1 == p.2) then .ok ()
  else .err (.typeError .tupleShape)

/-- `LoopAlias`, `src/ast/loop_alias.rs:10-13`. -/
inductive LoopAlias (α : Type) where
  | simple (a : α)
  | tuple (ts : List (Tup α))

/-- `LoopSourceValue`, `src/ast/loop_source_value_list.rs:8-11`. -/
inductive LoopSourceValue (ε : Type) where
  | value (e : ε)
  | tuple (ts : List (Tup ε))

/-- `make_spec_items`, `src/expand/raw_ast.rs:41-73`. An `AliasSpecItem` is the pair of the alias and the expression of
its `AliasValue`; the ids drawn for the two wrapper nodes are dropped, nothing reads them. -/
def makeSpecItems {α ε : Type} : LoopAlias α → LoopSourceValue ε → Res (List (α × ε))
  | .simple a, .value e => .ok [(a, e)]
  | .tuple as, .tuple es => do
    matchTuples as es
    .ok (List.zip (Tup.leaves as) (Tup.leaves es))
  | _, _ => .err (.typeError .loopKind)

/-- `AliasSpec`, `src/ast/alias_spec.rs:6-11`. -/
structure AliasSpec (α ε : Type) where
  items : List (α × ε)
  isCommaUsed : Option Bool

/-- `RawAST`, `src/ast/raw_ast.rs:8-14`; a `LoopSpecItem` (`src/ast/loop_spec_item.rs:9-14`) is the pair of its alias and its
list of values. -/
structure RawAst (α ε β : Type) where
  loops : Option (List (LoopAlias α × List (LoopSourceValue ε)))
  spec : Option (AliasSpec α ε)
  block : β

/-- `BlockRewrite`, `src/ast/expanded.rs:7-11`; an `ExpandedAST` is the list of them. -/
structure BlockRewrite (α ε β : Type) where
  spec : AliasSpec α ε
  block : β

variable {α ε β : Type}

/-- The inner loop of `expand` over the loops zipped with the current values, `src/expand/raw_ast.rs:102-106`. -/
def loopSpecItems : List (LoopAlias α × List (LoopSourceValue ε)) → List (LoopSourceValue ε) →
    Res (List (α × ε))
  | l :: ls, v :: vs => do
    let items ← makeSpecItems l.1 v
    let rest ← loopSpecItems ls vs
    .ok (items ++ rest)
  | _, _ => .ok []

/-- The outer loop of `expand`, lines 100-119. The fuel bounds the number of `next` calls; running out of it is
reported as `panic` (it never happens, see `Verif.expandLoop_eq`). -/
def expandLoop (loops : List (LoopAlias α × List (LoopSourceValue ε))) (spec : Option (AliasSpec α ε)) (block : β) :
    Nat → CrossProduct (LoopSourceValue ε) → Res (List (BlockRewrite α ε β))
  | 0, _ => .panic
  | n + 1, cp => do
    let (r, cp') ← cp.next
    match r with
    | none => .ok []
    | some vals => do
      let items ← loopSpecItems loops vals
      let br : BlockRewrite α ε β :=
        match spec with
        | some s => ⟨⟨items ++ s.items, s.isCommaUsed⟩, block⟩
        | none => ⟨⟨items, none⟩, block⟩
      let rest ← expandLoop loops spec block n cp'
      .ok (br :: rest)

/-- `impl Expand for RawAST`, lines 78-123. -/
def expand (ast : RawAst α ε β) : Res (List (BlockRewrite α ε β)) :=
  match ast.loops with
  | none =>
    .ok [⟨ast.spec.getD ⟨[], none⟩, ast.block⟩]
  | some loops =>
    let perLoop := loops.map (·.2)
    expandLoop loops ast.spec ast.block ((perLoop.map List.length).foldr (· * ·) 1 + 1) (CrossProduct.fromVecs perLoop)

end Verif
