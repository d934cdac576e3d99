import Verif.Spec.Leafmap
import Verif.Spec.Rename
/-!
# Writing other names and values in definitions
-/

namespace Verif.Spec

/-- Another name at a leaf. -/
def otherLeaf (f : Str → Str) : VKind → VKind
  | .ident n => .ident (f n)
  | k => k

/-- The value of the alias at a leaf, if it is one. -/
def writtenLeaf (vs : Subs) : VKind → VKind
  | .ident n => (List.lookup n vs).getD (.ident n)
  | k => k

mutual
/-- The second expression is the first with other values, `f k` for `k`, at the leaves. Raw tokens, where they are used, are the same. -/
inductive Pasted (f : VKind → VKind) : Expr → Expr → Prop
  | value (id id' : Nat) (k : VKind) : Pasted f (.value id k) (.value id' (f k))
  | verbatim (id id' : Nat) (name : Str) (args args' : List Expr) (rid rid' : Nat) (raw : Toks) (h : name = S "raw" ∨ name = S "normalize") :
      Pasted f (.call id name args (some (rid, raw))) (.call id' name args' (some (rid', raw)))
  | call (id id' : Nat) (name : Str) (args args' : List Expr) (raw raw' : Option (Nat × Toks)) (h : name ≠ S "raw" ∧ name ≠ S "normalize")
      (ha : PastedL f args args') : Pasted f (.call id name args raw) (.call id' name args' raw')
inductive PastedL (f : VKind → VKind) : List Expr → List Expr → Prop
  | nil : PastedL f [] []
  | cons {e e' : Expr} {es es' : List Expr} (h : Pasted f e e') (hs : PastedL f es es') : PastedL f (e :: es) (e' :: es')
end

/-- The same in all right-hand sides. -/
inductive PastedDefs (f : VKind → VKind) : List (Str × Expr) → List (Str × Expr) → Prop
  | nil : PastedDefs f [] []
  | cons {n : Str} {e e' : Expr} {items items' : List (Str × Expr)} (h : Pasted f e e') (hs : PastedDefs f items items') :
      PastedDefs f ((n, e) :: items) ((n, e') :: items')

mutual
/-- The replacement changes names in the expression only where they stand for values: no name in a path, a type, an expression, in tokens or in the arguments of
`raw` and `normalize`, and no string. -/
inductive LeafOnly (m : Leafmap) : Expr → Prop
  | name (id : Nat) (n : Str) : LeafOnly m (.value id (.ident n))
  | same (id : Nat) (k : VKind) (h : m.kind k = k) : LeafOnly m (.value id k)
  | verbatim (id : Nat) (name : Str) (args : List Expr) (rid : Nat) (raw : Toks) (h : name = S "raw" ∨ name = S "normalize") (hr : m.toks raw = raw) :
      LeafOnly m (.call id name args (some (rid, raw)))
  | call (id : Nat) (name : Str) (args : List Expr) (raw : Option (Nat × Toks)) (h : name ≠ S "raw" ∧ name ≠ S "normalize") (ha : LeafOnlyL m args) :
      LeafOnly m (.call id name args raw)
inductive LeafOnlyL (m : Leafmap) : List Expr → Prop
  | nil : LeafOnlyL m []
  | cons {e : Expr} {es : List Expr} (h : LeafOnly m e) (hs : LeafOnlyL m es) : LeafOnlyL m (e :: es)
end

end Verif.Spec
