import Verif.Spec.Pasted
/-!
# Names joined by `concat`
-/

namespace Verif.Spec

mutual
/-- The expression joins these written names, in this order: a name, or a call of `concat` of one or more such expressions. -/
inductive JoinOf : Expr → List Str → Prop
  | name (id : Nat) (n : Str) : JoinOf (.value id (.ident n)) [n]
  | concat (id : Nat) {args : List Expr} {ns : List Str} (raw : Option (Nat × Toks)) (hne : args ≠ []) (h : JoinOfL args ns) :
      JoinOf (.call id (c! "concat") args raw) ns
/-- The same for several expressions, one after the other. -/
inductive JoinOfL : List Expr → List Str → Prop
  | nil : JoinOfL [] []
  | cons {e : Expr} {es : List Expr} {ns ms : List Str} (h : JoinOf e ns) (hs : JoinOfL es ms) : JoinOfL (e :: es) (ns ++ ms)
end

/-- The name a written name stands for: the alias's, if it is an alias of a name, and otherwise itself. -/
def standsFor (ρ : Str → Option VKind) (n : Str) : Str :=
  match ρ n with
  | some (.ident s) => s
  | _ => n

/-- The written name is no alias, or the alias of a name. -/
def IsName (ρ : Str → Option VKind) (n : Str) : Prop := ∀ v, ρ n = some v → ∃ s, v = .ident s

end Verif.Spec
