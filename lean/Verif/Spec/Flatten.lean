import Verif.Spec.WriteOut
import Verif.Spec.Reference
/-! # Flattening `concat` -/

namespace Verif.Spec
open Verif

mutual
/-- Some calls of `concat` inside calls of `concat` are flattened. Both calls have the same type, which is not `int`; if it is `ident`, the inner call
joins names. (`raw` and `normalize` see the text of their arguments and are left alone.) -/
inductive Flattens (Γ : TyEnv) : Expr → Expr → Prop
  | here (i i' j : Nat) (raw raw' raw'' : Option (Nat × Toks)) {as bs cs : List Expr} {t : Ty}
      (hin : HasType Γ (.call j (c! "concat") bs raw'') t)
      (hout : HasType Γ (.call i (c! "concat") (as ++ .call j (c! "concat") bs raw'' :: cs) raw) t) (ht : t ≠ .litInt)
      (hb : t = .ident → ∀ b ∈ bs, (∃ k v, b = .value k v) ∧ HasType Γ b .ident) :
      Flattens Γ (.call i (c! "concat") (as ++ .call j (c! "concat") bs raw'' :: cs) raw) (.call i' (c! "concat") (as ++ bs ++ cs) raw')
  | same (e : Expr) : Flattens Γ e e
  | call (i i' : Nat) (n : Str) (raw raw' : Option (Nat × Toks)) {args args' : List Expr} (hn : n ≠ S "raw") (hn' : n ≠ S "normalize")
      (h : FlattensL Γ args args') : Flattens Γ (.call i n args raw) (.call i' n args' raw')
/-- The same in several expressions. -/
inductive FlattensL (Γ : TyEnv) : List Expr → List Expr → Prop
  | nil : FlattensL Γ [] []
  | cons {e e' : Expr} {es es' : List Expr} (h : Flattens Γ e e') (hs : FlattensL Γ es es') : FlattensL Γ (e :: es) (e' :: es')
end

end Verif.Spec
