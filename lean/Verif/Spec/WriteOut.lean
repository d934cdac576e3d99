import Verif.Spec.Inline
import Verif.Spec.Run
/-! # Writing definitions out -/

namespace Verif.Spec
open Verif

mutual
/-- Some uses of the name `x` are replaced by the expression `d`. The raw tokens kept with the calls around them change, too. Uses of the name in
arguments of `raw` and `normalize` stay: it does not stand for the alias there. -/
inductive WritesOut (x : Str) (d : Expr) : Expr → Expr → Prop
  | here (i : Nat) : WritesOut x d (.value i (.ident x)) d
  | same (e : Expr) : WritesOut x d e e
  | call (i : Nat) (n : Str) (raw raw' : Option (Nat × Toks)) {args args' : List Expr} (hn : n ≠ S "raw") (hn' : n ≠ S "normalize")
      (h : WritesOutL x d args args') : WritesOut x d (.call i n args raw) (.call i n args' raw')
/-- The same in several expressions. -/
inductive WritesOutL (x : Str) (d : Expr) : List Expr → List Expr → Prop
  | nil : WritesOutL x d [] []
  | cons {e e' : Expr} {es es' : List Expr} (h : WritesOut x d e e') (hs : WritesOutL x d es es') : WritesOutL x d (e :: es) (e' :: es')
end

mutual
/-- Nowhere in the expression is `hash` called on a string. -/
def noStrHash (Γ : TyEnv) : Expr → Prop
  | .value _ _ => True
  | .call _ name args _ =>
    (name = S "hash" → ∀ a ∈ args, ∀ c te, check builtinFuncs Γ a none = .ok (c, te) → te.target ≠ .litStr) ∧ noStrHashL Γ args
def noStrHashL (Γ : TyEnv) : List Expr → Prop
  | [] => True
  | e :: es => noStrHash Γ e ∧ noStrHashL Γ es
end

/-- Names are printed as they are, and read as they are. -/
structure PlainNames (E : Ext) : Prop where
  render (s : Str) : E.render [.ident s] = s
  lex {s : Str} (h : E.lexIdent s = true) : E.lex s = some [.ident s]

end Verif.Spec
