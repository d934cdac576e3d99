import Verif.Spec.Uses
import Verif.Spec.Format
/-! # Renaming an alias, in definitions and in code -/

namespace Verif.Spec
open Verif

mutual
/-- The expression with the alias `x` renamed to `y`. The arguments of `raw` and `normalize` are tokens, not expressions, and stay as they
are (what they would be as expressions does not matter). The other functions do not look at the tokens of their arguments, which change with the arguments. -/
inductive RenExpr (x y : Str) : Expr → Expr → Prop
  | value (id id' : Nat) (k : VKind) : RenExpr x y (.value id k) (.value id' (inlineLeaf x (.ident y) k))
  | verbatim (id id' : Nat) (name : Str) (args args' : List Expr) (rid rid' : Nat) (raw : Toks) (h : name = S "raw" ∨ name = S "normalize") :
      RenExpr x y (.call id name args (some (rid, raw))) (.call id' name args' (some (rid', raw)))
  | call (id id' : Nat) (name : Str) (args args' : List Expr) (raw raw' : Option (Nat × Toks)) (h : name ≠ S "raw" ∧ name ≠ S "normalize")
      (ha : RenExprs x y args args') : RenExpr x y (.call id name args raw) (.call id' name args' raw')
inductive RenExprs (x y : Str) : List Expr → List Expr → Prop
  | nil : RenExprs x y [] []
  | cons {e e' : Expr} {es es' : List Expr} (h : RenExpr x y e e') (hs : RenExprs x y es es') : RenExprs x y (e :: es) (e' :: es')
end

/-- The definitions with `x` renamed to `y` in their right-hand sides. -/
inductive RenItems (x y : Str) : List (Str × Expr) → List (Str × Expr) → Prop
  | nil : RenItems x y [] []
  | cons {n : Str} {e e' : Expr} {items items' : List (Str × Expr)} (h : RenExpr x y e e') (hs : RenItems x y items items') :
      RenItems x y ((n, e) :: items) ((n, e') :: items')

/-- The definitions with the alias `x` renamed to `y`, which is not the name of another alias and is not used where `x` is known: from the
definition of `x` on. (Before that, `x` is an identifier like any other.) -/
inductive RenDefs (x y : Str) : List (Str × Expr) → List (Str × Expr) → Prop
  | mk (pre : List (Str × Expr)) (e : Expr) {post post' : List (Str × Expr)} (h : RenItems x y post post')
      (hx : x ∉ pre.map (·.1) ∧ x ∉ post.map (·.1)) (hy : y ∉ pre.map (·.1) ∧ y ∉ post.map (·.1)) (hu : y ∉ usedIn post) :
      RenDefs x y (pre ++ (x, e) :: post) (pre ++ (y, e) :: post')

/-- The text with `x` renamed to `y` in its placeholders; `pre` and `body` are percent-free, `post` does not start with a percent. -/
inductive RenStr (C : CharClass) (x y : Str) : Str → Str → Prop
  | plain (s : Str) (h : '%' ∉ s) : RenStr C x y s s
  | unclosed (pre body : Str) (hp : '%' ∉ pre) (hb : '%' ∉ body) : RenStr C x y (pre ++ '%' :: body) (pre ++ '%' :: body)
  | run (pre post post' : Str) (k : Nat) (hp : '%' ∉ pre) (hpost : post.head? ≠ some '%') (h : RenStr C x y post post') :
      RenStr C x y (pre ++ List.replicate (k + 2) '%' ++ post) (pre ++ List.replicate (k + 2) '%' ++ post')
  | other (pre body post post' : Str) (k : Nat) (hp : '%' ∉ pre) (hb : '%' ∉ body) (hne : body ≠ [])
      (hpost : post.head? ≠ some '%') (hx : body.filter (fun c => !C.whitespace c) ≠ x) (h : RenStr C x y post post') :
      RenStr C x y (pre ++ '%' :: body ++ '%' :: List.replicate k '%' ++ post) (pre ++ '%' :: body ++ '%' :: List.replicate k '%' ++ post')
  | renamed (pre body body' post post' : Str) (k : Nat) (hp : '%' ∉ pre) (hb : '%' ∉ body) (hne : body ≠ []) (hb' : '%' ∉ body')
      (hne' : body' ≠ []) (hpost : post.head? ≠ some '%') (hx : body.filter (fun c => !C.whitespace c) = x)
      (hy : body'.filter (fun c => !C.whitespace c) = y) (h : RenStr C x y post post') :
      RenStr C x y (pre ++ '%' :: body ++ '%' :: List.replicate k '%' ++ post) (pre ++ '%' :: body' ++ '%' :: List.replicate k '%' ++ post')

mutual
/-- The token with `x` renamed to `y`, in string literals too. -/
inductive RenTok (C : CharClass) (x y : Str) : Tok → Tok → Prop
  | alias : RenTok C x y (.ident x) (.ident y)
  | ident (n : Str) (h : n ≠ x) : RenTok C x y (.ident n) (.ident n)
  | str (r r' v v' : Str) (h : RenStr C x y v v') : RenTok C x y (.lit (.str r v)) (.lit (.str r' v'))
  | group (d : Delim) (ts ts' : Toks) (h : RenToks C x y ts ts') : RenTok C x y (.group d ts) (.group d ts')
  | other (t : Tok) (hi : ∀ n, t ≠ .ident n) (hs : ∀ r v, t ≠ .lit (.str r v)) (hg : ∀ d ts, t ≠ .group d ts) : RenTok C x y t t
inductive RenToks (C : CharClass) (x y : Str) : Toks → Toks → Prop
  | nil : RenToks C x y [] []
  | cons {t t' : Tok} {ts ts' : Toks} (h : RenTok C x y t t') (hs : RenToks C x y ts ts') : RenToks C x y (t :: ts) (t' :: ts')
end

end Verif.Spec
