import Verif.Spec.NormalizeValue
/-! # A function applied to the result of another -/

namespace Verif.Spec
open Verif

/-- The same apart from the numbers of the nodes. -/
abbrev Renumbered := Exchanged fun _ _ => False

/-- The functions that work on words, and what they do to a text. -/
inductive WordFunction : Str → (Ext → Str → Str) → Prop
  | upper : WordFunction (S "upper") Ext.toUppercase
  | lower : WordFunction (S "lower") Ext.toLowercase
  | snake : WordFunction (S "snake_case") Ext.snake
  | camel : WordFunction (S "camel_case") Ext.lowerCamel
  | pascal : WordFunction (S "pascal_case") Ext.pascal

/-- `f(g(e))` is exchanged for `f(e)`, where on texts `f` after `g` is `f`. If the text that `f` makes of a name is a name again, what `g` makes of it is one as
well. -/
inductive Absorbed (E : Ext) : Expr → Expr → Prop
  | mk (i j k : Nat) {f g : Str} {F G : Ext → Str → Str} {raw raw' raw'' : Option (Nat × Toks)} {e e' : Expr} (he : Renumbered e e')
      (hf : WordFunction f F) (hg : WordFunction g G) (hc : ∀ s, F E (G E s) = F E s) (hi : ∀ s, E.lexIdent (F E s) = true → E.lexIdent (G E s) = true) :
      Absorbed E (.call i f [.call j g [e] raw] raw') (.call k f [e'] raw'')

/-- `normalize2(normalize2(v))` is exchanged for `normalize2(v)`, where `v` is a value which is not an alias (as the names in `F` are not) and for whose text
normalizing twice is normalizing once. -/
inductive NormalizedTwice (E : Ext) (F : Str → Prop) : Expr → Expr → Prop
  | mk (i j k l l' : Nat) {raw raw' raw'' : Option (Nat × Toks)} {v : VKind} (hv : v.ty ≠ .raw) (hF : ∀ s, v = .ident s → F s)
      (h : normalize E.toCharClass (normalize E.toCharClass (contents E v)) = normalize E.toCharClass (contents E v)) :
      NormalizedTwice E F (.call i (S "normalize2") [.call j (S "normalize2") [.value l v] raw] raw') (.call k (S "normalize2") [.value l' v] raw'')

/-- The functions that cast, and the types they cast to. -/
inductive CastFunction : Str → Ty → Prop
  | ident : CastFunction (S "to_ident") .ident
  | path : CastFunction (S "to_path") .path
  | type : CastFunction (S "to_type") .type
  | expr : CastFunction (S "to_expr") .expr
  | str : CastFunction (S "to_str") .litStr
  | int : CastFunction (S "to_int") .litInt
  | tokens : CastFunction (S "to_tokens") .tokens

/-- The functions that cast to a kind of code. -/
inductive CodeCast : Str → Ty → Prop
  | path : CodeCast (S "to_path") .path
  | type : CodeCast (S "to_type") .type
  | expr : CodeCast (S "to_expr") .expr
  | tokens : CodeCast (S "to_tokens") .tokens

/-- The tokens are code of this kind. -/
def IsCode (E : Ext) : Ty → Toks → Prop
  | .path, ts => E.isPath ts = true
  | .type, ts => E.isType ts = true
  | .expr, ts => E.isExpr ts = true
  | _, _ => True

/-- `to_x(to_x(e))` is exchanged for `to_x(e)`. -/
inductive CastTwice : Expr → Expr → Prop
  | mk (i j k : Nat) {f : Str} {t : Ty} {raw raw' raw'' : Option (Nat × Toks)} {e e' : Expr} (he : Renumbered e e')
      (hf : CastFunction f t) : CastTwice (.call i f [.call j f [e] raw] raw') (.call k f [e'] raw'')

/-- The same first argument. -/
def FirstKept : List Expr → List Expr → Prop
  | e :: _, e' :: _ => Renumbered e e'
  | _, _ => True

mutual
/-- Some parts are exchanged by `B`, but none inside the first argument of a `concat`. -/
inductive Within (B : Expr → Expr → Prop) : Expr → Expr → Prop
  | here {e e' : Expr} (h : B e e') : Within B e e'
  | same {e e' : Expr} (h : Renumbered e e') : Within B e e'
  | call (i i' : Nat) (n : Str) (raw raw' : Option (Nat × Toks)) {args args' : List Expr} (hn : n ≠ S "raw") (hn' : n ≠ S "normalize")
      (hc : n = S "concat" → FirstKept args args') (h : WithinL B args args') : Within B (.call i n args raw) (.call i' n args' raw')
/-- The same in several expressions. -/
inductive WithinL (B : Expr → Expr → Prop) : List Expr → List Expr → Prop
  | nil : WithinL B [] []
  | cons {e e' : Expr} {es es' : List Expr} (h : Within B e e') (hs : WithinL B es es') : WithinL B (e :: es) (e' :: es')
end

/-- The same result of typing, but for a cost which is higher by `d`. -/
def ShiftedChecks (E : Ext) (seed : Nat) (F : Str → Prop) (d : Nat) (expected : Option Ty) : Except Err (Nat × TExpr) → Except Err (Nat × TExpr) → Prop
  | .ok (c, te), .ok (c', te') => c = c' + d ∧ te.target = te'.target ∧ ∀ ρ, Free F ρ → te.eval E seed ρ = te'.eval E seed ρ
  | .error x, .error x' => expected = none → blur x = blur x'
  | _, _ => False

/-- The same wherever it stands, but for costs which are higher by `d`. -/
def Shifted (E : Ext) (seed : Nat) (F : Str → Prop) (d : Nat) (e e' : Expr) : Prop :=
  ∀ Γ, Free F Γ → ∀ expected, ShiftedChecks E seed F d expected (check builtinFuncs Γ e expected) (check builtinFuncs Γ e' expected)

end Verif.Spec
