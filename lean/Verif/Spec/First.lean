import Verif.Spec.Typing
/-!
# Which mistake comes first

The definitions of an iteration are checked one after the other, then evaluated one after the other, arguments before calls and from left to right.
-/

namespace Verif.Spec
open Verif

/-- `Refuses E f vs x`: the function cannot be applied to these values, and `x` says why. -/
inductive Refuses (E : Ext) : Func → List VKind → Err → Prop
  /-- a string whose text is not a name -/
  | identText {f : Func} (hf : f ∈ builtins) (hn : f.name = S "to_ident") (r s : Str) (h : parseStrIdent E s = none) :
      Refuses E f [.tokens [.lit (.str r s)]] (.typeError (.cast .litStr .ident))
  /-- neither a string nor a name -/
  | ident {f : Func} (hf : f ∈ builtins) (hn : f.name = S "to_ident") (ts : Toks) (hs : ∀ r s, ts ≠ [.lit (.str r s)])
      (h : ∀ n, ts = [.ident n] → n ∈ keywords) : Refuses E f [.tokens ts] (.typeError (.cast .tokens .ident))
  | path {f : Func} (hf : f ∈ builtins) (hn : f.name = S "to_path") (ts : Toks) (h : E.isPath ts = false) :
      Refuses E f [.tokens ts] (.typeError (.cast .tokens .path))
  | type {f : Func} (hf : f ∈ builtins) (hn : f.name = S "to_type") (ts : Toks) (h : E.isType ts = false) :
      Refuses E f [.tokens ts] (.typeError (.cast .tokens .type))
  | expr {f : Func} (hf : f ∈ builtins) (hn : f.name = S "to_expr") (ts : Toks) (h : E.isExpr ts = false) :
      Refuses E f [.tokens ts] (.typeError (.cast .tokens .expr))
  | str {f : Func} (hf : f ∈ builtins) (hn : f.name = S "to_str") (ts : Toks) (hs : ∀ r s, ts ≠ [.lit (.str r s)])
      (h : ∀ n, ts = [.ident n] → n ∈ keywords) : Refuses E f [.tokens ts] (.typeError (.cast .tokens .litStr))
  | int {f : Func} (hf : f ∈ builtins) (hn : f.name = S "to_int") (ts : Toks) (h : ∀ r v, ts ≠ [.lit (.int r v)])
      (hm : ∀ j r v, ts ≠ [.punct '-' j, .lit (.int r v)]) : Refuses E f [.tokens ts] (.typeError (.cast .tokens .litInt))
  /-- a name and tokens whose texts together are not a name -/
  | concat {f : Func} (hf : f ∈ builtins) (hn : f.name = S "concat") (ha : f.args = [.ident, .variadic .tokens]) (s : Str) (rest : List Toks)
      (h : parseStrIdent E (E.render [.ident s] ++ (rest.map E.render).flatten) = none) :
      Refuses E f (.ident s :: rest.map .tokens) (.evalError ([.ident s] :: rest))

/-- `Breaks E seed ρ te x`: a call in the expression is refused, and everything to be evaluated before it is not. -/
inductive Breaks (E : Ext) (seed : Nat) (ρ : Str → Option VKind) : TExpr → Err → Prop
  | arg {f : Func} {pre : List TExpr} {te : TExpr} {post : List TExpr} {t : Ty} {vs : List VKind} {x : Err}
      (hp : TExpr.evalL E seed ρ pre = .ok vs) (h : Breaks E seed ρ te x) : Breaks E seed ρ (.call f (pre ++ te :: post) t) x
  | here {f : Func} {args : List TExpr} {t : Ty} {vs : List VKind} {x : Err} (ha : TExpr.evalL E seed ρ args = .ok vs) (h : Refuses E f vs x) :
      Breaks E seed ρ (.call f args t) x

/-- The first definition which cannot be evaluated. -/
inductive DefsBreak (E : Ext) (seed : Nat) : (Str → Option VKind) → List (Str × TExpr) → Err → Prop
  | here {ρ : Str → Option VKind} {n : Str} {te : TExpr} {post : List (Str × TExpr)} {x : Err} (h : Breaks E seed ρ te x) :
      DefsBreak E seed ρ ((n, te) :: post) x
  | later {ρ : Str → Option VKind} {n : Str} {te : TExpr} {v : VKind} {post : List (Str × TExpr)} {x : Err} (hv : te.eval E seed ρ = .ok v)
      (h : DefsBreak E seed (extend ρ n v) post x) : DefsBreak E seed ρ ((n, te) :: post) x

/-- The first definition which has no type or whose name is taken; the type is looked at first. -/
inductive Illtyped (T : Str → Option (List Func)) : TyEnv → List (Str × Expr) → Err → Prop
  | call {Γ : TyEnv} {m : Str} {id : Nat} {n : Str} {args : List Expr} {raw : Option (Nat × Toks)} {post : List (Str × Expr)} {fs : List Func}
      (hf : T n = some fs) (hu : ∀ f ∈ fs, usable raw args.length none (fun ps => checkArgs T Γ args ps) f = none) :
      Illtyped T Γ ((m, .call id n args raw) :: post) (refusal fs (.call id n args raw))
  | taken {Γ : TyEnv} {n : Str} {e : Expr} {post : List (Str × Expr)} {c : Nat} {te : TExpr} (h : check T Γ e none = .ok (c, te)) {t : Ty}
      (hn : Γ n = some t) : Illtyped T Γ ((n, e) :: post) (.redefined n)
  | later {Γ : TyEnv} {n : Str} {e : Expr} {post : List (Str × Expr)} {c : Nat} {te : TExpr} {x : Err} (h : check T Γ e none = .ok (c, te))
      (hn : Γ n = none) (hs : Illtyped T (extend Γ n te.target) post x) : Illtyped T Γ ((n, e) :: post) x

end Verif.Spec
