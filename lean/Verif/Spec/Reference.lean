import Verif.Spec.Typing
/-!
# The reference of functions and types

The tables of `snippets/reference_h2.md` (part of the README and of the documentation of the crate), lines 344-354 (coercions) and 356-418
(functions), and what they say about the type of an expression. There are no costs and no order of overloads here.
-/

namespace Verif.Spec
open Verif

/-- A row of the tables of functions. -/
structure Sig where
  name : Str
  params : List Ty
  out : Ty

instance : DecidableEq Sig := fun a b =>
  decidable_of_iff (a.name = b.name ∧ a.params = b.params ∧ a.out = b.out) (by cases a; cases b; simp)

/-- The functions, in the order of the tables. -/
def reference : List Sig :=
  [ ⟨c! "upper", [.litStr], .litStr⟩, ⟨c! "upper", [.ident], .ident⟩,
    ⟨c! "lower", [.litStr], .litStr⟩, ⟨c! "lower", [.ident], .ident⟩,
    ⟨c! "snake_case", [.litStr], .litStr⟩, ⟨c! "snake_case", [.ident], .ident⟩,
    ⟨c! "camel_case", [.litStr], .litStr⟩, ⟨c! "camel_case", [.ident], .ident⟩,
    ⟨c! "pascal_case", [.litStr], .litStr⟩, ⟨c! "pascal_case", [.ident], .ident⟩,
    ⟨c! "normalize", [.raw], .ident⟩,
    ⟨c! "normalize2", [.ident], .ident⟩, ⟨c! "normalize2", [.litStr], .ident⟩, ⟨c! "normalize2", [.litInt], .ident⟩,
    ⟨c! "normalize2", [.path], .ident⟩, ⟨c! "normalize2", [.type], .ident⟩, ⟨c! "normalize2", [.expr], .ident⟩,
    ⟨c! "normalize2", [.tokens], .ident⟩,
    ⟨c! "concat", [.variadic .ident], .ident⟩, ⟨c! "concat", [.ident, .variadic .tokens], .ident⟩,
    ⟨c! "concat", [.variadic .litStr], .litStr⟩, ⟨c! "concat", [.variadic .litInt], .litInt⟩,
    ⟨c! "concat", [.variadic .tokens], .tokens⟩,
    ⟨c! "hash", [.litStr], .litStr⟩, ⟨c! "hash", [.ident], .ident⟩, ⟨c! "hash", [.tokens], .ident⟩,
    ⟨c! "raw", [.raw], .tokens⟩,
    ⟨c! "to_ident", [.tokens], .ident⟩, ⟨c! "to_path", [.tokens], .path⟩, ⟨c! "to_type", [.tokens], .type⟩,
    ⟨c! "to_expr", [.tokens], .expr⟩, ⟨c! "to_str", [.tokens], .litStr⟩, ⟨c! "to_int", [.tokens], .litInt⟩,
    ⟨c! "to_tokens", [.tokens], .tokens⟩ ]

/-- The table of coercions; `raw` is described in the table of types. -/
inductive Converts : Ty → Ty → Prop
  | same (t : Ty) : Converts t t
  | identPath : Converts .ident .path
  | identType : Converts .ident .type
  | identExpr : Converts .ident .expr
  | tokens (t : Ty) : Converts t .tokens
  | raw (t : Ty) : Converts t .raw

/-- `Takes params tys`: arguments of these types can be given for these parameters; `variadic` stands for one or more. -/
inductive Takes : List Ty → List Ty → Prop
  | nil : Takes [] []
  | one {p t : Ty} {ps ts : List Ty} (hp : p.isVariadic = false) (h : Converts t p) (hs : Takes ps ts) : Takes (p :: ps) (t :: ts)
  | many {p t : Ty} {ts : List Ty} (h : ∀ s ∈ t :: ts, Converts s p) : Takes [.variadic p] (t :: ts)

mutual
/-- `HasType Γ e t`: the expression has the type `t` by the tables. If several rows can be used for a call, they must have the same result, except that `tokens`
gives way. -/
inductive HasType (Γ : TyEnv) : Expr → Ty → Prop
  | value (id : Nat) (k : VKind) : HasType Γ (.value id k) (natural Γ k)
  | unread (id : Nat) (args : List Expr) (raw : Nat × Toks) {r : Sig} (hr : r ∈ reference) (hp : r.params = [.raw]) :
      HasType Γ (.call id r.name args (some raw)) r.out
  | call (id : Nat) {args : List Expr} {tys : List Ty} {raw : Option (Nat × Toks)} {r : Sig} (hs : HasTypes Γ args tys) (hr : r ∈ reference)
      (hp : r.params = [.raw] → raw = none) (ht : Takes r.params tys)
      (hu : ∀ r' ∈ reference, r'.name = r.name → Takes r'.params tys → r'.out = r.out ∨ r'.out = .tokens) :
      HasType Γ (.call id r.name args raw) r.out
/-- The same for several expressions. -/
inductive HasTypes (Γ : TyEnv) : List Expr → List Ty → Prop
  | nil : HasTypes Γ [] []
  | cons {e : Expr} {t : Ty} {es : List Expr} {ts : List Ty} (h : HasType Γ e t) (hs : HasTypes Γ es ts) : HasTypes Γ (e :: es) (t :: ts)
end

end Verif.Spec
