import Verif.Spec.Twice
import Verif.Spec.Inline
import Verif.Spec.Subst
/-!
# Raw identifiers

In Rust, `r#x` is the name `x`, written so that it may be a keyword.
-/

namespace Verif.Spec
open Verif

/-- The name without `r#`. -/
def plainName : Str → Str
  | 'r' :: '#' :: s => s
  | s => s

mutual
/-- Code with all names written without `r#`. -/
def plainTok : Tok → Tok
  | .ident s => .ident (plainName s)
  | .group d ts => .group d (plainToks ts)
  | t => t
def plainToks : Toks → Toks
  | [] => []
  | t :: ts => plainTok t :: plainToks ts
end

mutual
/-- The alias is written in the code as it is written in its definition, if at all. -/
def asDefinedTok (n : Str) : Tok → Prop
  | .ident s => plainName s = plainName n → s = n
  | .group _ ts => asDefined n ts
  | _ => True
def asDefined (n : Str) : Toks → Prop
  | [] => True
  | t :: ts => asDefinedTok n t ∧ asDefined n ts
end

/-- Definitions of the same names. Those of names in `C` are plain values which may be names written with or without `r#`; such names are not aliases (which
are in `A`). The others are the same and use no alias in `C`. -/
inductive RawDefs (A C : Str → Prop) : List (Str × Expr) → List (Str × Expr) → Prop
  | nil : RawDefs A C [] []
  | same {n : Str} {e e' : Expr} {ds ds' : List (Str × Expr)} (hn : ¬ C n) (he : Renumbered e e') (hu : ∀ s ∈ used e', ¬ C s) (h : RawDefs A C ds ds') :
      RawDefs A C ((n, e) :: ds) ((n, e') :: ds')
  | value {n : Str} (i i' : Nat) (k : VKind) {ds ds' : List (Str × Expr)} (hn : C n) (h : RawDefs A C ds ds') :
      RawDefs A C ((n, .value i k) :: ds) ((n, .value i' k) :: ds')
  | raw {n : Str} (i i' : Nat) {x x' : Str} {ds ds' : List (Str × Expr)} (hn : C n) (hx : plainName x = plainName x') (ha : ¬ A x) (ha' : ¬ A x')
      (h : RawDefs A C ds ds') : RawDefs A C ((n, .value i (.ident x)) :: ds) ((n, .value i' (.ident x')) :: ds')

/-- The same value, or the same name with or without `r#`. -/
inductive RawAlike : VKind → VKind → Prop
  | same (v : VKind) : RawAlike v v
  | name {x x' : Str} (h : plainName x = plainName x') : RawAlike (.ident x) (.ident x')

/-- The same for the values of aliases. -/
inductive RawAlikes : List (Str × VKind) → List (Str × VKind) → Prop
  | nil : RawAlikes [] []
  | cons (n : Str) {v v' : VKind} {vs vs' : List (Str × VKind)} (h : RawAlike v v') (hs : RawAlikes vs vs') : RawAlikes ((n, v) :: vs) ((n, v') :: vs')

end Verif.Spec
