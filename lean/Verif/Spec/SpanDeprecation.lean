import Verif.Model.SpanDeprecation
import Verif.Spec.Deprecation
/-!
# What attaching deprecation warnings should do to spans
-/

namespace Verif.Spec
open Verif

variable {σ : Type}

/-- As `Inserts`: `b` is `a` with the token lists `xs` inserted, in this order, at some places at any depth; all tokens of `a`, groups too, keep their spans. -/
inductive InsertsS : List (SToks σ) → SToks σ → SToks σ → Prop
  | nil : InsertsS [] [] []
  | keep {xs a b} (t : STok σ) : InsertsS xs a b → InsertsS xs (t :: a) (t :: b)
  | group {xs ys us vs a b} (d : Delim) (sp : σ) : InsertsS xs us vs → InsertsS ys a b →
    InsertsS (xs ++ ys) (.group d us sp :: a) (.group d vs sp :: b)
  | insert {xs a b} (x : SToks σ) : InsertsS xs a b → InsertsS (x :: xs) a (x ++ b)

/-- `sites` and `sites'` split the same tokens in the same way. -/
def SameSites (sites : SitesS σ) (sites' : Sites) : Prop := ∀ k ts, SCst.eraseL (sites k ts) = sites' k (STok.eraseL ts)

end Verif.Spec
