import Verif.Spec.Text
import Verif.Spec.Subst
/-!
# One token tree for another

Code in which aliases have been replaced by single token trees: operators have the operands they had before.
-/

namespace Verif.Spec
open Verif

mutual
/-- The names in a token, at any depth. -/
def namesWritten : Tok → List Str
  | .ident n => [n]
  | .group _ ts => namesWrittenL ts
  | _ => []
def namesWrittenL : Toks → List Str
  | [] => []
  | t :: ts => namesWritten t ++ namesWrittenL ts
end

mutual
/-- The second token tree stands for the first: an alias is replaced by the only token tree of its value, a string by a string, a group by a group with the same
delimiters, and everything else is the same, up to spacing. -/
inductive StandsFor (value : Str → Option Toks) : Tok → Tok → Prop
  | alias {n : Str} {t u : Tok} (h : value n = some [t]) (hu : unspacedTok u = unspacedTok t) : StandsFor value (.ident n) u
  | name {n : Str} (h : value n = none) : StandsFor value (.ident n) (.ident n)
  | punct (c : Char) (j j' : Bool) : StandsFor value (.punct c j) (.punct c j')
  | str (r v r' v' : Str) : StandsFor value (.lit (.str r v)) (.lit (.str r' v'))
  | lit {l : Lit} (h : ∀ r v, l ≠ .str r v) : StandsFor value (.lit l) (.lit l)
  | group (d : Delim) {ts us : Toks} (h : OneForOne value ts us) : StandsFor value (.group d ts) (.group d us)
/-- One token tree for each. -/
inductive OneForOne (value : Str → Option Toks) : Toks → Toks → Prop
  | nil : OneForOne value [] []
  | cons {t u : Tok} {ts us : Toks} (h : StandsFor value t u) (hs : OneForOne value ts us) : OneForOne value (t :: ts) (u :: us)
end

end Verif.Spec
