import Verif.Spec.Items
import Verif.Spec.Subst
/-! # The streams parsed by the substitution in one part of the code -/

namespace Verif.Spec
open Verif

/-- The members of the list up to and including the first that is not good. -/
def tried {α} (good : α → Bool) : List α → List α
  | [] => []
  | x :: l => if good x then x :: tried good l else [x]

variable (look : Str → Option Toks) (str : Str → Lit)

/-- The code with the first replaceable leaf replaced, with the first two, and so on to all of them. -/
def stages (ts : Toks) : List Toks :=
  (List.range (occAll look ts).length).map (fun k => substFirst look str (k + 1) ts)

/-- What is parsed for one piece of code, and as what: a statement is put in braces first, which is parsed; then the code after
each replacement; then the result once more. -/
def partParsed (p : PartKind × Toks) : Parts :=
  (if p.1 = .block then [p] else []) ++ (stages look str p.2 ++ [substAll look str p.2]).map (fun ts => (p.1, ts))

/-- The same for pieces one after the other. -/
def partsParsed (ps : Parts) : Parts := ps.flatMap (partParsed look str)

end Verif.Spec
