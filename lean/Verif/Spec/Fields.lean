import Verif.Spec.Text
/-!
# Fields of fields of tuples

`t.0.1` consists of the tokens `t`, `.` and `0.1`, where `0.1` is a literal like a floating point number. `syn` reads it as the field `1` of the field `0`, and
prints the tokens `t`, `.`, `0`, `.`, `1`.
-/

namespace Verif.Spec
open Verif

/-- The number that decimal digits stand for. -/
def numeral (s : Str) : Nat := s.foldl (fun n c => 10 * n + (c.toNat - 48)) 0

/-- The digits before and after the point, if there is nothing else; there may be no digits after it, as in `t.0. 1`. -/
def fieldIndices (r : Str) : Option (Str × Str) :=
  match r.dropWhile Char.isDigit with
  | '.' :: j => if r.takeWhile Char.isDigit ≠ [] ∧ j.all Char.isDigit then some (r.takeWhile Char.isDigit, j) else none
  | _ => none

mutual
/-- Code with `0 . 1` instead of `0.1`, without the spacing of punctuation. -/
def byFieldTok : Tok → Toks
  | .lit (.other r) =>
    match fieldIndices r with
    | some (i, j) => .lit (.int i (numeral i)) :: .punct '.' false :: (if j = [] then [] else [.lit (.int j (numeral j))])
    | none => [.lit (.other r)]
  | .punct c _ => [.punct c false]
  | .group d ts => [.group d (byField ts)]
  | .ident s => [.ident s]
  | .lit (.str r v) => [.lit (.str r v)]
  | .lit (.int r v) => [.lit (.int r v)]
def byField : Toks → Toks
  | [] => []
  | t :: ts => byFieldTok t ++ byField ts
end

end Verif.Spec
