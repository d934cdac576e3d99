import Verif.Model.Cursor
import Verif.Spec.Syntax
/-! # Where cursors stand -/

namespace Verif.Spec
open Verif

/-- Whether an entry is a token. -/
def isToken : Entry → Bool
  | .leaf _ => true
  | _ => false

/-- The number of tokens in the entries from one position up to another one. -/
def tokensBetween (buf : List Entry) (i j : Nat) : Nat := ((buf.drop i).take (j - i)).countP isToken

/-- The entries up to the end of a group (or of the input), if some groups in it have been entered and not been left: the lists are what is left of them,
the innermost one first. -/
def segment : List Toks → List Entry
  | [] => []
  | [r] => toksEntries r
  | r :: rs => toksEntries r ++ .end_ :: segment rs

/-- `Sees buf c ts`: what the cursor has in front of it, up to the end of its group or of the input, are the tokens `ts`. It may stand in groups without
delimiters which it has entered; it never stands at the end of one. -/
def Sees (buf : List Entry) (c : Cursor) (ts : Toks) : Prop :=
  ∃ pre rs post, buf = pre ++ segment rs ++ .end_ :: post ∧ c.ptr = pre.length ∧ c.scope = pre.length + (segment rs).length ∧ rs.flatten = ts ∧
    ∀ rs', rs = [] :: rs' → rs' = []

end Verif.Spec
