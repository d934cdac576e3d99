import Verif.Spec.Interchange
/-! # `normalize2` of a value as it is written, and `normalize` -/

namespace Verif.Spec
open Verif

/-- `Writes ts k`: the tokens are written for the value. -/
inductive Writes : Toks → VKind → Prop
  | ident (s : Str) : Writes [.ident s] (.ident s)
  | path (ts : Toks) : Writes ts (.path ts)
  | type (ts : Toks) : Writes ts (.type ts)
  | expr (ts : Toks) : Writes ts (.expr ts)
  | tokens (ts : Toks) : Writes ts (.tokens ts)
  | str (r v : Str) : Writes [.lit (.str r v)] (.litStr r v)
  | nat (r : Str) (n : Nat) : Writes [.lit (.int r n)] (.litInt ⟨false, r, n⟩)
  | neg (j : Bool) (r : Str) (n : Nat) : Writes [.punct '-' j, .lit (.int r n)] (.litInt ⟨true, r, n⟩)

/-- The text of a value of a kind whose text is what is written, and of which nothing is interpreted. -/
def Plain : VKind → Prop
  | .ident _ | .path _ | .type _ | .expr _ | .tokens _ => True
  | _ => False

/-- The contents of a string, the digits of a number in base ten, the printed tokens of anything else. -/
def contents (E : Ext) : VKind → Str
  | .ident s => s
  | .litStr _ v => v
  | .litInt ⟨neg, _, n⟩ => (if neg then ['-'] else []) ++ Nat.toDigits 10 n
  | .path ts | .type ts | .expr ts | .tokens ts | .raw ts => E.render ts

/-- `normalize2(v)` is exchanged for `normalize(v)`. The value is not the name of an alias (the names in `F` are not), and both have the same text to
normalize, up to normalization. -/
inductive Denormalized (E : Ext) (F : Str → Prop) : Expr → Expr → Prop
  | mk (i i' j : Nat) {ts : Toks} {k : VKind} {raw : Option (Nat × Toks)} {args : List Expr} {r : Nat} (hw : Writes ts k) (hk : ∀ s, k = .ident s → F s)
      (h : normalize E.toCharClass (contents E k) = normalize E.toCharClass (E.render ts)) :
      Denormalized E F (.call i (S "normalize2") [.value j k] raw) (.call i' (S "normalize") args (some (r, ts)))

end Verif.Spec
