import Verif.Spec.Syntax
/-!
# What an error message shows of a call

The text that a message shows for the tokens of an argument or a call, from the tokens as they stand in the input. `render` is how tokens are printed.
-/

namespace Verif.Spec
open Verif

mutual
/-- `Shows … ts rest t`: the beginning of `ts`, up to `rest`, is an expression, and it is shown as `t`. -/
inductive Shows (render : Toks → Str) (known : Str → Bool) (Y : Syn) : Toks → Toks → Str → Prop
  /-- a call with one argument: all that stands between the parentheses -/
  | one {ts n raw rest p e} (h : CallAt known ts n raw rest) (hp : pieces raw = [p]) (he : ReadsExpr known Y p e []) :
      Shows render known Y ts rest (n ++ ['('] ++ render raw ++ [')'])
  /-- any other number of arguments: one after the other, with commas -/
  | several {ts n raw rest texts} (h : CallAt known ts n raw rest) (hp : (pieces raw).length ≠ 1) (ha : ShowsAll render known Y (pieces raw) texts) :
      Shows render known Y ts rest (n ++ ['('] ++ [',', ' '].intercalate texts ++ [')'])
  /-- something is left over after one of the arguments: none of them -/
  | dropped {ts n raw rest p} (h : CallAt known ts n raw rest) (hp : p ∈ pieces raw) (ht : Trailing known Y p) :
      Shows render known Y ts rest (n ++ ['(', ')'])
  /-- strings: the characters between quotes, without escapes -/
  | str {ts rest r v} (hn : ∀ n raw rest, ¬ CallAt known ts n raw rest) (h : ReadsValue Y ts (.litStr r v) rest) :
      Shows render known Y ts rest ('"' :: v ++ ['"'])
  /-- integers: in base ten, without a suffix -/
  | int {ts rest i} (hn : ∀ n raw rest, ¬ CallAt known ts n raw rest) (h : ReadsValue Y ts (.litInt i) rest) :
      Shows render known Y ts rest ((if i.neg then ['-'] else []) ++ Nat.toDigits 10 i.val)
  | name {ts rest s} (hn : ∀ n raw rest, ¬ CallAt known ts n raw rest) (h : ReadsValue Y ts (.ident s) rest) : Shows render known Y ts rest s
  /-- any other value: the tokens -/
  | code {ts rest v} (hn : ∀ n raw rest, ¬ CallAt known ts n raw rest) (h : ReadsValue Y ts v rest) (hs : ∀ r s, v ≠ .litStr r s)
      (hi : ∀ i, v ≠ .litInt i) (hm : ∀ s, v ≠ .ident s) : Shows render known Y ts rest (render v.toTokens)
/-- Piece by piece. -/
inductive ShowsAll (render : Toks → Str) (known : Str → Bool) (Y : Syn) : List Toks → List Str → Prop
  | nil : ShowsAll render known Y [] []
  | cons {p t ps texts} (h : Shows render known Y p [] t) (hs : ShowsAll render known Y ps texts) : ShowsAll render known Y (p :: ps) (t :: texts)
end

end Verif.Spec
