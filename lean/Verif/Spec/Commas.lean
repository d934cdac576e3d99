import Verif.Spec.Syntax
import Verif.Spec.Message
import Verif.Spec.Run
/-! # Trailing commas -/

namespace Verif.Spec
open Verif

mutual
/-- The expression without the tokens between the parentheses of its calls, except for `raw` and `normalize`, which are about
these tokens. -/
def unquoted : Expr → Expr
  | .value id k => .value id k
  | .call id name args raw => .call id name (unquotedL args) (if name = S "raw" ∨ name = S "normalize" then raw else none)
def unquotedL : List Expr → List Expr
  | [] => []
  | e :: es => unquoted e :: unquotedL es
end

mutual
/-- Two ways to write the same expression: the arguments of calls, at any depth, may be followed by a comma or not. -/
inductive Rewrites (known : Str → Bool) : Toks → Toks → Prop
  | same (ts : Toks) : Rewrites known ts ts
  | call {n : Str} {raw raw' : Toks} (rest : Toks) (hk : known n = true) (hn : n ∉ keywords) (hr : n ≠ S "raw") (hz : n ≠ S "normalize")
      (h : RewritesL known (pieces raw) (pieces raw')) :
      Rewrites known (.ident n :: .group .paren raw :: rest) (.ident n :: .group .paren raw' :: rest)
/-- The same for several pieces of text. -/
inductive RewritesL (known : Str → Bool) : List Toks → List Toks → Prop
  | nil : RewritesL known [] []
  | cons {p p' : Toks} {ps ps' : List Toks} (h : Rewrites known p p') (hs : RewritesL known ps ps') : RewritesL known (p :: ps) (p' :: ps')
end

/-- Two ways to write the same call. -/
inductive RewritesCall (known : Str → Bool) : Toks → Toks → Prop
  | mk {n : Str} {raw raw' : Toks} (hk : known n = true) (hn : n ∉ keywords) (hr : raw' = raw ∨ n ≠ S "raw" ∧ n ≠ S "normalize")
      (h : RewritesL known (pieces raw) (pieces raw')) : RewritesCall known [.ident n, .group .paren raw] [.ident n, .group .paren raw']

/-- Two ways to write the same definitions: those whose value is a call may be written with other commas; other values are the same (and end at the same
comma, as read with `known` and `Y`); from some point on everything is the same. -/
inductive RewritesDefs (known : Str → Bool) (Y : Syn) : Toks → Toks → Prop
  | same (ts : Toks) : RewritesDefs known Y ts ts
  | cons {n : Str} {j : Bool} {v v' : Toks} {b : Bool} {sep : Tok} {ts ts' : Toks} (hn : n ∉ keywords) (hv : RewritesCall known v v') (hs : IsSep b sep)
      (h : RewritesDefs known Y ts ts') : RewritesDefs known Y (.ident n :: .punct '=' j :: v ++ sep :: ts) (.ident n :: .punct '=' j :: v' ++ sep :: ts')
  | value {n : Str} {j j' : Bool} {v : Toks} {ts ts' : Toks} (hn : n ∉ keywords)
      (hv : ∃ e, ReadsExpr known Y (v ++ .punct ',' j' :: ts) e (.punct ',' j' :: ts))
      (hv' : ∃ e, ReadsExpr known Y (v ++ .punct ',' j' :: ts') e (.punct ',' j' :: ts'))
      (h : RewritesDefs known Y ts ts') :
      RewritesDefs known Y (.ident n :: .punct '=' j :: v ++ .punct ',' j' :: ts) (.ident n :: .punct '=' j :: v ++ .punct ',' j' :: ts')
  | last {n : Str} {j : Bool} {v v' : Toks} (hn : n ∉ keywords) (hv : RewritesCall known v v') :
      RewritesDefs known Y (.ident n :: .punct '=' j :: v) (.ident n :: .punct '=' j :: v')

/-- The last token is not a comma (nor a group without delimiters, which could end with one). -/
def NoFinalComma (c : Toks) : Prop := ∃ u t, c = u ++ [t] ∧ (∀ d, t ≠ .group .none d) ∧ ∀ j, t ≠ .punct ',' j

/-- The tokens are the same, or one of the two has a comma at the end in addition. -/
inductive FinalComma : Toks → Toks → Prop
  | same (c : Toks) : FinalComma c c
  | added {c : Toks} (j : Bool) (h : NoFinalComma c) : FinalComma c (c ++ [.punct ',' j])
  | dropped {c : Toks} (j : Bool) (h : NoFinalComma c) : FinalComma (c ++ [.punct ',' j]) c

/-- Two ways to write a loop `for alias in [list]`: a comma after the last element of the list or not, and the same for a tuple of
aliases. -/
inductive RewritesLoop : Tok × Toks → Tok × Toks → Prop
  | simple (t : Tok) (ht : ∀ d, t ≠ .group .none d) {c c' : Toks} (h : FinalComma c c') : RewritesLoop (t, c) (t, c')
  | tuple {x x' c c' : Toks} (hx : FinalComma x x') (h : FinalComma c c') : RewritesLoop (.group .paren x, c) (.group .paren x', c')

/-- The same for several loops. -/
inductive RewritesLoops : List (Tok × Toks) → List (Tok × Toks) → Prop
  | nil : RewritesLoops [] []
  | cons {l l' : Tok × Toks} {ls ls' : List (Tok × Toks)} (h : RewritesLoop l l') (hs : RewritesLoops ls ls') : RewritesLoops (l :: ls) (l' :: ls')

/-- `syn`'s parsers stop before a comma in the same way as before the end. -/
def IgnoresComma (p : Toks → Option Nat) : Prop := ∀ u j, p (u ++ [.punct ',' j]) = p u ∧ ∀ n, p u = some n → n ≤ u.length

/-- `syn`'s parsers stop before a comma that comes right after what they can read: more text after the comma changes nothing, unless they read beyond
the comma (as in `Result<u8, u16>`), and then they could not read what is before it. -/
def StopsBeforeComma (p : Toks → Option Nat) : Prop := ∀ u j r n,
  (p u = some n → n ≤ u.length ∧ p (u ++ .punct ',' j :: r) = some n) ∧ (p (u ++ .punct ',' j :: r) = some n → n ≤ u.length → p u = some n)

/-- `for t in [c]`, once for each loop. -/
def loopsText : List (Tok × Toks) → Toks
  | [] => []
  | (t, c) :: ls => .ident (S "for") :: t :: .ident (S "in") :: .group .bracket c :: loopsText ls

/-- The same macro is invoked with `ts` and with `ts'` (and the same item). -/
inductive Replaced (ts ts' : Toks) : Invocation → Invocation → Prop
  | compose : Replaced ts ts' (.compose ts) (.compose ts')
  | composeIdents : Replaced ts ts' (.composeIdents ts) (.composeIdents ts')
  | composeItem (item : Toks) : Replaced ts ts' (.composeItem ts item) (.composeItem ts' item)

/-- An output, without the quotation of the call or value an error is about. -/
def blurO : Output → Output
  | .compileError e => .compileError (blur e)
  | o => o

end Verif.Spec
