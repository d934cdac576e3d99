import Verif.Model.Value
/-!
# Specification of substitution in a token tree

`look n` are the tokens of the value of alias `n`, if there is such an alias; `str v` is the literal that replaces a
string literal of value `v`.
-/

namespace Verif.Spec
open Verif

variable (look : Str → Option Toks) (str : Str → Lit)

mutual
/-- The structural map: every alias and every string literal, at any depth, is replaced; everything else stays. -/
def substTok : Tok → Toks
  | .ident n => (look n).getD [.ident n]
  | .lit (.str _ v) => [.lit (str v)]
  | .group d ts => [.group d (substAll ts)]
  | t => [t]
def substAll : Toks → Toks
  | [] => []
  | t :: ts => substTok t ++ substAll ts
end

mutual
/-- The replaceable leaves (aliases and string literals) in the order of the text. -/
def occTok : Tok → List Tok
  | .ident n => if (look n).isSome then [.ident n] else []
  | .lit (.str r v) => [.lit (.str r v)]
  | .group _ ts => occAll ts
  | _ => []
def occAll : Toks → List Tok
  | [] => []
  | t :: ts => occTok t ++ occAll ts
end

mutual
/-- Only the first `k` replaceable leaves are replaced. -/
def substFirstTok (k : Nat) : Tok → Toks
  | .ident n => if k = 0 then [.ident n] else (look n).getD [.ident n]
  | .lit (.str r v) => if k = 0 then [.lit (.str r v)] else [.lit (str v)]
  | .group d ts => [.group d (substFirst k ts)]
  | t => [t]
def substFirst (k : Nat) : Toks → Toks
  | [] => []
  | t :: ts => substFirstTok k t ++ substFirst (k - (occTok look t).length) ts
end

/-- The alias name of an occurrence (`none` for a string literal). -/
def aliasOf : Tok → Option Str
  | .ident n => some n
  | _ => none

/-- The last alias among the first `k` occurrences. -/
def lastAlias (ts : Toks) (k : Nat) : Option Str := (((occAll look ts).take k).filterMap aliasOf).getLast?

/-- `SameGroups a b`: every group of `a` has a counterpart in `b`, at the corresponding place and with the same
delimiter; single tokens may have become any tokens. -/
inductive SameGroups : Toks → Toks → Prop
  | nil : SameGroups [] []
  | leaf (t : Tok) (new ts us : Toks) (hl : ∀ d ws, t ≠ .group d ws) (h : SameGroups ts us) :
      SameGroups (t :: ts) (new ++ us)
  | group (d : Delim) (vs ws ts us : Toks) (hin : SameGroups vs ws) (h : SameGroups ts us) :
      SameGroups (.group d vs :: ts) (.group d ws :: us)

/-- A place in a token tree. -/
inductive Hole
  | here (pre post : Toks)
  | inside (pre : Toks) (d : Delim) (h : Hole) (post : Toks)

/-- The tree with the given tokens at that place. -/
def Hole.fill : Hole → Toks → Toks
  | here pre post, ts => pre ++ ts ++ post
  | inside pre d h post, ts => pre ++ .group d (h.fill ts) :: post

mutual
/-- `Mentions n ts`: the identifier `n` occurs somewhere in the tree. -/
def mentionsTok (n : Str) : Tok → Prop
  | .ident m => m = n
  | .group _ ts => mentions n ts
  | _ => False
def mentions (n : Str) : Toks → Prop
  | [] => False
  | t :: ts => mentionsTok n t ∨ mentions n ts
end

mutual
/-- All string literals of the tree (source form and value) satisfy `P`. -/
def strLitsTok (P : Str → Str → Prop) : Tok → Prop
  | .lit (.str r v) => P r v
  | .group _ ts => strLits P ts
  | _ => True
def strLits (P : Str → Str → Prop) : Toks → Prop
  | [] => True
  | t :: ts => strLitsTok P t ∧ strLits P ts
end

mutual
/-- The two trees differ at most in the spelling of string literals. -/
def sameButSpellingTok : Tok → Tok → Prop
  | .lit (.str _ v), .lit (.str _ w) => v = w
  | .group d ts, .group e us => d = e ∧ sameButSpelling ts us
  | t, u => t = u
def sameButSpelling : Toks → Toks → Prop
  | [], [] => True
  | t :: ts, u :: us => sameButSpellingTok t u ∧ sameButSpelling ts us
  | _, _ => False
end

mutual
/-- Number of tokens, groups included. -/
def countTok : Tok → Nat
  | .group _ ts => 1 + count ts
  | _ => 1
def count : Toks → Nat
  | [] => 0
  | t :: ts => countTok t + count ts
end

/-- The code for a value: a name or a string is one token, a negative number a sign and a number, and everything else is its own code. -/
def codeOf : VKind → Toks
  | .ident s => [.ident s]
  | .litStr r v => [.lit (.str r v)]
  | .litInt ⟨false, r, v⟩ => [.lit (.int r v)]
  | .litInt ⟨true, r, v⟩ => [.punct '-' false, .lit (.int r v)]
  | .path ts | .type ts | .expr ts | .tokens ts | .raw ts => ts

end Verif.Spec
