import Verif.Spec.Twice
/-!
# The spelling of strings

A string can be written in several ways, as `"a"`, `r"a"` or `"\x61"`.
-/

namespace Verif.Spec
open Verif

/-- Strings with the same texts, one by one. -/
inductive SameTexts : List Expr → List Expr → Prop
  | nil : SameTexts [] []
  | cons (j j' : Nat) (r r' s : Str) {es es' : List Expr} (h : SameTexts es es') :
      SameTexts (.value j (.litStr r s) :: es) (.value j' (.litStr r' s) :: es')

/-- The same function of strings, which are spelled differently: one of the functions of words, `normalize2`, `to_ident`, or `concat` of strings only. -/
inductive Respelled : Expr → Expr → Prop
  | word (i i' j j' : Nat) (r r' s : Str) (raw raw' : Option (Nat × Toks)) {f : Str} {F : Ext → Str → Str} (hf : WordFunction f F) :
      Respelled (.call i f [.value j (.litStr r s)] raw) (.call i' f [.value j' (.litStr r' s)] raw')
  | normalized (i i' j j' : Nat) (r r' s : Str) (raw raw' : Option (Nat × Toks)) :
      Respelled (.call i (S "normalize2") [.value j (.litStr r s)] raw) (.call i' (S "normalize2") [.value j' (.litStr r' s)] raw')
  | named (i i' j j' : Nat) (r r' s : Str) (raw raw' : Option (Nat × Toks)) :
      Respelled (.call i (S "to_ident") [.value j (.litStr r s)] raw) (.call i' (S "to_ident") [.value j' (.litStr r' s)] raw')
  | joined (i i' : Nat) (raw raw' : Option (Nat × Toks)) {es es' : List Expr} (h : SameTexts es es') :
      Respelled (.call i (S "concat") es raw) (.call i' (S "concat") es' raw')

/-- The same value of a definition, with strings spelled differently: in parts which are functions of strings, or in a `hash` of a string. The `hash` must be
the whole value, since elsewhere a name may be expected, and then it is the spelling that is hashed. -/
inductive RespelledValue : Expr → Expr → Prop
  | parts {e e' : Expr} (h : Exchanged Respelled e e') : RespelledValue e e'
  | hashed (i i' j j' : Nat) (r r' s : Str) (raw raw' : Option (Nat × Toks)) :
      RespelledValue (.call i (S "hash") [.value j (.litStr r s)] raw) (.call i' (S "hash") [.value j' (.litStr r' s)] raw')

end Verif.Spec
