import Verif.Model.Reports
import Verif.Spec.Faults
/-! # The messages of a syntax error -/

namespace Verif.Spec

mutual
/-- What is wrong between the parentheses of a tuple of names: `p` is left where it is wrong. -/
inductive TupleFault : Toks → Why → Toks → Prop
  | here {c : Toks} {w : Why} {p : Toks} (hne : c ≠ []) (h : MemberFault c w p) : TupleFault c w p
  | comma {c : Toks} {a : PTup Alias} {t : Tok} {r : Toks} (hne : c ≠ []) (h : ReadsTup ReadsAlias c a (t :: r)) (ht : ∀ j, t ≠ .punct ',' j) :
      TupleFault c .comma (t :: r)
  | later {c : Toks} {a : PTup Alias} {j : Bool} {r : Toks} {w : Why} {p : Toks} (hne : c ≠ []) (h : ReadsTup ReadsAlias c a (.punct ',' j :: r))
      (hr : TupleFault r w p) : TupleFault c w p
/-- What is wrong with a member of such a tuple, which should be a name or a tuple again. -/
inductive MemberFault : Toks → Why → Toks → Prop
  | name {ts : Toks} (hp : ∀ c r, ¬ First ts (.group .paren c) r) (hn : ∀ n r, First ts (.ident n) r → n ∈ keywords) : MemberFault ts .name ts
  | tuple {ts c r : Toks} {w : Why} {p : Toks} (hp : First ts (.group .paren c) r) (h : TupleFault c w p) : MemberFault ts w p
end

/-- The messages for the mistake `w` at `r`: for a tuple of names which cannot be read there are three, what is wrong in general, what is wrong with the
tuple, and that it is not a name; for a missing separator as well; else it is one. -/
inductive Messages : Why → Toks → List Report → Prop
  | one {w : Why} {r : Toks} (h1 : w ≠ .loopAlias) (h2 : w ≠ .separator) : Messages w r [(w, r)]
  | alias {ts c r : Toks} {w : Why} {p : Toks} (hp : First ts (.group .paren c) r) (h : TupleFault c w p) :
      Messages .loopAlias ts [(.loopAlias, ts), (w, p), (.name, ts)]
  | separator (r : Toks) : Messages .separator r [(.separator, r), (.comma, r), (.semicolon, r)]

end Verif.Spec
