import Verif.Spec.Run
import Verif.Spec.Strings
/-! # Ordinary values: ASCII, no raw identifiers, no negative numbers -/

namespace Verif.Spec

mutual
/-- The values written in an expression; the argument of `raw` and `normalize` is a value as well. -/
def leaves : Expr → List VKind
  | .value _ k => [k]
  | .call _ _ args raw => (raw.map (fun r => VKind.raw r.2)).toList ++ leavesL args
def leavesL : List Expr → List VKind
  | [] => []
  | e :: es => leaves e ++ leavesL es
end

/-- ASCII characters other than `#`. -/
def PlainChar (c : Char) : Prop := c.toNat < 128 ∧ c ≠ '#'

/-- A text of such characters. -/
def PlainText (s : Str) : Prop := ∀ c ∈ s, PlainChar c

instance (c : Char) : Decidable (PlainChar c) := inferInstanceAs (Decidable (_ ∧ _))
instance (s : Str) : Decidable (PlainText s) := inferInstanceAs (Decidable (∀ c ∈ s, PlainChar c))

/-- An identifier in ASCII, not a raw one. -/
def PlainName (C : CharClass) (s : Str) : Prop := PlainText s ∧ ValidIdent C s

/-- An identifier in ASCII which starts with a letter. -/
def LetterName (C : CharClass) (s : Str) : Prop := PlainName C s ∧ ∃ c cs, s = c :: cs ∧ c.isAlpha = true

/-- The texts of a literal. -/
def PlainLiteral : Lit → Prop
  | .str r v => PlainText r ∧ PlainText v
  | .int r _ => PlainText r
  | .other r => PlainText r

section
variable (I : Str → Prop) (J : Char → Prop)

mutual
/-- All identifiers of the tokens are in `I` and all punctuation characters in `J`; literals are plain. -/
def TokFine : Tok → Prop
  | .ident s => I s
  | .punct c _ => J c
  | .lit l => PlainLiteral l
  | .group _ ts => ToksFine ts
def ToksFine : List Tok → Prop
  | [] => True
  | t :: ts => TokFine t ∧ ToksFine ts
end

/-- The same for values; integers are not negative. -/
def ValueFine : VKind → Prop
  | .ident s => I s
  | .litStr r v => PlainText r ∧ PlainText v
  | .litInt i => i.neg = false ∧ PlainText i.repr
  | .path ts => ToksFine I J ts
  | .type ts => ToksFine I J ts
  | .expr ts => ToksFine I J ts
  | .tokens ts => ToksFine I J ts
  | .raw ts => ToksFine I J ts
end

/-- What is assumed of the code outside the crate, all of it about ASCII texts: which ASCII characters may occur in identifiers; that
changing the case of such a text, printing tokens made of such texts and quoting such a text gives such a text; that changing the case of
an identifier gives an identifier (for the functions of `heck`, if it starts with a letter); and that reading such a text as tokens, if it
gives one identifier, gives one which is not raw and which starts with a letter if the text does. -/
structure AsciiExt (E : Ext) : Prop where
  lawful : E.Lawful
  digits : ∀ c, c.isDigit = true → E.xidContinue c = true
  chars : ∀ c, c.toNat < 128 → E.alnum c = true → E.xidContinue c = true ∧ (E.numeric c = false → E.xidStart c = true)
  render : ∀ ts, ToksFine PlainText PlainChar ts → PlainText (E.render ts)
  renderIdent : ∀ s, E.render [.ident s] = s
  strRepr : ∀ s, PlainText s → PlainText (E.strRepr s)
  cases : ∀ s, PlainText s → PlainText (E.toUppercase s) ∧ PlainText (E.toLowercase s) ∧ PlainText (E.snake s) ∧ PlainText (E.lowerCamel s) ∧
    PlainText (E.pascal s)
  names : ∀ s, PlainName E.toCharClass s → PlainName E.toCharClass (E.toUppercase s) ∧ PlainName E.toCharClass (E.toLowercase s)
  letters : ∀ s, LetterName E.toCharClass s → LetterName E.toCharClass (E.toUppercase s) ∧ LetterName E.toCharClass (E.toLowercase s) ∧
    LetterName E.toCharClass (E.snake s) ∧ LetterName E.toCharClass (E.lowerCamel s) ∧ LetterName E.toCharClass (E.pascal s)
  lex : ∀ s i, PlainText s → E.lex s = some [.ident i] → PlainName E.toCharClass i
  lexLetter : ∀ c s i, PlainText (c :: s) → c.isAlpha = true → E.lex (c :: s) = some [.ident i] → LetterName E.toCharClass i

end Verif.Spec
