import Verif.Model.Basic
/-!
# Character classes

The Unicode tables behind `char::is_alphanumeric` etc. are external; they are a parameter.
-/

namespace Verif

/-- The character predicates of Rust's `char` used by the code (`src/funcs.rs:57-76`,
`src/substitution/format_string.rs:60`) and of the lexer (`Ident::new`). -/
structure CharClass where
  /-- `char::is_alphabetic` -/
  alphabetic : Char → Bool
  /-- `char::is_numeric` -/
  numeric : Char → Bool
  /-- `char::is_whitespace` -/
  whitespace : Char → Bool
  /-- characters allowed at the start of an identifier, apart from `_` -/
  xidStart : Char → Bool
  /-- characters allowed inside an identifier (includes `_`) -/
  xidContinue : Char → Bool

namespace CharClass
variable (C : CharClass)

/-- `char::is_alphanumeric` is documented as `is_alphabetic || is_numeric`. -/
def alnum (c : Char) : Bool := C.alphabetic c || C.numeric c

/-- Lexical identifier check done by `proc_macro2::Ident::new` (which panics otherwise);
keywords and `_` are accepted, raw identifiers `r#x` are not. -/
def lexIdent : Str → Bool
  | [] => false
  | c :: cs => (c == '_' || C.xidStart c) && cs.all C.xidContinue

/-- ASCII instance of the tables, extended by the one non-ASCII character `²`
(U+00B2: numeric, not XID_Continue), used for examples and counterexamples. -/
def ascii : CharClass where
  alphabetic c := c.isAlpha
  numeric c := c.isDigit || c == '²'
  whitespace c := c.isWhitespace
  xidStart c := c.isAlpha
  xidContinue c := c.isAlphanum || c == '_'

/-- Facts about the real Unicode tables that some theorems need. -/
structure Lawful : Prop where
  underscore_not_alnum : C.alnum '_' = false
  underscore_continue : C.xidContinue '_' = true
  start_continue : ∀ c, C.xidStart c = true → C.xidContinue c = true
  percent_not_space : C.whitespace '%' = false

theorem ascii_lawful : ascii.Lawful where
  underscore_not_alnum := by decide
  underscore_continue := by decide
  start_continue c h := by
    simp only [ascii, Char.isAlphanum, Bool.or_eq_true] at *
    exact Or.inl (Or.inl h)
  percent_not_space := by decide
end CharClass

end Verif
