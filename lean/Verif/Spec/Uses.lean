import Verif.Spec.Inline
import Verif.Spec.Items
import Verif.Spec.Subst
/-! # Which names a piece of code uses -/

namespace Verif.Spec
open Verif

/-- The placeholder `% n %` stands somewhere in the string `s`: a percent-free text between two percents, which is `n` when its
whitespace is left out. -/
def InPlaceholder (C : CharClass) (n s : Str) : Prop :=
  ∃ pre body post, s = pre ++ '%' :: body ++ '%' :: post ∧ '%' ∉ body ∧ body.filter (fun c => !C.whitespace c) = n

mutual
/-- The name occurs as an identifier or in a placeholder of a string literal, at any depth. -/
def usesTok (C : CharClass) (n : Str) : Tok → Prop
  | .ident m => m = n
  | .lit (.str _ v) => InPlaceholder C n v
  | .group _ ts => uses C n ts
  | _ => False
def uses (C : CharClass) (n : Str) : Toks → Prop
  | [] => False
  | t :: ts => usesTok C n t ∨ uses C n ts
end

mutual
/-- The name occurs in a placeholder of a string literal, at any depth. -/
def shownTok (C : CharClass) (n : Str) : Tok → Prop
  | .lit (.str _ v) => InPlaceholder C n v
  | .group _ ts => shown C n ts
  | _ => False
def shown (C : CharClass) (n : Str) : Toks → Prop
  | [] => False
  | t :: ts => shownTok C n t ∨ shown C n ts
end

/-- The name is shown in a string literal of the block (outside the same where-clauses). -/
def ShownInBlock (C : CharClass) (n : Str) (b : List Stmt) : Prop := ∃ p ∈ stmtsParts b, shown C n p.2

/-- The name is used in the block (outside the where-clauses of structs, enums, unions, traits and impls). -/
def UsedInBlock (C : CharClass) (n : Str) (b : List Stmt) : Prop := ∃ p ∈ stmtsParts b, uses C n p.2

/-- The name is an identifier of the block (outside the same where-clauses). -/
def MentionedInBlock (n : Str) (b : List Stmt) : Prop := ∃ p ∈ stmtsParts b, mentions n p.2

/-- All identifiers used in the right-hand sides of definitions. -/
def usedIn (items : List (Str × Expr)) : List Str := items.flatMap fun i => used i.2

/-- No definition uses a name that is defined later. -/
def NoForward : List (Str × Expr) → Prop
  | [] => True
  | (_, e) :: items => (∀ y ∈ items.map (·.1), y ∉ used e) ∧ NoForward items

end Verif.Spec
