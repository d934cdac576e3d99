import Verif.Lite.Rust
/-! # Running parts of the model on the repository's unit tests -/

namespace Verif.Lite
open Verif

/-- `terminated_value_parsing`, `src/parse/value.rs:329-353`. Tokens are compared without spacing, as printing a parsed value is not modelled. -/
def Parsed (input value : Str) (t : Ty) (rest : Str) : Prop :=
  match parseValue syn (fun k => k) (toks input) 0 with
  | (.ok (.value _ v, r), _) => plain v.toTokens = plain (toks value) ∧ v.ty = t ∧ plain r = plain (toks rest)
  | _ => False
instance (a b c : Str) (t : Ty) : Decidable (Parsed a b t c) := by
  unfold Parsed
  split <;> infer_instance

/-- `basic_substitution` and `ast_recursive_substitution`, `src/substitution/alias_substitution_visitor.rs:518-535` and the like. -/
def Visits (subs : Subs) (input expected : Str) : Prop :=
  match parseBlock (toks input) with
  | some b => (visitBlock ext syn.toGrammar subs b).map (fun b => plain (stmtsToks b)) = .ok (plain (toks expected))
  | none => False
instance (subs : Subs) (a b : Str) : Decidable (Visits subs a b) := by
  unfold Visits
  split <;> infer_instance

/-- `substitution`, `src/substitution/substitute_idents.rs`. -/
def Substitutes (subs : Subs) (input expected : Str) : Prop :=
  (substituteIdents ext (fun ts => (parseBlock ts).isSome) subs (toks input)).map plain = .ok (plain (toks expected))
instance (subs : Subs) (a b : Str) : Decidable (Substitutes subs a b) := inferInstanceAs (Decidable (_ = _))

end Verif.Lite
