import Verif.Model.Walker
import Verif.Model.Value
import Verif.Model.FormatString
/-! # Substitution in one syntax node (`src/substitution/substitute_idents.rs`) -/

namespace Verif

/-- State of `SubstituteIdentsVisitor`, lines 21-25: `error_data`, without the span. -/
abbrev SubstState := Option (Str × Str)

/-- The formatted value of a string literal: `format_string` with the alias values formatted by `format_value`
(`src/substitution/format_string.rs:28-82`). -/
def fmtStr (E : Ext) (subs : Subs) (s : Str) : Str :=
  formatString E.toCharClass (fun n => (subs.get n).map (·.format E)) s

/-- `SubstituteIdentsVisitor`, lines 37-90; `valid` is "`syn::parse2::<N>` succeeds". The methods not listed are the
defaults of the trait. -/
def substVisitor (E : Ext) (valid : Toks → Bool) (subs : Subs) : Visitor SubstState :=
  { Visitor.default SubstState with
    -- lines 38-55
    visitIdent := fun s _ name =>
      match subs.get name with
      | some v => .ok (some (name, E.render v.toTokens), .replace v.toTokens)
      | none => .ok (s, .cont)
    -- lines 56-68
    visitLiteral := fun s _ l =>
      match l with
      | .str _ v =>
        let f := fmtStr E subs v
        .ok (s, .replace [.lit (.str (E.strRepr f) f)])
      | _ => .ok (s, .cont)
    -- lines 69-89; line 78 is the panic
    afterReplace := fun s c => do
      let ts ← Ctx.currentStream c
      if valid ts then .ok s
      else match s with
        | some (name, repl) => .err (.substitution name repl)
        | none => .panic }

/-- `substitute_idents`, lines 94-115; the final parse is `unreachable!` on failure. A node of type `N` is represented by
its tokens. -/
def substituteIdents (E : Ext) (valid : Toks → Bool) (subs : Subs) (node : Toks) : Res Toks := do
  let ts ← walk (substVisitor E valid subs) none node
  if valid ts then .ok ts else .panic

end Verif
