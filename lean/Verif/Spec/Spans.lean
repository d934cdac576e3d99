import Verif.Model.Spans
import Verif.Spec.Typing
/-!
# Specification of where generated code points
-/

namespace Verif.Spec
open Verif

variable {σ : Type}

mutual
/-- The spans of a token and, of a group, also of the tokens in it. -/
def spansTok : STok σ → List σ
  | .ident _ sp => [sp]
  | .punct _ _ sp => [sp]
  | .lit _ sp => [sp]
  | .group _ ts sp => sp :: spans ts
def spans : SToks σ → List σ
  | [] => []
  | t :: ts => spansTok t ++ spans ts
end

/-- The functions that change the letters of one name or string. -/
def caseFunctions : List Str := [c! "upper", c! "lower", c! "snake_case", c! "camel_case", c! "pascal_case"]

/-- The functions that make a new name or literal. -/
def makingFunctions : List Str := [c! "normalize", c! "normalize2", c! "hash"]

/-- The functions that pass on the code they are given. -/
def passingFunctions : List Str :=
  [c! "to_ident", c! "to_path", c! "to_type", c! "to_expr", c! "to_str", c! "to_int", c! "to_tokens"]

mutual
/-- `Points P src given e te ts`: the tokens `ts` of the value of `e`, typed as `te`, have the spans they should have, when the values of earlier aliases
are `given`. -/
inductive Points (P : SpanOps σ) (src : Source σ) (given : Str → Option (SVal σ)) : Expr → TExpr → SToks σ → Prop
  /-- code written as a value points to itself -/
  | written {id k t} : (∀ n, k = .ident n → given n = none) → Points P src given (.value id k) (.val k t) (src.vals id).toTokens
  /-- an alias points to where its value does -/
  | alias {id n t v} : given n = some v → Points P src given (.value id (.ident n)) (.val (.ident n) t) v.toTokens
  /-- `upper(x)` points to where `x` does -/
  | letters {id name a ta raw f t u ts} : name ∈ caseFunctions → Points P src given a ta [u] → spans ts = spans [u] →
      Points P src given (.call id name [a] raw) (.call f [ta] t) ts
  /-- `hash(x)` points to the word `hash` -/
  | made {id name args raw f tes t ts} : name ∈ makingFunctions → (∀ sp ∈ spans ts, sp = src.calls id) →
      Points P src given (.call id name args raw) (.call f tes t) ts
  /-- `concat` of names, of strings or of integers points to the word `concat` -/
  | concat {id args raw f tes t ty ts} : f.args = [.variadic ty] → ty ∈ [.ident, .litStr, .litInt] → (∀ sp ∈ spans ts, sp = src.calls id) →
      Points P src given (.call id c! "concat" args raw) (.call f tes t) ts
  /-- `concat` of a name and something else points to the invocation -/
  | mixed {id args raw f tes t ts} : f.args = [.ident, .variadic .tokens] → (∀ sp ∈ spans ts, sp = P.callSite) →
      Points P src given (.call id c! "concat" args raw) (.call f tes t) ts
  /-- `concat` of anything else points to where the arguments do -/
  | pasted {id args raw f tes t tss} : f.args = [.variadic .tokens] → PointsL P src given args tes tss →
      Points P src given (.call id c! "concat" args raw) (.call f tes t) tss.flatten
  /-- `to_type(x)` points to where `x` does -/
  | passed {id name a ta raw f t us ts} : name ∈ passingFunctions → Points P src given a ta us → spans ts = spans us →
      (name = c! "to_ident" → ∀ r s sp, us ≠ [.lit (.str r s) sp]) → (name = c! "to_int" → ∀ j sp r n sq, us ≠ [.punct '-' j sp, .lit (.int r n) sq]) →
      Points P src given (.call id name [a] raw) (.call f [ta] t) ts
  /-- `to_ident("x")` points to the invocation -/
  | parsed {id a ta raw f t r s sp n} : Points P src given a ta [.lit (.str r s) sp] →
      Points P src given (.call id c! "to_ident" [a] raw) (.call f [ta] t) [.ident n P.callSite]
  /-- `to_int(-1)` points to both the sign and the number -/
  | joined {id a ta raw f t j sp r n sq ts} : Points P src given a ta [.punct '-' j sp, .lit (.int r n) sq] → (∀ s ∈ spans ts, s = P.join sp sq) →
      Points P src given (.call id c! "to_int" [a] raw) (.call f [ta] t) ts
  /-- `raw(x)` points to `x` -/
  | raw {id args i us te} : Points P src given (.call id c! "raw" args (some (i, us))) te (src.vals i).toTokens
/-- The same for several expressions. -/
inductive PointsL (P : SpanOps σ) (src : Source σ) (given : Str → Option (SVal σ)) : List Expr → List TExpr → List (SToks σ) → Prop
  | nil : PointsL P src given [] [] []
  | cons {e te ts es tes tss} : Points P src given e te ts → PointsL P src given es tes tss → PointsL P src given (e :: es) (te :: tes) (ts :: tss)
end

/-- The values of the definitions, in order, with spans from where they were written. -/
inductive Traced (P : SpanOps σ) (src : Source σ) :
    (Str → Option (SVal σ)) → List (Alias × Expr) → List (Str × TExpr) → List (Str × SVal σ) → Prop
  | nil {given} : Traced P src given [] [] []
  | cons {given alias e items te tes v vs} : Points P src given e te v.toTokens →
      Traced P src (fun n => if n = alias.2 then some v else given n) items tes vs →
      Traced P src given ((alias, e) :: items) ((alias.2, te) :: tes) ((alias.2, v) :: vs)

mutual
/-- The source says of every value in `e` what it is, also of the unparsed arguments of a call, which every call has (`src/parse/call.rs:36-39`) and which
are no values otherwise (`src/parse/value.rs`). -/
inductive Fits (src : Source σ) : Expr → Prop
  | value {id k} : (src.vals id).erase = k → k.ty ≠ .raw → Fits src (.value id k)
  | call {id name args i ts} : FitsL src args → (src.vals i).erase = .raw ts → Fits src (.call id name args (some (i, ts)))
inductive FitsL (src : Source σ) : List Expr → Prop
  | nil : FitsL src []
  | cons {e es} : Fits src e → FitsL src es → FitsL src (e :: es)
end

/-! ## Substitution -/

section
variable (look : Str → Option (SToks σ)) (str : Str → Lit)

mutual
/-- The structural map: every alias is replaced by its tokens with their spans, every string literal by a literal with the same span; everything else
keeps its span. -/
def substTokS : STok σ → SToks σ
  | .ident n sp => (look n).getD [.ident n sp]
  | .lit (.str _ v) sp => [.lit (str v) sp]
  | .group d ts sp => [.group d (substAllS ts) sp]
  | t => [t]
def substAllS : SToks σ → SToks σ
  | [] => []
  | t :: ts => substTokS t ++ substAllS ts
end

mutual
/-- The replaceable leaves in the order of the text. -/
def occTokS : STok σ → SToks σ
  | .ident n sp => if (look n).isSome then [.ident n sp] else []
  | .lit (.str r v) sp => [.lit (.str r v) sp]
  | .group _ ts _ => occAllS ts
  | _ => []
def occAllS : SToks σ → SToks σ
  | [] => []
  | t :: ts => occTokS t ++ occAllS ts
end

mutual
/-- Only the first `k` replaceable leaves are replaced. -/
def substFirstTokS (k : Nat) : STok σ → SToks σ
  | .ident n sp => if k = 0 then [.ident n sp] else (look n).getD [.ident n sp]
  | .lit (.str r v) sp => if k = 0 then [.lit (.str r v) sp] else [.lit (str v) sp]
  | .group d ts sp => [.group d (substFirstS k ts) sp]
  | t => [t]
def substFirstS (k : Nat) : SToks σ → SToks σ
  | [] => []
  | t :: ts => substFirstTokS k t ++ substFirstS (k - (occTokS look t).length) ts
end

/-- The name and the span of an occurrence of an alias. -/
def aliasAt : STok σ → Option (Str × σ)
  | .ident n sp => some (n, sp)
  | _ => none

/-- The last alias among the first `k` occurrences. -/
def lastAliasS (ts : SToks σ) (k : Nat) : Option (Str × σ) := (((occAllS look ts).take k).filterMap aliasAt).getLast?
end

end Verif.Spec
