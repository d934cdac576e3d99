import Verif.Model.Interp
/-!
# What a syntax error says, and where it points (`src/parse`, `src/util/combined.rs`, `src/error.rs`)

`Model/Parse` only says that an input is refused. Here the same parsers say why, and which tokens were left at the place the error
points to: an error is reported at the first of these tokens, or at the end of the input (of the group) if there are none. The
functions below follow the same lines as those of `Model/Parse` without the `d` (`Proofs/Diagnose` shows that they accept and
refuse the same). Simplification: the text of messages of `syn` is not modelled, only what was expected.
-/

namespace Verif

/-- What a syntax error says. -/
inductive Why where
  /-- `syn`: expected identifier -/
  | name
  /-- `syn`: expected `for` -/
  | kwFor
  /-- `syn`: expected `in` -/
  | kwIn
  /-- `syn`: expected square brackets -/
  | brackets
  /-- `syn`: expected `,` -/
  | comma
  /-- `syn`: expected `;` -/
  | semicolon
  /-- `syn`: expected parentheses -/
  | parens
  /-- `syn`: expected `=` -/
  | equals
  /-- `syn`: expected curly braces -/
  | braces
  /-- `syn`: whatever it finds wrong in the block -/
  | block
  /-- `syn`: unexpected token, when the parser is done -/
  | leftOver
  /-- `src/parse/loop_alias.rs:32-36` -/
  | loopAlias
  /-- `src/parse/loop_source_value_list.rs:34-38` -/
  | loopValue
  /-- `src/parse/expr.rs:31-35` -/
  | value
  /-- `src/util/combined.rs:44-48` -/
  | separator
  /-- `src/parse/alias_spec.rs:28` -/
  | expectedSep
  /-- `src/parse/alias_spec.rs:33`, `src/parse/raw_ast.rs:45` -/
  | mixed
  /-- `src/parse/loop_spec.rs:16` -/
  | noLoops
  /-- `src/parse/compose_item_spec.rs:39-40` -/
  | loopsSep
deriving DecidableEq

/-- The messages of the crate itself: `src/parse/core.rs:4`, `src/parse/loop_alias.rs:33`, `src/parse/loop_source_value_list.rs:35`, `src/parse/expr.rs:32`,
`src/util/combined.rs:45`, `src/parse/alias_spec.rs:28`, `src/parse/loop_spec.rs:16`, `src/parse/compose_item_spec.rs:40`. -/
def Why.text : Why → Option Str
  | .mixed => some (S "Mixing \",\" and \";\" as separators is not allowed")
  | .loopAlias => some (S "Failed to parse loop alias (see errors below)")
  | .loopValue => some (S "Failed to parse loop source value (see errors below)")
  | .value => some (S "Expected argument or function call (see the errors below)")
  | .separator => some (S "Unable to parse any of the combined tokens (see the errors below)")
  | .expectedSep => some (S "Expected \",\" or \";\"")
  | .noLoops => some (S "Failed to parse any loops")
  | .loopsSep => some (S "Trailing separator after loops is not allowed in #[compose_item].")
  | _ => none

/-- Result of a parser that says why it fails. -/
inductive DRes (α : Type) where
  | ok (a : α) (rest : Toks)
  | err (w : Why) (place : Toks)
  | panic

/-- A parser (`P`) that says why it fails. -/
def D (α : Type) : Type := Toks → Nat → DRes α × Nat

namespace D

/-- The `?` operator. -/
def bind {α β : Type} (x : D α) (f : α → D β) : D β := fun ts k =>
  match x ts k with
  | (.ok a ts', k') => f a ts' k'
  | (.err w r, k') => (.err w r, k')
  | (.panic, k') => (.panic, k')

instance : Monad D where
  pure a := fun ts k => (.ok a ts, k)
  bind := bind

/-- `return Err(input.error(…))`. -/
def fail {α : Type} (w : Why) : D α := fun ts k => (.err w ts, k)

/-- A Rust panic. -/
def panic {α : Type} : D α := fun _ k => (.panic, k)

/-- A parser whose errors are reported at the place where it begins. -/
def of {α : Type} (w : Toks → Why) (x : P α) : D α := fun ts k =>
  match x ts k with
  | (.ok (a, r), k') => (.ok a r, k')
  | (.err _, k') => (.err (w ts) ts, k')
  | (.panic, k') => (.panic, k')

/-- The tokens left. -/
def look : D Toks := fun ts k => (.ok ts ts, k)

/-- `next_unique_id()`. -/
def fresh (ids : Nat → Nat) : D Nat := fun ts k => (.ok (ids k) ts, k + 1)

/-- Parsing the contents of a group (see `P.within`). -/
def within {α : Type} (content : Toks) (x : D α) : D α := fun ts k =>
  match x content k with
  | (.ok a [], k') => (.ok a ts, k')
  | (.ok _ (t :: r), k') => (.err .leftOver (t :: r), k')
  | (.err w r, k') => (.err w r, k')
  | (.panic, k') => (.panic, k')

end D

/-- `ParseBuffer::parse_terminated(parser, Token![,])` of `syn` (see `parseTerminatedLoop`). -/
def dTerminatedLoop {α : Type} (x : D α) : Nat → D (List α)
  | 0 => D.panic
  | n + 1 => do
    if (← D.look).isEmpty then return []
    let v ← x
    if (← D.look).isEmpty then return [v]
    D.of (fun _ => .comma) (parsePunct ',')
    let vs ← dTerminatedLoop x n
    return v :: vs

def dTerminated {α : Type} (x : D α) : D (List α) := fun ts k => dTerminatedLoop x (tokCount ts + 1) ts k

/-! ## Definitions -/

/-- `impl Parse for AliasValue`, `src/parse/alias_value.rs:8-16`, `TerminatedExpr`, `src/parse/expr.rs:45-58`, and `Combined`,
`src/util/combined.rs:24-49`: if neither a comma nor a semicolon follows, the error is reported at what follows. -/
def dAliasValue (Y : Syn) (known : Str → Bool) (ids : Nat → Nat) : D (Nat × Expr) := do
  let e ← D.of (fun _ => .value) (parseE Y known ids)
  let rest ← D.look
  if !(rest.isEmpty || peekPunct ',' rest || peekPunct ';' rest) then D.fail .separator
  let id ← D.fresh ids
  return (id, e)

/-- `impl Parse for AliasSpecItem`, `src/parse/alias_spec_item.rs:7-20`. -/
def dItem (Y : Syn) (known : Str → Bool) (ids : Nat → Nat) : D PItem := do
  let alias ← D.of (fun _ => .name) (parseAlias ids)
  D.of (fun _ => .equals) (parsePunct '=')
  let (valueId, expr) ← dAliasValue Y known ids
  let id ← D.fresh ids
  return ⟨id, alias, valueId, expr⟩

/-- The loop of `impl Parse for AliasSpec`, `src/parse/alias_spec.rs:13-42`: mixed separators are reported behind the separator. -/
def dItems (Y : Syn) (known : Str → Bool) (ids : Nat → Nat) : Nat → Option Bool → D (List PItem × Option Bool)
  | 0, _ => D.panic
  | n + 1, used => do
    let item ← dItem Y known ids
    if (← D.look).isEmpty then return ([item], used)
    let sep ← D.of (fun _ => .expectedSep) parseSep
    if mixes used sep then D.fail .mixed
    let used := some (used.getD sep)
    if !peekIdent (← D.look) then return ([item], used)
    let (items, used) ← dItems Y known ids n used
    return (item :: items, used)

/-- `impl Parse for AliasSpec`, `src/parse/alias_spec.rs:8-50`. -/
def dSpec (Y : Syn) (known : Str → Bool) (ids : Nat → Nat) : D PSpec := do
  let n := tokCount (← D.look) + 1
  let (items, comma) ← dItems Y known ids n none
  let id ← D.fresh ids
  return ⟨id, items, comma⟩

/-! ## Loops -/

/-- `combine_errors`, `src/error.rs:91-105`, in `impl Parse for LoopAlias`, `src/parse/loop_alias.rs:6-38`: a single error is reported as it is, several
errors with a message of their own. There are two if a parenthesis comes first. -/
def aliasWhy (ts : Toks) : Why := if peekParen ts then .loopAlias else .name

/-- The same in `impl Parse for LoopSourceValue`, `src/parse/loop_source_value_list.rs:8-40`. -/
def valueWhy (ts : Toks) : Why := if peekParen ts then .loopValue else .value

/-- `impl Parse for LoopSpecItem`, `src/parse/loop_spec_item.rs:7-25`, with `impl Parse for LoopSourceValueList`,
`src/parse/loop_source_value_list.rs:42-57`; that a `for` comes first has been looked at before. -/
def dLoop (Y : Syn) (known : Str → Bool) (ids : Nat → Nat) : D PLoop := do
  D.of (fun _ => .kwFor) (parseKw (S "for"))
  let alias ← D.of aliasWhy (parseLoopElem ids (parseAlias ids))
  D.of (fun _ => .kwIn) (parseKw (S "in"))
  let content ← D.of (fun _ => .brackets) (parseGroup .bracket)
  let values ← D.within content (dTerminated (D.of valueWhy (parseLoopElem ids (parseE Y known ids))))
  let listId ← D.fresh ids
  let id ← D.fresh ids
  return ⟨id, alias, listId, values⟩

/-- The loop of `impl Parse for LoopSpec`, `src/parse/loop_spec.rs:10-13`. -/
def dLoopList (Y : Syn) (known : Str → Bool) (ids : Nat → Nat) : Nat → D (List PLoop)
  | 0 => D.panic
  | n + 1 => do
    if peekKw (S "for") (← D.look) then
      let l ← dLoop Y known ids
      let ls ← dLoopList Y known ids n
      return l :: ls
    else return []

/-- `impl Parse for LoopSpec`, `src/parse/loop_spec.rs:6-21`. -/
def dLoops (Y : Syn) (known : Str → Bool) (ids : Nat → Nat) : D PLoops := do
  let n := tokCount (← D.look) + 1
  let loops ← dLoopList Y known ids n
  if loops.isEmpty then D.fail .noLoops
  let id ← D.fresh ids
  return ⟨id, loops⟩

/-! ## The whole input -/

/-- The loops, if there are any, `src/parse/raw_ast.rs:11-15` and `src/parse/compose_item_spec.rs:9-13`. -/
def dOptLoops (Y : Syn) (known : Str → Bool) (ids : Nat → Nat) : D (Option PLoops) := do
  if peekKw (S "for") (← D.look) then
    let l ← dLoops Y known ids
    return some l
  else return none

/-- The definitions, if there are any, `src/parse/raw_ast.rs:17-21` and `src/parse/compose_item_spec.rs:15-19`. -/
def dOptSpec (Y : Syn) (known : Str → Bool) (ids : Nat → Nat) : D (Option PSpec) := do
  if peekIdent (← D.look) then
    let s ← dSpec Y known ids
    return some s
  else return none

/-- The beginning shared by `impl Parse for RawAST`, `src/parse/raw_ast.rs:11-21`, and `impl Parse for ComposeItemSpec`,
`src/parse/compose_item_spec.rs:9-19`. -/
def dHeader (Y : Syn) (known : Str → Bool) (ids : Nat → Nat) : D (Option PLoops × Option PSpec) := do
  let loops ← dOptLoops Y known ids
  let spec ← dOptSpec Y known ids
  return (loops, spec)

/-- `input.parse::<Block>()`, `src/parse/raw_ast.rs:23`. Simplification: where in the block `syn` finds the mistake is not modelled, the content of
the block is given as the place. -/
def dBlockTok (Y : Syn) : D (List Stmt) := do
  let content ← D.of (fun _ => .braces) (parseGroup .brace)
  match Y.parseBlock content with
  | some b => return b
  | none => D.within content (D.fail .block)

/-- All of the input must be consumed (`syn::parse`). -/
def dEnd : D Unit := do
  if !(← D.look).isEmpty then D.fail .leftOver

/-- What comes after the block, `src/parse/raw_ast.rs:33-55`: mixed separators are reported behind the separator. -/
def dTail (ids : Nat → Nat) (loops : Option PLoops) (spec : Option PSpec) (block : List Stmt) : D PAst := do
  let sep ← D.of (fun _ => .leftOver) parseOptSep
  if mixesTail sep spec then D.fail .mixed
  let id ← D.fresh ids
  return ⟨id, loops, spec, block⟩

/-- `parse_macro_input!(input as RawAST)`, `src/lib.rs:42` and `src/parse/raw_ast.rs:9-56`. -/
def dRawAst (Y : Syn) (known : Str → Bool) (ids : Nat → Nat) : D PAst := do
  let (loops, spec) ← dHeader Y known ids
  let block ← dBlockTok Y
  let a ← dTail ids loops spec block
  dEnd
  return a

/-- What comes after the definitions in an attribute, `src/parse/compose_item_spec.rs:28-49`: a separator after the loops is reported at the
separator. -/
def dAttrTail (ids : Nat → Nat) (loops : Option PLoops) (spec : Option PSpec) : D PAst := do
  D.of (fun _ => .loopsSep) (parseAttrSep loops spec)
  let id ← D.fresh ids
  return ⟨id, loops, spec, []⟩

/-- `syn::parse::<ComposeItemSpec>(attr)`, `src/lib.rs:45` and `src/parse/compose_item_spec.rs:7-51`. -/
def dAttr (Y : Syn) (known : Str → Bool) (ids : Nat → Nat) : D PAst := do
  let (loops, spec) ← dHeader Y known ids
  let a ← dAttrTail ids loops spec
  dEnd
  return a

/-- The syntax error of an invocation, if there is one, `src/lib.rs:41-57`; `ids k` is the first id the parser draws. -/
def syntaxError (Y : Syn) (known : Str → Bool) (ids : Nat → Nat) (k : Nat) : Invocation → Option (Why × Toks)
  | .compose ts | .composeIdents ts =>
    match dRawAst Y known ids ts k with
    | (.err w r, _) => some (w, r)
    | _ => none
  | .composeItem attr item =>
    match dAttr Y known ids attr k with
    | (.err w r, _) => some (w, r)
    | (.ok _ _, _) => if (Y.parseBlock item).isNone then some (.block, item) else none
    | _ => none

end Verif
