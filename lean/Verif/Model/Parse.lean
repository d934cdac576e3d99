import Verif.Model.Resolve
import Verif.Model.Expand
import Verif.Model.Deprecation
/-!
# The parser (`src/parse`, `src/util/terminated.rs`, `src/util/combined.rs`, `src/util/token_distance.rs`)

A `ParseStream` is the list of the tokens left. Forking is using the list twice. Ids are drawn from a global counter
that other threads use as well, and draws are not undone when a speculative parse fails: the state of a parser is the
number of ids drawn so far by this invocation, and `ids` gives the id of each draw.

`macro_rules!` wraps the fragments it inserts in groups without delimiters. `syn` looks through them when it reads a single token or
a group with delimiters (`opened`). Simplification: separators, `=` and the keywords `for` and `in` are not looked for in such a group (no
fragment that is accepted at such a place begins with one of them), the parsers of `syn`'s own syntax take whole token trees, and
an empty group without delimiters at the very end is something left over (`syn` ignores it). Tokens left over inside a group which a parser of
`syn`'s own syntax has opened, as in the type `[u8; 3 4]`, are reported by `syn` only at the end of the enclosing parse (of the whole input, or of
the tokens of an argument); here such a group is one token tree, which is read or not.
-/

namespace Verif

/-- Parsers of `syn`'s own syntax: for each the number of token trees it consumes, if it succeeds. Nothing is assumed
about them except where a theorem has an explicit hypothesis. -/
structure Syn extends Grammar where
  /-- `syn::Path` -/
  path : Toks → Option Nat
  /-- `syn::Type` -/
  type : Toks → Option Nat
  /-- `syn::Expr` -/
  expr : Toks → Option Nat

/-- A parser: tokens left, ids drawn; result with the tokens left, and ids drawn. -/
def P (α : Type) : Type := Toks → Nat → Res (α × Toks) × Nat

namespace P

/-- The `?` operator. -/
def bind {α β : Type} (x : P α) (f : α → P β) : P β := fun ts k =>
  match x ts k with
  | (.ok (a, ts'), k') => f a ts' k'
  | (.err e, k') => (.err e, k')
  | (.panic, k') => (.panic, k')

instance : Monad P where
  pure a := fun ts k => (.ok (a, ts), k)
  bind := bind

/-- `return Err(input.error(…))`. -/
def fail {α : Type} (e : Err) : P α := fun _ k => (.err e, k)

/-- A Rust panic. -/
def panic {α : Type} : P α := fun _ k => (.panic, k)

/-- The tokens left (`input.is_empty()`, `input.peek(…)`). -/
def look : P Toks := fun ts k => (.ok (ts, ts), k)

/-- `next_unique_id()`, `src/util/unique_id.rs:6-11`. -/
def fresh (ids : Nat → Nat) : P Nat := fun ts k => (.ok (ids k, ts), k + 1)

/-- `let fork = input.fork(); match fork.parse() { Ok(x) => { input.advance_to(&fork); … } Err(err) => … }`. -/
def attempt {α : Type} (x : P α) : P (Except Err α) := fun ts k =>
  match x ts k with
  | (.ok (a, ts'), k') => (.ok (.ok a, ts'), k')
  | (.err e, k') => (.ok (.error e, ts), k')
  | (.panic, k') => (.panic, k')

/-- Parsing the contents of a group, or (`syn::parse2`) a separate token list; all of it must be consumed. (For the contents
of a group `syn` reports the remaining tokens at the end of the whole parse.) -/
def within {α : Type} (content : Toks) (x : P α) : P α := fun ts k =>
  match x content k with
  | (.ok (a, []), k') => (.ok (a, ts), k')
  | (.ok (_, _ :: _), k') => (.err .parse, k')
  | (.err e, k') => (.err e, k')
  | (.panic, k') => (.panic, k')

end P

open P

mutual
/-- The tokens of a token tree as `Cursor::ignore_none` of `syn` sees them: a group without delimiters is entered. -/
def Tok.opened : Tok → Toks
  | .group .none c => opened c
  | t => [t]
/-- The tokens left after `Cursor::ignore_none` of `syn`: groups without delimiters at the beginning are entered. -/
def opened : Toks → Toks
  | [] => []
  | t :: ts =>
    match t.opened with
    | [] => opened ts
    | u :: us => u :: us ++ ts
end

/-- `input.peek(Token![c])` for a punctuation of one character. -/
def peekPunct (c : Char) : Toks → Bool
  | .punct d _ :: _ => d == c
  | _ => false

/-- `input.peek(Token![for])` and the like. -/
def peekKw (s : Str) : Toks → Bool
  | .ident n :: _ => n == s
  | _ => false

/-- `input.peek(syn::Ident)`. -/
def peekIdent (ts : Toks) : Bool :=
  match opened ts with
  | .ident n :: _ => !keywords.contains n
  | _ => false

/-- `input.peek(Paren)`. -/
def peekParen (ts : Toks) : Bool :=
  match opened ts with
  | .group .paren _ :: _ => true
  | _ => false

/-- `input.parse::<Token![c]>()`. -/
def parsePunct (c : Char) : P Unit := fun ts k =>
  match ts with
  | .punct d _ :: ts' => if d == c then (.ok ((), ts'), k) else (.err .parse, k)
  | _ => (.err .parse, k)

/-- `input.parse::<Token![for]>()` and the like. -/
def parseKw (s : Str) : P Unit := fun ts k =>
  match ts with
  | .ident n :: ts' => if n == s then (.ok ((), ts'), k) else (.err .parse, k)
  | _ => (.err .parse, k)

/-- `input.parse::<Ident>()`. -/
def parseIdentTok : P Str := fun ts k =>
  match opened ts with
  | .ident n :: ts' => if keywords.contains n then (.err .parse, k) else (.ok (n, ts'), k)
  | _ => (.err .parse, k)

/-- `parenthesized!(content in input)` and `bracketed!`. -/
def parseGroup (d : Delim) : P Toks := fun ts k =>
  match opened ts with
  | .group d' c :: ts' => if d' = d then (.ok (c, ts'), k) else (.err .parse, k)
  | _ => (.err .parse, k)

mutual
/-- Number of tokens, groups being counted as well: fuel for the loops of the parser. -/
def Tok.tokCount : Tok → Nat
  | .group _ ts => tokCount ts + 1
  | _ => 1
def tokCount : Toks → Nat
  | [] => 0
  | t :: ts => t.tokCount + tokCount ts
end

/-- `ParseBuffer::parse_terminated(parser, Token![,])` of `syn`. The fuel bounds the number of elements; running out of it is
reported as a panic (it never happens, see `Verif.parseTerminated_ok`). -/
def parseTerminatedLoop {α : Type} (x : P α) : Nat → P (List α)
  | 0 => P.panic
  | n + 1 => do
    if (← look).isEmpty then return []
    let v ← x
    if (← look).isEmpty then return [v]
    parsePunct ','
    let vs ← parseTerminatedLoop x n
    return v :: vs

def parseTerminated {α : Type} (x : P α) : P (List α) := fun ts k => parseTerminatedLoop x (tokCount ts + 1) ts k

/-- `combine_errors`, `src/error.rs:91-105`: the errors are put together; an error about an undefined function stays visible. -/
def combineErrs (es : List Err) : Err := (es.find? (fun e => decide (e ≠ .parse))).getD .parse

/-! ## Values -/

mutual
/-- `token_distance`, `src/util/token_distance.rs:9-42`, between a cursor and the cursor after the given tokens: groups are
entered, and not counted themselves. (`Model/Cursor` has the function itself; `C91_value` says that it is this.) -/
def Tok.leaves : Tok → Nat
  | .group _ ts => leafCount ts
  | _ => 1
def leafCount : Toks → Nat
  | [] => 0
  | t :: ts => t.leaves + leafCount ts
end

/-- One of the kinds tried for a value: the value, the number of tokens it consumes (`leafCount`) and the tokens left. -/
abbrev Kind := Toks → Option (VKind × Nat × Toks)

/-- The literal of a negative `syn::LitInt`, after the `-`. -/
def Kind.negInt : Kind := fun ts =>
  match opened ts with
  | .lit (.int r v) :: rest => some (.litInt ⟨true, r, v⟩, 2, rest)
  | _ => none

/-- `syn::LitInt`; see `parseLitInt` for negative numbers. -/
def Kind.litInt : Kind := fun ts =>
  match opened ts with
  | .lit (.int r v) :: rest => some (.litInt ⟨false, r, v⟩, 1, rest)
  | .punct '-' _ :: ts => Kind.negInt ts
  | _ => none

/-- `syn::LitStr`. -/
def Kind.litStr : Kind := fun ts =>
  match opened ts with
  | .lit (.str r v) :: rest => some (.litStr r v, 1, rest)
  | _ => none

/-- `Token![_]`. -/
def Kind.underscore : Kind := fun ts =>
  match opened ts with
  | .ident n :: rest => if n == S "_" then some (.ident n, 1, rest) else none
  | _ => none

/-- `syn::Ident`. -/
def Kind.ident : Kind := fun ts =>
  match opened ts with
  | .ident n :: rest => if keywords.contains n then none else some (.ident n, 1, rest)
  | _ => none

/-- `syn::Path`, `syn::Type`, `syn::Expr`. Simplification: the value has the tokens as they were written (`syn` drops groups without delimiters
around a path). -/
def Kind.ext (p : Toks → Option Nat) (mk : Toks → VKind) : Kind := fun ts =>
  (p ts).map fun n => (mk (ts.take n), leafCount (ts.take n), ts.drop n)

/-- The kinds in the order in which they are tried, `src/parse/value.rs:32-95`. -/
def kinds (Y : Syn) : List Kind :=
  [.litInt, .litStr, .underscore, .ident, .ext Y.path .path, .ext Y.type .type, .ext Y.expr .expr]

/-- `try_parse`, `src/parse/value.rs:10-19`, the terminator being `,`: number of tokens, value, rest. -/
def tryParse (kind : Kind) (ts : Toks) : Option (Nat × VKind × Toks) :=
  match kind ts with
  | none => none
  | some (v, n, rest) => if rest.isEmpty || peekPunct ',' rest then some (n, v, rest) else none

/-- `max_num_tokens.is_none() || num_tokens > max_num_tokens.unwrap()`, `src/parse/value.rs:43` and the like. -/
def isBetter (best : Option (Nat × Expr × Toks)) (n : Nat) : Bool :=
  match best with
  | none => true
  | some (m, _, _) => decide (m < n)

/-- The seven `match`es of `TerminatedValue::parse`, `src/parse/value.rs:32-95`; `best` is `max_num_tokens` and `value`. An id is
drawn for each value that becomes the best so far. (The first `match` has no comparison, `max_num_tokens` being `None`.) -/
def tryKinds (ids : Nat → Nat) (ts : Toks) : List Kind → Option (Nat × Expr × Toks) → Nat → Option (Nat × Expr × Toks) × Nat
  | [], best, k => (best, k)
  | kind :: rest, best, k =>
    match tryParse kind ts with
    | none => tryKinds ids ts rest best k
    | some (n, v, left) =>
      if isBetter best n then
        tryKinds ids ts rest (some (n, .value (ids k) v, left)) (k + 1)
      else tryKinds ids ts rest best k

/-- Tokens up to a comma, `src/util/terminated.rs:36-51`. -/
def untilComma : Toks → Toks × Toks
  | [] => ([], [])
  | t :: ts => if peekPunct ',' [t] then ([], t :: ts) else let r := untilComma ts; (t :: r.1, r.2)

/-- `TerminatedValue<Token![,]>::parse`, `src/parse/value.rs:26-115`, and `Expr::from_value`. The fallback to tokens, lines 97-107, does
not fail, as any tokens are a `TokenStream`. -/
def parseValue (Y : Syn) (ids : Nat → Nat) : P Expr := fun ts k =>
  match tryKinds ids ts (kinds Y) none k with
  | (some (_, v, rest), k') => (.ok (v, rest), k')
  | (none, k') =>
    let r := untilComma ts
    (.ok (.value (ids k') (.tokens r.1), r.2), k' + 1)

/-- `Terminated<T, Token![,]>::parse`, `src/util/terminated.rs:35-69`. -/
def terminated {α : Type} (x : P α) : P α := fun ts k =>
  let r := untilComma ts
  within r.1 x r.2 k

/-! ## Expressions -/

/-- The list of arguments, `src/parse/call.rs:26-35`: an error gives no arguments at all. -/
def argsOr : Except Err (List Expr) → List Expr
  | .ok as => as
  | .error _ => []

/-- `impl Parse for Expr`, `src/parse/expr.rs:9-37`, and `impl Parse for Call`, `src/parse/call.rs:11-43`; `known` is `has_func`. The fuel
bounds the nesting of calls; running out of it (never, see `Verif.parseExpr_spec`) is reported as a panic. -/
def parseExpr (Y : Syn) (known : Str → Bool) (ids : Nat → Nat) : Nat → P Expr
  | 0 => P.panic
  | n + 1 => do
    let call : P Expr := do
      let name ← parseIdentTok
      if !known name then P.fail (.undefinedFunction name)
      let raw ← parseGroup .paren
      -- the parser of the arguments works on a fork of `raw_args`
      let args ← attempt (within raw (parseTerminated (terminated (parseExpr Y known ids n))))
      let rid ← fresh ids
      let id ← fresh ids
      return .call id name (argsOr args) (some (rid, raw))
    match ← attempt call with
    | .ok e => return e
    | .error e1 =>
      match ← attempt (parseValue Y ids) with
      | .ok e => return e
      | .error e2 => P.fail (combineErrs [e1, e2])

mutual
/-- Number of nested groups, fuel for `parseExpr`. -/
def Tok.nest : Tok → Nat
  | .group _ ts => nestL ts + 1
  | _ => 0
def nestL : Toks → Nat
  | [] => 0
  | t :: ts => max t.nest (nestL ts)
end

/-- `input.parse::<Expr>()`. -/
def parseE (Y : Syn) (known : Str → Bool) (ids : Nat → Nat) : P Expr := fun ts k => parseExpr Y known ids (nestL ts + 1) ts k

/-! ## Definitions -/

/-- `impl Parse for Alias`, `src/parse/alias.rs:6-11`. -/
def parseAlias (ids : Nat → Nat) : P Alias := do
  let name ← parseIdentTok
  let id ← fresh ids
  return (id, name)

/-- `AliasSpecItem`, `src/ast/alias_spec_item.rs:7-11`, with its `AliasValue`, `src/ast/alias_value.rs:7-11`. -/
structure PItem where
  id : Nat
  alias : Alias
  valueId : Nat
  expr : Expr

/-- `impl Parse for AliasValue`, `src/parse/alias_value.rs:8-16`, and `TerminatedExpr`, `src/parse/expr.rs:45-58`: the expression must be
followed by `,` or `;` or the end. -/
def parseAliasValue (Y : Syn) (known : Str → Bool) (ids : Nat → Nat) : P (Nat × Expr) := do
  let e ← parseE Y known ids
  let rest ← look
  if !(rest.isEmpty || peekPunct ',' rest || peekPunct ';' rest) then P.fail .parse
  let id ← fresh ids
  return (id, e)

/-- `impl Parse for AliasSpecItem`, `src/parse/alias_spec_item.rs:7-20`. -/
def parseItem (Y : Syn) (known : Str → Bool) (ids : Nat → Nat) : P PItem := do
  let alias ← parseAlias ids
  parsePunct '='
  let (valueId, expr) ← parseAliasValue Y known ids
  let id ← fresh ids
  return ⟨id, alias, valueId, expr⟩

/-- `AliasSpec`, `src/ast/alias_spec.rs:6-11`. -/
structure PSpec where
  id : Nat
  items : List PItem
  comma : Option Bool

/-- A separator: `true` for a comma, `src/parse/alias_spec.rs:21-29`. -/
def parseSep : P Bool := fun ts k =>
  match ts with
  | .punct c _ :: ts' =>
    if c == ',' then (.ok (true, ts'), k) else if c == ';' then (.ok (false, ts'), k) else (.err .parse, k)
  | _ => (.err .parse, k)

/-- `is_comma_used != is_comma_current_sep`, `src/parse/alias_spec.rs:31-34`. -/
def mixes (used : Option Bool) (sep : Bool) : Bool :=
  match used with
  | some u => u != sep
  | none => false

/-- The loop of `impl Parse for AliasSpec`, `src/parse/alias_spec.rs:13-42`; `used` is `is_comma_used`. The fuel bounds the number of
definitions. -/
def parseItems (Y : Syn) (known : Str → Bool) (ids : Nat → Nat) : Nat → Option Bool → P (List PItem × Option Bool)
  | 0, _ => P.panic
  | n + 1, used => do
    let item ← parseItem Y known ids
    if (← look).isEmpty then return ([item], used)
    let sep ← parseSep
    if mixes used sep then P.fail .parse
    let used := some (used.getD sep)
    if !peekIdent (← look) then return ([item], used)
    let (items, used) ← parseItems Y known ids n used
    return (item :: items, used)

/-- `impl Parse for AliasSpec`, `src/parse/alias_spec.rs:8-50`. -/
def parseSpec (Y : Syn) (known : Str → Bool) (ids : Nat → Nat) : P PSpec := do
  let n := tokCount (← look) + 1
  let (items, comma) ← parseItems Y known ids n none
  let id ← fresh ids
  return ⟨id, items, comma⟩

/-! ## Loops -/

/-- `TupleValue<V>`, `src/ast/tuple.rs:74-79`: its own id, and for a nested tuple the id of that. -/
inductive PTup (α : Type) where
  | val (id : Nat) (a : α)
  | tup (id tid : Nat) (ts : List (PTup α))

/-- `impl Parse for TupleValue<V>`, `src/parse/tuple.rs:48-66`, with `impl Parse for Tuple<V>`, lines 31-46, for the nested tuple. The fuel bounds
the nesting. -/
def parseTupleValue {α : Type} (ids : Nat → Nat) (x : P α) : Nat → P (PTup α)
  | 0 => P.panic
  | n + 1 => do
    if peekParen (← look) then
      let content ← parseGroup .paren
      let ts ← within content (parseTerminated (parseTupleValue ids x n))
      let tid ← fresh ids
      let id ← fresh ids
      return .tup id tid ts
    else
      let a ← x
      let id ← fresh ids
      return .val id a

/-- `impl Parse for Tuple<V>`, `src/parse/tuple.rs:31-46`: its id and its values. -/
def parseTuple {α : Type} (ids : Nat → Nat) (x : P α) : P (Nat × List (PTup α)) := do
  let content ← parseGroup .paren
  let ts ← within content (parseTerminated (parseTupleValue ids x (nestL content + 1)))
  let id ← fresh ids
  return (id, ts)

/-- `LoopAlias`, `src/ast/loop_alias.rs:10-13`, and `LoopSourceValue`, `src/ast/loop_source_value_list.rs:8-11`: a simple one, or a tuple with
its id. -/
inductive PLoopElem (α : Type) where
  | simple (a : α)
  | tuple (id : Nat) (ts : List (PTup α))

/-- `impl Parse for LoopAlias`, `src/parse/loop_alias.rs:6-38`, and `impl Parse for LoopSourceValue`, `src/parse/loop_source_value_list.rs:8-40`, which
are alike. -/
def parseLoopElem {α : Type} (ids : Nat → Nat) (x : P α) : P (PLoopElem α) := do
  let simple (errors : List Err) : P (PLoopElem α) := do
    match ← attempt x with
    | .ok a => return .simple a
    | .error e => P.fail (combineErrs (errors ++ [e]))
  if peekParen (← look) then
    match ← attempt (parseTuple ids x) with
    | .ok (id, ts) => return .tuple id ts
    | .error e => simple [e]
  else simple []

/-- `LoopSpecItem`, `src/ast/loop_spec_item.rs:9-14`, with its `LoopSourceValueList`. -/
structure PLoop where
  id : Nat
  alias : PLoopElem Alias
  listId : Nat
  values : List (PLoopElem Expr)

/-- `impl Parse for LoopSpecItem`, `src/parse/loop_spec_item.rs:7-25`, with `impl Parse for LoopSourceValueList`,
`src/parse/loop_source_value_list.rs:42-57`. -/
def parseLoop (Y : Syn) (known : Str → Bool) (ids : Nat → Nat) : P PLoop := do
  parseKw (S "for")
  let alias ← parseLoopElem ids (parseAlias ids)
  parseKw (S "in")
  let content ← parseGroup .bracket
  let values ← within content (parseTerminated (parseLoopElem ids (parseE Y known ids)))
  let listId ← fresh ids
  let id ← fresh ids
  return ⟨id, alias, listId, values⟩

/-- The loop of `impl Parse for LoopSpec`, `src/parse/loop_spec.rs:10-13`. The fuel bounds the number of loops. -/
def parseLoopList (Y : Syn) (known : Str → Bool) (ids : Nat → Nat) : Nat → P (List PLoop)
  | 0 => P.panic
  | n + 1 => do
    if peekKw (S "for") (← look) then
      let l ← parseLoop Y known ids
      let ls ← parseLoopList Y known ids n
      return l :: ls
    else return []

/-- `LoopSpec`, `src/ast/loop_spec.rs:7-10`. -/
structure PLoops where
  id : Nat
  loops : List PLoop

/-- `impl Parse for LoopSpec`, `src/parse/loop_spec.rs:6-21`. -/
def parseLoops (Y : Syn) (known : Str → Bool) (ids : Nat → Nat) : P PLoops := do
  let n := tokCount (← look) + 1
  let loops ← parseLoopList Y known ids n
  if loops.isEmpty then P.fail .parse
  let id ← fresh ids
  return ⟨id, loops⟩

/-! ## The whole input -/

/-- The loops, if there are any, `src/parse/raw_ast.rs:11-15` and `src/parse/compose_item_spec.rs:9-13`. -/
def parseOptLoops (Y : Syn) (known : Str → Bool) (ids : Nat → Nat) : P (Option PLoops) := do
  if peekKw (S "for") (← look) then
    let l ← parseLoops Y known ids
    return some l
  else return none

/-- The definitions, if there are any, `src/parse/raw_ast.rs:17-21` and `src/parse/compose_item_spec.rs:15-19`. -/
def parseOptSpec (Y : Syn) (known : Str → Bool) (ids : Nat → Nat) : P (Option PSpec) := do
  if peekIdent (← look) then
    let s ← parseSpec Y known ids
    return some s
  else return none

/-- The beginning shared by `impl Parse for RawAST`, `src/parse/raw_ast.rs:11-21`, and `impl Parse for ComposeItemSpec`,
`src/parse/compose_item_spec.rs:9-19`. -/
def parseHeader (Y : Syn) (known : Str → Bool) (ids : Nat → Nat) : P (Option PLoops × Option PSpec) := do
  let loops ← parseOptLoops Y known ids
  let spec ← parseOptSpec Y known ids
  return (loops, spec)

/-- `input.parse::<Block>()`. -/
def parseBlockTok (Y : Syn) : P (List Stmt) := do
  let content ← parseGroup .brace
  match Y.parseBlock content with
  | some b => return b
  | none => P.fail .parse

/-- `RawAST`, `src/ast/raw_ast.rs:9-14`. -/
structure PAst where
  id : Nat
  loops : Option PLoops
  spec : Option PSpec
  block : List Stmt

/-- A semicolon was used between definitions. -/
def usesSemicolon : Option PSpec → Bool
  | some s => s.comma == some false
  | none => false

/-- A separator after the block, `src/parse/raw_ast.rs:33-41`: `some true` for a comma. -/
def parseOptSep : P (Option Bool) := do
  if peekPunct ',' (← look) then
    parsePunct ','
    return some true
  else if peekPunct ';' (← look) then
    parsePunct ';'
    return some false
  else return none

/-- `src/parse/raw_ast.rs:43-47`: the separator after the block is not the one used between the definitions. -/
def mixesTail (sep : Option Bool) (spec : Option PSpec) : Bool :=
  match sep, spec with
  | some c, some s => c != (s.comma == some true)
  | _, _ => false

/-- What comes after the block, `src/parse/raw_ast.rs:33-55`. -/
def parseTail (ids : Nat → Nat) (loops : Option PLoops) (spec : Option PSpec) (block : List Stmt) : P PAst := do
  let sep ← parseOptSep
  if mixesTail sep spec then P.fail .parse
  let id ← fresh ids
  return ⟨id, loops, spec, block⟩

/-- The separator after the definitions in an attribute, `src/parse/compose_item_spec.rs:28-43`. -/
def parseAttrSep (loops : Option PLoops) (spec : Option PSpec) : P Unit := do
  let ts ← look
  if peekPunct ',' ts || peekPunct ';' ts then
    if spec.isSome then
      if peekPunct ',' ts then parsePunct ',' else parsePunct ';'
    else if loops.isSome then P.fail .parse else return ()
  else return ()

/-- What comes after the definitions in an attribute, `src/parse/compose_item_spec.rs:28-49`. The result has an empty block. -/
def parseAttrTail (ids : Nat → Nat) (loops : Option PLoops) (spec : Option PSpec) : P PAst := do
  parseAttrSep loops spec
  let id ← fresh ids
  return ⟨id, loops, spec, []⟩

/-- The middle of both parsers, `src/parse/raw_ast.rs:24-31` and `src/parse/compose_item_spec.rs:21-26`: the rest runs with the service in scope, which is
dropped at the end, also when the rest fails. -/
def withWarning {α : Type} (warn : Bool) (cell : ThreadCell) (x : Res (α × Toks) × Nat) : Res (α × Toks) × Nat × ThreadCell :=
  match cell.scoped with
  | .ok c => (x.1, x.2, (if warn then c.addSemicolonWarning else c).dropScope)
  | .err e => (.err e, x.2, cell)
  | .panic => (.panic, x.2, cell)

/-- All of the input must be consumed (`syn::parse`). -/
def atEnd {α : Type} : Res (α × Toks) → Res α
  | .ok (a, []) => .ok a
  | .ok (_, _ :: _) => .err .parse
  | .err e => .err e
  | .panic => .panic

/-- Everything up to the block, `src/parse/raw_ast.rs:11-23`. -/
def parseFront (Y : Syn) (known : Str → Bool) (ids : Nat → Nat) : P ((Option PLoops × Option PSpec) × List Stmt) := do
  let header ← parseHeader Y known ids
  let block ← parseBlockTok Y
  return (header, block)

/-- `parse_macro_input!(input as RawAST)`, `src/lib.rs:42` and `src/parse/raw_ast.rs:9-56`. -/
def parseRawAst (Y : Syn) (known : Str → Bool) (ids : Nat → Nat) (ts : Toks) (k : Nat) (cell : ThreadCell) :
    Res PAst × Nat × ThreadCell :=
  match parseFront Y known ids ts k with
  | (.ok (((loops, spec), block), ts), k) =>
    let r := withWarning (usesSemicolon spec) cell (parseTail ids loops spec block ts k)
    (atEnd r.1, r.2)
  | (.err e, k) => (.err e, k, cell)
  | (.panic, k) => (.panic, k, cell)

/-- `syn::parse::<ComposeItemSpec>(attr)`, `src/lib.rs:45` and `src/parse/compose_item_spec.rs:7-51`. -/
def parseAttr (Y : Syn) (known : Str → Bool) (ids : Nat → Nat) (ts : Toks) (k : Nat) (cell : ThreadCell) :
    Res PAst × Nat × ThreadCell :=
  match parseHeader Y known ids ts k with
  | (.ok ((loops, spec), ts), k) =>
    let r := withWarning (usesSemicolon spec) cell (parseAttrTail ids loops spec ts k)
    (atEnd r.1, r.2)
  | (.err e, k) => (.err e, k, cell)
  | (.panic, k) => (.panic, k, cell)

/-! ## What the later phases look at -/

mutual
def PTup.conv {α β : Type} (f : α → β) : PTup α → Tup β
  | .val _ a => .val (f a)
  | .tup _ _ ts => .tup (PTup.convL f ts)
def PTup.convL {α β : Type} (f : α → β) : List (PTup α) → List (Tup β)
  | [] => []
  | t :: ts => t.conv f :: PTup.convL f ts
end

def PLoopElem.alias {α β : Type} (f : α → β) : PLoopElem α → LoopAlias β
  | .simple a => .simple (f a)
  | .tuple _ ts => .tuple (PTup.convL f ts)

def PLoopElem.value {α β : Type} (f : α → β) : PLoopElem α → LoopSourceValue β
  | .simple a => .value (f a)
  | .tuple _ ts => .tuple (PTup.convL f ts)

/-- The tree without the ids of inner nodes, which nothing reads, and with aliases and expressions replaced by what `f` and `g` see
of them. -/
def PAst.conv {α ε : Type} (f : Alias → α) (g : Expr → ε) (a : PAst) : RawAst α ε (List Stmt) where
  loops := a.loops.map fun l => l.loops.map fun l => (l.alias.alias f, l.values.map (PLoopElem.value g))
  spec := a.spec.map fun s => ⟨s.items.map fun i => (f i.alias, g i.expr), s.comma⟩
  block := a.block

/-- What the later phases get. -/
def PAst.forget (a : PAst) : RawAst Alias Expr (List Stmt) := a.conv (fun x => x) (fun x => x)

end Verif
