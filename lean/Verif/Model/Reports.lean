import Verif.Model.Diagnose
/-!
# All the messages of a syntax error (`src/error.rs:91-105` and where it is used)

One compile error can hold several messages, each with a place of its own: where the parser has tried several ways to read something, it tells what is
wrong with each of them. `Model/Diagnose` has the first message; here are the others.
-/

namespace Verif

/-- One message: what it says, and the tokens left at the place it points to. -/
abbrev Report := Why × Toks

/-- `combine_errors`, `src/error.rs:91-105`: a single error is passed on, several ones are put behind a message of their own; without an error there is a
panic. (`syn::Error::combine` appends the messages.) -/
def combineErrors (w : Why) (place : Toks) : List (List Report) → Option (List Report)
  | [] => none
  | [e] => some e
  | es => some ((w, place) :: es.flatten)

/-- `Err(err) => errors.push(err)`. -/
def errorOf {α : Type} : DRes α × Nat → List (List Report)
  | (.err w r, _) => [[(w, r)]]
  | _ => []

/-- `impl Parse for TupleValue<V>`, `src/parse/tuple.rs:48-68` (see `parseTupleValue`). -/
def dTupleValue {α : Type} (ids : Nat → Nat) (x : D α) : Nat → D (PTup α)
  | 0 => D.panic
  | n + 1 => do
    if peekParen (← D.look) then
      let content ← D.of (fun _ => .parens) (parseGroup .paren)
      let ts ← D.within content (dTerminated (dTupleValue ids x n))
      let tid ← D.fresh ids
      let id ← D.fresh ids
      return .tup id tid ts
    else
      let a ← x
      let id ← D.fresh ids
      return .val id a

/-- `impl Parse for Tuple<V>`, `src/parse/tuple.rs:31-46` (see `parseTuple`). -/
def dTuple {α : Type} (ids : Nat → Nat) (x : D α) : D (Nat × List (PTup α)) := do
  let content ← D.of (fun _ => .parens) (parseGroup .paren)
  let ts ← D.within content (dTerminated (dTupleValue ids x (nestL content + 1)))
  let id ← D.fresh ids
  return (id, ts)

/-- `impl Parse for Alias`, `src/parse/alias.rs:6-11`. -/
def dAlias (ids : Nat → Nat) : D Alias := D.of (fun _ => .name) (parseAlias ids)

/-- The errors collected by `impl Parse for LoopAlias`, `src/parse/loop_alias.rs:6-38`, when neither a tuple nor a name can be read. -/
def loopAliasErrors (ids : Nat → Nat) (k : Nat) (ts : Toks) : List (List Report) :=
  (if peekParen ts then errorOf (dTuple ids (dAlias ids) ts k) else []) ++ errorOf (dAlias ids ts k)

/-- The errors collected by `impl Parse for Combined<A, B>`, `src/util/combined.rs:24-49`, as used in `src/parse/alias_value.rs:11`, when there is neither a
comma nor a semicolon. -/
def separatorErrors (k : Nat) (ts : Toks) : List (List Report) :=
  errorOf (D.of (fun _ => .comma) (parsePunct ',') ts k) ++ errorOf (D.of (fun _ => .semicolon) (parsePunct ';') ts k)

/-- The messages of the syntax error of an invocation, `src/lib.rs:41-57`: those of `combine_errors` for a loop alias (`src/parse/loop_alias.rs:32-36`) and a
separator (`src/util/combined.rs:44-48`), and the one message there is otherwise. The other uses of `combine_errors` (`src/parse/expr.rs:31-35`,
`src/parse/loop_source_value_list.rs:34-38`) are never reached (`C83_never_said`). `none`: there is no error (or a panic of `combine_errors`). -/
def reports (Y : Syn) (known : Str → Bool) (ids : Nat → Nat) (k : Nat) (inv : Invocation) : Option (List Report) :=
  match syntaxError Y known ids k inv with
  | none => none
  | some (.loopAlias, r) => combineErrors .loopAlias r (loopAliasErrors ids k r)
  | some (.separator, r) => combineErrors .separator r (separatorErrors k r)
  | some (w, r) => some [(w, r)]

end Verif
