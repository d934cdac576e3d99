/-!
# Basic notions of the model

Strings are lists of characters; token trees model `proc_macro2::TokenTree` without spans.
-/

namespace Verif

/-- Rust `String`/`&str`, as the sequence of its `char`s (every use in the code is `char`-wise). -/
abbrev Str := List Char

/-- Literal string constants of the model. -/
abbrev S (s : String) : Str := s.toList

/-- A text as the list of its characters; unlike `S` this is done while reading the file. -/
macro:max "c!" s:str : term => do
  let cs := s.getString.toList.map fun c => Lean.Syntax.mkCharLit c
  `([$(cs.toArray),*])

/-- `proc_macro2::Delimiter` (matched in `src/substitution/stream_visitor.rs:122-127`, 261-277). -/
inductive Delim
  | paren | brace | bracket | none
  deriving DecidableEq, Repr

/-- `proc_macro2::Literal`, split by what the code distinguishes (`src/ast/value.rs:26-35`,
`src/substitution/substitute_idents.rs:56-66`): string literals (source form and value), integer
literals (source form and value) and everything else.
Simplification: an integer literal carries its numeric value; type suffixes live in `repr` only. -/
inductive Lit
  | str (repr value : Str)
  | int (repr : Str) (val : Nat)
  | other (repr : Str)
  deriving DecidableEq, Repr

/-- `proc_macro2::TokenTree` without spans; `joint` is the punctuation spacing. A raw identifier
`r#x` is `ident "r#x"`, which is what `Ident::to_string` gives. -/
inductive Tok
  | ident (s : Str)
  | punct (c : Char) (joint : Bool)
  | lit (l : Lit)
  | group (d : Delim) (ts : List Tok)
  deriving Repr

mutual
def Tok.decEq : (a b : Tok) → Decidable (a = b)
  | .ident s, .ident t =>
    if h : s = t then isTrue (by rw [h]) else isFalse (by intro e; cases e; exact h rfl)
  | .punct c j, .punct d k =>
    if h : c = d ∧ j = k then isTrue (by rw [h.1, h.2])
    else isFalse (by intro e; cases e; exact h ⟨rfl, rfl⟩)
  | .lit l, .lit m =>
    if h : l = m then isTrue (by rw [h]) else isFalse (by intro e; cases e; exact h rfl)
  | .group d ts, .group e us =>
    match Tok.decEqList ts us with
    | isTrue h => if hd : d = e then isTrue (by rw [h, hd])
        else isFalse (by intro e; cases e; exact hd rfl)
    | isFalse h => isFalse (by intro e; cases e; exact h rfl)
  | .ident _, .punct _ _ => isFalse (by intro e; cases e)
  | .ident _, .lit _ => isFalse (by intro e; cases e)
  | .ident _, .group _ _ => isFalse (by intro e; cases e)
  | .punct _ _, .ident _ => isFalse (by intro e; cases e)
  | .punct _ _, .lit _ => isFalse (by intro e; cases e)
  | .punct _ _, .group _ _ => isFalse (by intro e; cases e)
  | .lit _, .ident _ => isFalse (by intro e; cases e)
  | .lit _, .punct _ _ => isFalse (by intro e; cases e)
  | .lit _, .group _ _ => isFalse (by intro e; cases e)
  | .group _ _, .ident _ => isFalse (by intro e; cases e)
  | .group _ _, .punct _ _ => isFalse (by intro e; cases e)
  | .group _ _, .lit _ => isFalse (by intro e; cases e)
def Tok.decEqList : (a b : List Tok) → Decidable (a = b)
  | [], [] => isTrue rfl
  | [], _ :: _ => isFalse (by intro e; cases e)
  | _ :: _, [] => isFalse (by intro e; cases e)
  | t :: ts, u :: us =>
    match Tok.decEq t u with
    | isTrue h =>
      match Tok.decEqList ts us with
      | isTrue h' => isTrue (by rw [h, h'])
      | isFalse h' => isFalse (by intro e; cases e; exact h' rfl)
    | isFalse h => isFalse (by intro e; cases e; exact h rfl)
end

instance : DecidableEq Tok := Tok.decEq

/-- `proc_macro2::TokenStream`. -/
abbrev Toks := List Tok

/-- `enum Type`, `src/core/type_.rs:12-24`. -/
inductive Ty where
  | ident | path | type | expr | litStr | litInt | tokens | raw
  | variadic (t : Ty)
  deriving DecidableEq, Repr

/-- A piece of a formatted text: characters, or tokens still to be printed by `TokenStream::to_string`. The printing is
put off until the message is made (`Err.message`), the code prints at once. -/
inductive Piece where
  | str (s : Str)
  | toks (ts : Toks)
  deriving DecidableEq, Repr

/-- A formatted text. -/
abbrev Text := List Piece

/-- What the message of a `TypeError` is about. -/
inductive Mismatch where
  /-- `make_coercion_error`, `src/error.rs:43-48` -/
  | coercion (frm to : Ty)
  /-- `make_cast_error`, `src/ast/value.rs:80-102` -/
  | cast (frm to : Ty)
  /-- `src/expand/raw_ast.rs:15-20` -/
  | tupleSize
  /-- `src/expand/raw_ast.rs:28-34` -/
  | tupleShape
  /-- `src/expand/raw_ast.rs:65-70` -/
  | loopKind
  deriving DecidableEq, Repr

/-- `src/error.rs:9-24` `Error`; `parse` stands for `syn::Error` returned by a parser. Spans are dropped, the texts are made by
`Err.message` from the data here. -/
inductive Err
  | typeError (why : Mismatch)
  /-- the only `EvalError`, `src/core/environment/init_funcs.rs:304-316`: the arguments of `concat` -/
  | evalError (args : List Toks)
  | redefined (name : Str)
  | signature (sig : Str) (call : Text)
  | undefinedFunction (func : Str)
  | substitution (original replacement : Str)
  | internal
  | parse
  deriving DecidableEq, Repr

/-- Outcome of a Rust computation: a value, a returned error, or a panic
(`panic!`, `unreachable!`, `expect`, arithmetic overflow, a panicking library call). -/
inductive Res (α : Type) where
  | ok (a : α)
  | err (e : Err)
  | panic
  deriving Repr, DecidableEq

namespace Res
/-- The `?` operator. -/
def bind {α β} (x : Res α) (f : α → Res β) : Res β :=
  match x with
  | ok a => f a
  | err e => err e
  | panic => panic

instance : Monad Res where
  pure := ok
  bind := bind

@[simp] theorem pure_eq {α} (a : α) : (pure a : Res α) = ok a := rfl
@[simp] theorem bind_eq {α β} (x : Res α) (f : α → Res β) : x >>= f = x.bind f := rfl
@[simp] theorem bind_ok {α β} (a : α) (f : α → Res β) : (ok a).bind f = f a := rfl
@[simp] theorem bind_err {α β} (e : Err) (f : α → Res β) : (err e : Res α).bind f = err e := rfl
@[simp] theorem bind_panic {α β} (f : α → Res β) : (panic : Res α).bind f = panic := rfl

theorem bind_eq_ok {α β} {x : Res α} {f : α → Res β} {b : β} :
    x.bind f = ok b ↔ ∃ a, x = ok a ∧ f a = ok b := by
  cases x <;> simp

theorem bind_eq_panic {α β} {x : Res α} {f : α → Res β} :
    x.bind f = panic ↔ x = panic ∨ ∃ a, x = ok a ∧ f a = panic := by
  cases x <;> simp

theorem bind_eq_err {α β} {x : Res α} {f : α → Res β} {e : Err} :
    x.bind f = err e ↔ x = err e ∨ ∃ a, x = ok a ∧ f a = err e := by
  cases x <;> simp

/-- `Result::is_ok`. -/
def isOk {α} : Res α → Bool
  | ok _ => true
  | _ => false

/-- Turning an `Option` of a parser into a result with the given error. -/
def ofOption {α} (e : Err) : Option α → Res α
  | some a => ok a
  | none => err e

def map {α β} (f : α → β) : Res α → Res β
  | ok a => ok (f a)
  | err e => err e
  | panic => panic
end Res

/-- `.iter().map(f).collect::<Result<Vec<_>, _>>()` (as in `src/eval/call.rs:19-28`): stops at the first failure. -/
def mapRes {α β : Type} (f : α → Res β) : List α → Res (List β)
  | [] => .ok []
  | x :: xs => (f x).bind fun y => (mapRes f xs).bind fun ys => .ok (y :: ys)

end Verif
