import Verif.Model.Demo
/-!
# A lexer, a printer and case conversions, for running the model on the examples of the repository

The modules in `Verif/Lite` stand for external code (`proc_macro2`, `syn`, `heck`), as far as the repository's own tests need it.
No property theorem depends on them (that they meet what is assumed of external code is shown in `Verif/Lite/Applied.lean`); they make the model executable on the input of these tests.
-/

namespace Verif.Lite
open Verif

def isPunct (c : Char) : Bool := (c! "~!@#$%^&*-=+|;:,<.>/?'").contains c
def isStart (c : Char) : Bool := c.isAlpha || c == '_'
def isCont (c : Char) : Bool := c.isAlphanum || c == '_'

/-- The longest prefix of characters with the property, and the rest. -/
def spanC (p : Char → Bool) : Str → Str × Str
  | [] => ([], [])
  | c :: cs => if p c then let r := spanC p cs; (c :: r.1, r.2) else ([], c :: cs)

def hexVal (c : Char) : Nat :=
  if c.isDigit then c.toNat - '0'.toNat else if 'a' ≤ c ∧ c ≤ 'f' then c.toNat - 'a'.toNat + 10
  else if 'A' ≤ c ∧ c ≤ 'F' then c.toNat - 'A'.toNat + 10 else 16

def ofBase (b : Nat) (s : Str) : Nat := (s.filter (· ≠ '_')).foldl (fun n c => b * n + hexVal c) 0

/-- The value of an integer literal, without its suffix. -/
def intVal : Str → Nat
  | '0' :: 'x' :: s => ofBase 16 (spanC (fun c => hexVal c < 16 || c == '_') s).1
  | '0' :: 'o' :: s => ofBase 8 (spanC (fun c => c.isDigit || c == '_') s).1
  | '0' :: 'b' :: s => ofBase 2 (spanC (fun c => c.isDigit || c == '_') s).1
  | s => ofBase 10 (spanC (fun c => c.isDigit || c == '_') s).1

/-- The inside of a string literal after the opening quote: source, value, rest after the closing quote. -/
def lexStr : Str → Option (Str × Str × Str)
  | [] => none
  | '"' :: s => some ([], [], s)
  | '\\' :: c :: s =>
    (lexStr s).map fun (r, v, rest) =>
      ('\\' :: c :: r, (match c with | 'n' => '\n' | 't' => '\t' | 'r' => '\r' | '0' => Char.ofNat 0 | c => c) :: v, rest)
  | c :: s => (lexStr s).map fun (r, v, rest) => (c :: r, c :: v, rest)

/-- The inside of a raw string literal with `h` number signs. -/
def lexRaw (h : Nat) : Str → Option (Str × Str)
  | [] => none
  | '"' :: s => if s.take h = List.replicate h '#' then some ([], s.drop h) else (lexRaw h s).map fun (v, r) => ('"' :: v, r)
  | c :: s => (lexRaw h s).map fun (v, r) => (c :: v, r)

def skipLine : Str → Str
  | [] => []
  | '\n' :: s => s
  | _ :: s => skipLine s

/-- Groups without delimiters, as `macro_rules!` inserts them, are written `⟦…⟧`. -/
def delimOf : Char → Option (Delim × Char)
  | '(' => some (.paren, ')')
  | '{' => some (.brace, '}')
  | '[' => some (.bracket, ']')
  | '⟦' => some (.none, '⟧')
  | _ => none

/-- Tokens up to a closing delimiter or the end. -/
def lexToks : Nat → Str → Option (Toks × Str)
  | 0, _ => none
  | _ + 1, [] => some ([], [])
  | n + 1, c :: s =>
    let more (t : Toks) (s : Str) := (lexToks n s).map fun r => (t ++ r.1, r.2)
    if c.isWhitespace then lexToks n s
    else if c == ')' || c == '}' || c == ']' || c == '⟧' then some ([], c :: s)
    else match delimOf c with
    | some (d, close) =>
      match lexToks n s with
      | some (ts, c' :: s') => if c' == close then more [.group d ts] s' else none
      | _ => none
    | none =>
      if c == '"' then (lexStr s).bind fun (r, v, s) => more [.lit (.str ('"' :: r ++ ['"']) v)] s
      else if c == '/' && s.head? == some '/' then lexToks n (skipLine s)
      else if c == 'r' && s.head? == some '"' then
        (lexRaw 0 (s.drop 1)).bind fun (v, s) => more [.lit (.str (c! "r\"" ++ v ++ ['"']) v)] s
      else if c == 'r' && s.take 2 == c! "#\"" then
        (lexRaw 1 (s.drop 2)).bind fun (v, s) => more [.lit (.str (c! "r#\"" ++ v ++ c! "\"#") v)] s
      else if c == 'r' && s.head? == some '#' then
        let r := spanC isCont (s.drop 1)
        if r.1.isEmpty then none else more [.ident (c! "r#" ++ r.1)] r.2
      else if isStart c then let r := spanC isCont s; more [.ident (c :: r.1)] r.2
      else if c.isDigit then
        let r := spanC isCont (c :: s)
        match r.2 with
        | '.' :: d :: s' =>
          if d.isDigit then let q := spanC isCont (d :: s'); more [.lit (.other (r.1 ++ '.' :: q.1))] q.2
          else more [.lit (.int r.1 (intVal r.1))] r.2
        | _ => more [.lit (.int r.1 (intVal r.1))] r.2
      else if c == '\'' then
        match s with
        | x :: '\'' :: s' => more [.lit (.other ['\'', x, '\''])] s'
        | '\\' :: x :: '\'' :: s' => more [.lit (.other ['\'', '\\', x, '\''])] s'
        | _ => more [.punct '\'' true] s
      else if isPunct c then more [.punct c (match s with | d :: _ => isPunct d | [] => false)] s
      else none

/-- `TokenStream::from_str`. -/
def lex (s : Str) : Option Toks :=
  match lexToks (2 * s.length + 1) s with
  | some (ts, []) => some ts
  | _ => none

/-- The tokens of a text. -/
def toks (s : Str) : Toks := (lex s).getD [.ident (c! "LEX_ERROR")]

mutual
/-- `TokenStream::to_string` of `proc_macro2` outside the compiler: a space between tokens, except after joint punctuation. -/
def renderTok : Tok → Str
  | .ident s => s
  | .punct c _ => [c]
  | .lit (.str r _) => r
  | .lit (.int r _) => r
  | .lit (.other r) => r
  | .group .paren ts => '(' :: render ts ++ [')']
  | .group .brace ts => c! "{ " ++ render ts ++ (if ts.isEmpty then c! "}" else c! " }")
  | .group .bracket ts => '[' :: render ts ++ [']']
  | .group .none ts => render ts
def render : Toks → Str
  | [] => []
  | [t] => renderTok t
  | .punct c true :: ts => c :: render ts
  | t :: ts => renderTok t ++ ' ' :: render ts
end

/-- Words of a name as found by `heck`: cut between a lowercase and an uppercase letter, and before the last of several uppercase
letters followed by a lowercase one. `mode`: `some true` after an uppercase letter, `some false` after a lowercase one. -/
def words (cur : Str) (mode : Option Bool) : Str → List Str
  | [] => if cur.isEmpty then [] else [cur.reverse]
  | c :: s =>
    if !c.isAlphanum then (if cur.isEmpty then [] else [cur.reverse]) ++ words [] none s
    else
      let next := if c.isLower then some false else if c.isUpper then some true else mode
      let isUp := match s with | d :: _ => d.isUpper | [] => false
      let isLow := match s with | d :: _ => d.isLower | [] => false
      if next == some false && isUp then (c :: cur).reverse :: words [] none s
      else if mode == some true && c.isUpper && isLow then cur.reverse :: words [c] none s
      else words (c :: cur) next s

def capital : Str → Str
  | [] => []
  | c :: s => c.toUpper :: s.map Char.toLower

def joinUnderscore : List Str → Str
  | [] => []
  | [w] => w
  | w :: ws => w ++ '_' :: joinUnderscore ws

def snake (s : Str) : Str := joinUnderscore ((words [] none s).map (·.map Char.toLower))
def pascal (s : Str) : Str := ((words [] none s).map capital).flatten
def lowerCamel (s : Str) : Str :=
  match words [] none s with
  | [] => []
  | w :: ws => w.map Char.toLower ++ (ws.map capital).flatten

/-- The source form of a string value. -/
def quote (s : Str) : Str :=
  '"' :: s.flatMap (fun c => match c with
    | '"' => c! "\\\"" | '\\' => c! "\\\\" | '\n' => c! "\\n" | '\t' => c! "\\t" | '\r' => c! "\\r" | c => [c]) ++ ['"']

end Verif.Lite
