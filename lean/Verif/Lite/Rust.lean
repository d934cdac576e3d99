import Verif.Lite.Lexer
import Verif.Model.Interp
import Verif.Model.Error
import Verif.Spec.Text
/-!
# A part of Rust's grammar, for running the model on the examples of the repository

Parsers are functions from the tokens to the tokens left, with fuel for the nesting. Patterns, attributes and macro
arguments are not checked. See `Verif/Lite/Lexer.lean` for the purpose.
-/

namespace Verif.Lite
open Verif

/-- Syntactic categories. -/
inductive Cat
  /-- `syn::Path` -/
  | path
  /-- a path in an expression, with `::<…>` only -/
  | exprPath
  /-- a path in a bound, with `(…) -> …` -/
  | typePath
  /-- the arguments `<…>` -/
  | generics
  | type
  /-- a type without `+` -/
  | typeNoPlus
  | bound
  | expr
  /-- an expression without struct literals, as in `if … {` -/
  | cond
  /-- an operand of binary operators -/
  | operand (struct : Bool)
  | stmt
  | item
  deriving DecidableEq

abbrev Par := Toks → Option Toks

def pc (c : Char) : Par
  | .punct d _ :: ts => if d == c then some ts else none
  | _ => none

def pc2 (c d : Char) : Par
  | .punct a true :: .punct b _ :: ts => if a == c && b == d then some ts else none
  | _ => none

def kwP (s : Str) : Par
  | .ident n :: ts => if n == s then some ts else none
  | _ => none

def identP : Par
  | .ident n :: ts => if keywords.contains n then none else some ts
  | _ => none

def groupP (d : Delim) (ok : Toks → Bool) : Par
  | .group e c :: ts => if e == d && ok c then some ts else none
  | _ => none

def anyGroup : Par
  | .group .none _ :: _ => none
  | .group _ _ :: ts => some ts
  | _ => none

def lifetimeP : Par
  | .punct '\'' _ :: .ident _ :: ts => some ts
  | _ => none

def orElse (p q : Par) : Par := fun ts => (p ts).or (q ts)
def seq (p q : Par) : Par := fun ts => (p ts).bind q
def opt (p : Par) : Par := fun ts => some ((p ts).getD ts)
def oneOf (ps : List Par) : Par := fun ts => ps.findSome? (· ts)
def seqs (ps : List Par) : Par := fun ts => ps.foldl (fun o p => o.bind p) (some ts)
def has (p : Par) (ts : Toks) : Bool := (p ts).isSome

/-- If `p` applies then `q` must follow, otherwise nothing. -/
def whenP (p q : Par) : Par := fun ts => match p ts with | some r => q r | none => some ts

/-- `p` as often as `go` applies. -/
def manyWhile (go p : Par) : Nat → Par
  | 0, ts => some ts
  | n + 1, ts => if has go ts then (p ts).bind (manyWhile go p n) else some ts

def many (p : Par) : Par := fun ts => manyWhile p p ts.length ts

/-- At most this many repetitions in paths, types and expressions. -/
def loopFuel : Nat := 1000

/-- `p sep p … p`, at least once. -/
def sepBy1 (p sep : Par) : Par := seq p (manyWhile sep (seq sep p) loopFuel)

/-- The first case whose condition holds. (Later cases are not tried when it fails: `syn` looks ahead and does not backtrack either.) -/
def branch : List ((Toks → Bool) × Par) → Par
  | [], _ => none
  | (g, p) :: bs, ts => if g ts then p ts else branch bs ts

/-- Otherwise. -/
def always (_ : Toks) : Bool := true

/-- Some group with these delimiters. -/
def groupAny (d : Delim) : Par := groupP d fun _ => true

def litP : Par
  | .lit _ :: ts => some ts
  | _ => none

def litIntP : Par
  | .lit (.int _ _) :: ts => some ts
  | _ => none

/-- `c`, not followed by `d`. -/
def pcNot (c d : Char) : Par := fun ts => if has (pc2 c d) ts then none else pc c ts

/-- Tokens up to (not including) where `stop` applies, at least one. Patterns are not checked. -/
def scan (stop : Toks → Bool) : Par
  | [] => none
  | _ :: ts => if stop ts then some ts else scan stop ts

/-- All tokens are `p` separated by commas, possibly with a last comma. -/
def commas (p : Par) : Nat → Toks → Bool
  | 0, _ => false
  | _ + 1, [] => true
  | n + 1, ts =>
    match p ts with
    | none => false
    | some [] => true
    | some r => match pc ',' r with | some r => commas p n r | none => false

def commaList (p : Par) (ts : Toks) : Bool := commas p (ts.length + 1) ts

def full (p : Par) (ts : Toks) : Bool := match p ts with | some [] => true | _ => false

def visP : Par := whenP (kwP c! "pub") (fun ts => match ts with
  | .group .paren (.ident n :: _) :: r => if [c! "crate", c! "self", c! "super", c! "in"].contains n then some r else some ts
  | _ => some ts)

def outerAttr : Par := seq (pc '#') (groupP .bracket (fun _ => true))
def innerAttr : Par := seqs [pc '#', pc '!', groupP .bracket (fun _ => true)]

/-- Tokens up to (not including) where `stop` applies, at least one. -/
def upTo (stop : Toks → Bool) : Nat → Par
  | 0, _ => none
  | _ + 1, [] => none
  | n + 1, _ :: ts => if ts.isEmpty || stop ts then some ts else upTo stop n ts

def eqP (ts : Toks) : Bool := has (pc '=') ts && !has (pc2 '=' '=') ts && !has (pc2 '=' '>') ts

section
variable (rec : Cat → Par)

def arrowType : Par := whenP (pc2 '-' '>') (rec .typeNoPlus)

def segIdent : Par := oneOf [identP, kwP c! "self", kwP c! "Self", kwP c! "super", kwP c! "crate"]

def colons : Par := pc2 ':' ':'

/-- `<` of generics. -/
def ltP : Par := pcNot '<' '='

/-- What may follow a type as an argument: `Item = T`, `Item: B`. -/
def argTail : Par := branch [
  (eqP, seq (pc '=') (rec .type)),
  (has (pcNot ':' ':'), seq (pc ':') (sepBy1 (rec .bound) (pc '+'))),
  (always, some)]

def genericArg : Par := branch [
  (has lifetimeP, lifetimeP),
  (has (seq (opt (pc '-')) litP), seq (opt (pc '-')) litP),
  (has (groupAny .brace), groupAny .brace),
  (always, seq (rec .type) (argTail rec))]

/-- Arguments up to `>`. -/
def genericArgs : Nat → Par
  | 0, _ => none
  | n + 1, ts =>
    if has (pc '>') ts then pc '>' ts
    else (genericArg rec ts).bind fun r => if has (pc ',') r then (pc ',' r).bind (genericArgs n) else pc '>' r

def genericsP : Par := seq ltP (genericArgs rec loopFuel)

/-- A segment of a path; `angle`: `<` may follow directly; `round`: `(…) -> …` may follow. -/
def segment (angle round : Bool) : Par := seq segIdent (branch [
  (fun ts => angle && has ltP ts, genericsP rec),
  (has (seq colons ltP), seq colons (genericsP rec)),
  (fun _ => round, whenP (groupP .paren (commaList (rec .type))) (arrowType rec)),
  (always, some)])

def pathWith (angle round : Bool) : Par :=
  seqs [opt colons, segment rec angle round, manyWhile colons (seq colons (segment rec angle round)) loopFuel]

/-- `<T as Trait>::Name`. -/
def qself (angle : Bool) : Par :=
  seqs [ltP, rec .type, whenP (kwP c! "as") (rec .typePath), pc '>', colons, pathWith rec angle angle]

def boundP : Par := branch [
  (has lifetimeP, lifetimeP),
  (has (groupAny .paren), groupP .paren (full (rec .bound))),
  (always, seqs [opt (pc '?'), whenP (kwP c! "for") (rec .generics), rec .typePath])]

/-- Parameters `<'a, T: B = D, const N: usize>`. -/
def genericParam : Par := oneOf [
  seqs [lifetimeP, opt (seq (pc ':') (opt (sepBy1 lifetimeP (pc '+'))))],
  seqs [kwP c! "const", identP, pc ':', rec .type, whenP (pc '=') (fun ts => match ts with | _ :: r => some r | [] => none)],
  seqs [identP, whenP (pc ':') (opt (sepBy1 (rec .bound) (pc '+'))), whenP (pc '=') (rec .type)]]

def genericParamsLoop : Nat → Par
  | 0, _ => none
  | n + 1, ts =>
    match pc '>' ts with
    | some r => some r
    | none => (genericParam rec ts).bind fun r => match pc ',' r with | some r => genericParamsLoop n r | none => pc '>' r

def genericParams : Par := fun ts => match ltP ts with
  | some r => genericParamsLoop rec (r.length + 1) r
  | none => some ts

/-- One predicate of a where-clause. -/
def wherePred : Par := oneOf [
  seqs [lifetimeP, pc ':', opt (sepBy1 lifetimeP (pc '+'))],
  seqs [opt (seq (kwP c! "for") (rec .generics)), rec .typeNoPlus, pc ':', opt (sepBy1 (rec .bound) (pc '+'))]]

def wherePreds : Nat → Par
  | 0, ts => some ts
  | n + 1, ts => match wherePred rec ts with
    | some r => match pc ',' r with | some r => wherePreds n r | none => some r
    | none => some ts

def whereP : Par := whenP (kwP c! "where") (fun ts => wherePreds rec ts.length ts)

def typeNoPlusP : Par := branch [
  (has (groupAny .none), groupP .none (full (rec .type))),
  (has (groupAny .paren), groupP .paren (commaList (rec .type))),
  (has (groupAny .bracket), groupP .bracket (fun ts => full (rec .type) ts || full (seqs [rec .type, pc ';', rec .expr]) ts)),
  (has (pc '&'), seqs [pc '&', opt lifetimeP, opt (kwP c! "mut"), rec .typeNoPlus]),
  (has (pc '*'), seqs [pc '*', orElse (kwP c! "const") (kwP c! "mut"), rec .typeNoPlus]),
  (has (pc '!'), pc '!'),
  (has (kwP c! "_"), kwP c! "_"),
  (has (oneOf [kwP c! "for", kwP c! "unsafe", kwP c! "extern", kwP c! "fn"]),
    seqs [whenP (kwP c! "for") (rec .generics), opt (kwP c! "unsafe"), opt (seq (kwP c! "extern") (opt litP)),
      kwP c! "fn", groupP .paren (commaList (seq (opt (seq identP (pc ':'))) (rec .type))), arrowType rec]),
  (has (orElse (kwP c! "dyn") (kwP c! "impl")), seqs [orElse (kwP c! "dyn") (kwP c! "impl"), sepBy1 (rec .bound) (pc '+')]),
  (has ltP, qself rec true),
  (always, seq (rec .path) (whenP (pcNot '!' '=') anyGroup))]

/-- A path followed by bounds is a trait object without `dyn`. -/
def typeP : Par := branch [
  (has (seq (opt colons) segIdent), seq (typeNoPlusP rec) (whenP (pcNot '+' '=') (sepBy1 (rec .bound) (pc '+')))),
  (always, typeNoPlusP rec)]

/-! ## Expressions -/

def blockOk (ts : Toks) : Bool :=
  match manyWhile innerAttr innerAttr ts.length ts with
  | some ts => match manyWhile (fun ts => if ts.isEmpty then none else some ts) (rec .stmt) ts.length ts with
    | some [] => true
    | _ => false
  | none => false

def blockP : Par := groupP .brace (blockOk rec)

/-- `.name` -/
def dotName : Par
  | .punct '.' false :: .ident _ :: ts => some ts
  | _ => none

/-- `.0` -/
def dotInt : Par
  | .punct '.' false :: .lit (.int _ _) :: ts => some ts
  | _ => none

/-- Postfix operators: calls, indices, fields, methods, `?`. -/
def postOps : Nat → Par
  | 0 => some
  | n + 1 => branch [
    (has (groupP .paren (commaList (rec .expr))), seq (groupAny .paren) (postOps n)),
    (has (groupP .bracket (full (rec .expr))), seq (groupAny .bracket) (postOps n)),
    (has (pc '?'), seq (pc '?') (postOps n)),
    (has dotName, seqs [dotName, whenP colons (genericsP rec), postOps n]),
    (has dotInt, seq dotInt (postOps n)),
    (always, some)]

def ifP : Nat → Par
  | 0 => fun _ => none
  | n + 1 => seqs [kwP c! "if", rec .cond, blockP rec,
    whenP (kwP c! "else") (branch [(has (kwP c! "if"), ifP n), (always, blockP rec)])]

/-- Patterns are not checked. -/
def patUpTo (stop : Toks → Bool) : Par := fun ts => upTo stop (ts.length + 1) ts

def label : Par := opt (seq lifetimeP (pc ':'))

def blockLike : Par := branch [
  (has (kwP c! "if"), ifP rec loopFuel),
  (has (kwP c! "match"), seqs [kwP c! "match", rec .cond, groupAny .brace]),
  (has (seq label (kwP c! "loop")), seqs [label, kwP c! "loop", blockP rec]),
  (has (seq label (kwP c! "while")), seqs [label, kwP c! "while", rec .cond, blockP rec]),
  (has (seq label (kwP c! "for")), seqs [label, kwP c! "for", scan (has (kwP c! "in")), kwP c! "in", rec .cond, blockP rec]),
  (has (seq label (groupAny .brace)), seq label (blockP rec)),
  (has (kwP c! "unsafe"), seq (kwP c! "unsafe") (blockP rec)),
  (has (seqs [kwP c! "async", opt (kwP c! "move"), groupAny .brace]), seqs [kwP c! "async", opt (kwP c! "move"), blockP rec]),
  (has (kwP c! "const"), seq (kwP c! "const") (blockP rec))]

/-- The first token of an expression like this. -/
def startsBlock : Par := oneOf [kwP c! "if", kwP c! "match", seq label (oneOf [kwP c! "loop", kwP c! "while", kwP c! "for", groupAny .brace]),
  kwP c! "unsafe", seqs [kwP c! "async", opt (kwP c! "move"), groupAny .brace], kwP c! "const"]

def closureP : Par := seqs [opt (kwP c! "async"), opt (kwP c! "move"),
  branch [(has (pc2 '|' '|'), pc2 '|' '|'), (always, seqs [pc '|', scan (has (pc '|')), pc '|'])],
  branch [(has (pc2 '-' '>'), seqs [pc2 '-' '>', rec .typeNoPlus, blockP rec]), (always, rec .expr)]]

/-- `syn::Expr::peek`: an expression begins here (a struct literal or a block, only if `struct`). -/
def beginsExpr (struct : Bool) : Par := oneOf [
  fun ts => if has (kwP c! "as") ts then none else match ts with | .ident _ :: r => some r | _ => none,
  litP, groupAny .paren, groupAny .bracket, groupAny .none, fun ts => if struct then groupAny .brace ts else none,
  pcNot '!' '=', pcNot '-' '=', pcNot '*' '=', pcNot '|' '=', pcNot '&' '=', pc2 '.' '.', pcNot '<' '=', colons, lifetimeP]

/-- An expression, if one begins here. -/
def optExpr (struct : Bool) : Par := branch [(has (beginsExpr struct), rec (if struct then .expr else .cond)), (always, some)]

def fieldInit : Par := oneOf [seq (pc2 '.' '.') (rec .expr),
  seqs [manyWhile outerAttr outerAttr 100, oneOf [identP, fun ts => match ts with | .lit (.int _ _) :: r => some r | _ => none],
    whenP (fun ts => if has colons ts then none else pc ':' ts) (rec .expr)]]

def atom (struct : Bool) : Par := branch [
  (has (groupAny .none), groupP .none (full (rec .expr))),
  (has litP, litP),
  (has (orElse (kwP c! "true") (kwP c! "false")), orElse (kwP c! "true") (kwP c! "false")),
  (has (groupAny .paren), groupP .paren (commaList (rec .expr))),
  (has (groupAny .bracket), groupP .bracket (fun ts => commaList (rec .expr) ts || full (seqs [rec .expr, pc ';', rec .expr]) ts)),
  (has startsBlock, blockLike rec),
  (has (seqs [opt (kwP c! "async"), opt (kwP c! "move"), pc '|']), closureP rec),
  (has (kwP c! "return"), seq (kwP c! "return") (optExpr rec struct)),
  (has (kwP c! "break"), seqs [kwP c! "break", opt lifetimeP, optExpr rec struct]),
  (has (kwP c! "continue"), seq (kwP c! "continue") (opt lifetimeP)),
  (has (kwP c! "let"), seqs [kwP c! "let", scan eqP, pc '=', rec (.operand struct)]),
  (has (kwP c! "_"), kwP c! "_"),
  (has ltP, qself rec false),
  (always, seq (rec .exprPath) (branch [
    (has (pcNot '!' '='), seq (pc '!') anyGroup),
    (fun _ => struct, opt (groupP .brace (commaList (fieldInit rec)))),
    (always, some)]))]

def operandP (struct : Bool) : Par := branch [
  (has (pc '&'), seqs [pc '&', opt (kwP c! "mut"), rec (.operand struct)]),
  (has (pc '-'), seq (pc '-') (rec (.operand struct))),
  (has (pc '!'), seq (pc '!') (rec (.operand struct))),
  (has (pc '*'), seq (pc '*') (rec (.operand struct))),
  (always, seq (atom rec struct) (postOps rec loopFuel))]

/-- Binary operators; those of two or three characters first. -/
def binop : Par := fun ts =>
  if has (pc2 '=' '>') ts then none else
  oneOf ([('&', '&'), ('|', '|'), ('=', '='), ('!', '='), ('<', '='), ('>', '='), ('+', '='), ('-', '='), ('*', '='), ('/', '='), ('%', '='),
    ('^', '='), ('&', '='), ('|', '=')].map (fun (c, d) => pc2 c d) ++
    [seq (pc2 '<' '<') (opt (pc '=')), seq (pc2 '>' '>') (opt (pc '='))] ++ (c! "+-*/%^&|<>=").map pc) ts

def rangeEnd (struct : Bool) : Par := seqs [pc2 '.' '.', opt (pc '='), optExpr rec struct]

def binaryP (struct : Bool) : Nat → Par
  | 0 => some
  | n + 1 => branch [
    (has (kwP c! "as"), seqs [kwP c! "as", rec .typeNoPlus, binaryP struct n]),
    (has (pc2 '.' '.'), rangeEnd rec struct),
    (has binop, seqs [binop, rec (.operand struct), binaryP struct n]),
    (always, some)]

def exprWith (struct : Bool) : Par := branch [
  (has (pc2 '.' '.'), rangeEnd rec struct),
  (always, seq (operandP rec struct) (binaryP rec struct loopFuel))]

/-! ## Items and statements -/

def litStrP : Par := fun ts => match ts with | .lit (.str _ _) :: r => some r | _ => none

def sigP : Par := seqs [opt (kwP c! "const"), opt (kwP c! "async"), opt (kwP c! "unsafe"), opt (seq (kwP c! "extern") (opt litStrP)), kwP c! "fn", identP,
  genericParams rec,
  groupP .paren (commaList (seq (many outerAttr) (oneOf [
    seqs [opt (seq (pc '&') (opt lifetimeP)), opt (kwP c! "mut"), kwP c! "self", opt (seq (fun ts => if has colons ts then none else pc ':' ts) (rec .type))],
    seqs [patUpTo (fun ts => has (pc ':') ts && !has colons ts), pc ':', rec .type]]))),
  whenP (pc2 '-' '>') (rec .type), whereP rec]

def fieldNamed : Par := seqs [many outerAttr, visP, identP, pc ':', rec .type]
def fieldUnnamed : Par := seqs [many outerAttr, visP, rec .type]

def variantP : Par := seqs [many outerAttr, identP,
  opt (orElse (groupP .brace (commaList (fieldNamed rec))) (groupP .paren (commaList (fieldUnnamed rec)))), whenP (pc '=') (rec .expr)]

def semiP : Par := pc ';'

def constLike : Par := oneOf [
  seqs [kwP c! "static", opt (kwP c! "mut"), identP, pc ':', rec .type, whenP (pc '=') (rec .expr), semiP],
  seqs [kwP c! "const", orElse identP (kwP c! "_"), pc ':', rec .type, whenP (pc '=') (rec .expr), semiP],
  seqs [kwP c! "type", identP, genericParams rec, whenP (pc ':') (opt (sepBy1 (rec .bound) (pc '+'))), whereP rec, whenP (pc '=') (rec .type), semiP],
  seqs [segIdent, fun ts => manyWhile colons (seq colons segIdent) ts.length ts, pc '!', groupP .brace (fun _ => true)],
  seqs [segIdent, fun ts => manyWhile colons (seq colons segIdent) ts.length ts, pc '!', anyGroup, semiP]]

def allItems (p : Par) (ts : Toks) : Bool :=
  match (many innerAttr ts).bind fun ts => manyWhile (fun ts => if ts.isEmpty then none else some ts) p ts.length ts with
  | some [] => true
  | _ => false

def traitItemP : Par := seqs [many outerAttr, oneOf [seq (sigP rec) (orElse semiP (blockP rec)), constLike rec]]
def implItemP : Par := seqs [many outerAttr, visP, opt (kwP c! "default"), oneOf [seq (sigP rec) (blockP rec), constLike rec]]
def foreignItemP : Par := seqs [many outerAttr, visP, oneOf [seq (sigP rec) semiP, constLike rec]]

/-- `impl<…>`; `impl <T as A>::B` is not considered. -/
def implHead : Par := seqs [opt (kwP c! "default"), opt (kwP c! "unsafe"), kwP c! "impl", genericParams rec]

def useTree : Nat → Par
  | 0, _ => none
  | n + 1, ts => oneOf [pc '*', groupP .brace (commaList (useTree n)),
      seqs [segIdent, oneOf [seq colons (useTree n), seq (kwP c! "as") (orElse identP (kwP c! "_")), some]]] ts

def itemP : Par := seqs [many outerAttr, visP, oneOf [
  seq (sigP rec) (blockP rec),
  seqs [kwP c! "struct", identP, genericParams rec, oneOf [
    seqs [whereP rec, groupP .brace (commaList (fieldNamed rec))],
    seqs [groupP .paren (commaList (fieldUnnamed rec)), whereP rec, semiP],
    seqs [whereP rec, semiP]]],
  seqs [kwP c! "enum", identP, genericParams rec, whereP rec, groupP .brace (commaList (variantP rec))],
  seqs [kwP c! "union", identP, genericParams rec, whereP rec, groupP .brace (commaList (fieldNamed rec))],
  seqs [opt (kwP c! "unsafe"), opt (kwP c! "auto"), kwP c! "trait", identP, genericParams rec,
    whenP (pc ':') (opt (sepBy1 (rec .bound) (pc '+'))), whereP rec, groupP .brace (allItems (traitItemP rec))],
  seqs [implHead rec, opt (seqs [opt (pc '!'), rec .typePath, kwP c! "for"]), rec .type, whereP rec, groupP .brace (allItems (implItemP rec))],
  seqs [opt (kwP c! "unsafe"), kwP c! "mod", identP, orElse semiP (groupP .brace (allItems (rec .item)))],
  seqs [opt (kwP c! "unsafe"), kwP c! "extern", opt litStrP, groupP .brace (allItems (foreignItemP rec))],
  seqs [kwP c! "use", opt colons, fun ts => useTree (ts.length + 10) ts, semiP],
  seqs [kwP c! "extern", kwP c! "crate", identP, opt (seq (kwP c! "as") identP), semiP],
  seqs [kwP c! "macro_rules", pc '!', identP, anyGroup],
  constLike rec]]

/-- The expression is a block or a macro in braces: no semicolon needed. -/
def noSemi (ts : Toks) : Bool :=
  has (blockLike rec) ts || (match rec .exprPath ts with | some (.punct '!' _ :: .group .brace _ :: _) => true | _ => false)

def stmtP : Par := fun ts => oneOf [
  semiP,
  seqs [many outerAttr, kwP c! "let", patUpTo (fun ts => eqP ts || has semiP ts || (has (pc ':') ts && !has colons ts)),
    whenP (pc ':') (rec .type), whenP (pc '=') (rec .expr), whenP (kwP c! "else") (blockP rec), semiP],
  itemP rec,
  seqs [many outerAttr, fun ts =>
    if noSemi rec ts then
      -- a statement of its own, unless an operator follows
      match orElse (blockLike rec) (seqs [rec .exprPath, pc '!', anyGroup]) ts with
      | some r => match r with
        | .punct '.' false :: _ => (rec .expr ts).bind fun r => if r.isEmpty then some r else semiP r
        | _ => some ((semiP r).getD r)
      | none => none
    else (rec .expr ts).bind fun r => if r.isEmpty then some r else semiP r]] ts

end

/-- All categories together. -/
def parse : Nat → Cat → Par
  | 0, _ => fun _ => none
  | n + 1, c =>
    match c with
    | .path => pathWith (parse n) true false
    | .exprPath => pathWith (parse n) false false
    | .typePath => pathWith (parse n) true true
    | .generics => genericsP (parse n)
    | .type => typeP (parse n)
    | .typeNoPlus => typeNoPlusP (parse n)
    | .bound => boundP (parse n)
    | .expr => exprWith (parse n) true
    | .cond => exprWith (parse n) false
    | .operand s => operandP (parse n) s
    | .stmt => stmtP (parse n)
    | .item => itemP (parse n)

/-- Enough for the examples. -/
def fuel : Nat := 40

def rust : Cat → Par := parse fuel

/-! ## Taking blocks apart -/

/-- The tokens that were consumed. -/
def used (ts rest : Toks) : Toks := ts.take (ts.length - rest.length)

/-- The tokens that `p` consumes, and the rest; nothing if it does not apply. -/
def cut (p : Par) (ts : Toks) : Toks × Toks := match p ts with | some r => (used ts r, r) | none => ([], ts)

/-- The next token and the rest. -/
def cut1 (ts : Toks) : Toks × Toks := (ts.take 1, ts.drop 1)

def attrsOf (inner : Bool) : Nat → Toks → List Attr × Toks
  | 0, ts => ([], ts)
  | n + 1, ts =>
    match inner, ts with
    | false, .punct '#' _ :: .group .bracket b :: r => let q := attrsOf inner n r; (⟨false, b⟩ :: q.1, q.2)
    | true, .punct '#' _ :: .punct '!' _ :: .group .bracket b :: r => let q := attrsOf inner n r; (⟨true, b⟩ :: q.1, q.2)
    | _, _ => ([], ts)

/-- Elements separated by `c`, each cut off by `p`. -/
def elems {α : Type} (p : Par) (f : Toks → α) (c : Char) : Nat → Toks → Punctuated α
  | 0, _ => ⟨[], false⟩
  | _ + 1, [] => ⟨[], false⟩
  | n + 1, ts =>
    let r := cut p ts
    match pc c r.2 with
    | some [] => ⟨[f r.1], true⟩
    | some rest => let q := elems p f c n rest; ⟨f r.1 :: q.items, q.trailing⟩
    | none => ⟨[f r.1], false⟩

def fieldOf (named : Bool) (ts : Toks) : Field :=
  let (attrs, ts) := attrsOf false ts.length ts
  let (vis, ts) := cut visP ts
  if named then ⟨attrs, vis, some (ts.take 1), ts.drop 2⟩ else ⟨attrs, vis, none, ts⟩

def namedFields (c : Toks) : Punctuated Field := elems (fieldNamed rust) (fieldOf true) ',' (c.length + 1) c
def unnamedFields (c : Toks) : Punctuated Field := elems (fieldUnnamed rust) (fieldOf false) ',' (c.length + 1) c

def variantOf (ts : Toks) : Variant :=
  let (attrs, ts) := attrsOf false ts.length ts
  let (ident, ts) := cut1 ts
  let (fields, ts) : Fields × Toks := match ts with
    | .group .brace c :: r => (.named (namedFields c), r)
    | .group .paren c :: r => (.unnamed (unnamedFields c), r)
    | r => (.unit, r)
  ⟨attrs, ident, fields, match ts with | .punct '=' _ :: e => some e | _ => none⟩

/-- The last token, a group: its contents. -/
def lastBody (ts : Toks) : Toks := match ts.getLast? with | some (.group _ c) => c | _ => []

/-- Pieces cut off one after the other. -/
def pieces (p : Par) : Nat → Toks → List Toks
  | 0, _ => []
  | n + 1, ts => if ts.isEmpty then [] else let r := cut p ts; r.1 :: pieces p n r.2

def beforeBody (ts : Toks) : Toks := ts.dropLast

mutual
/-- The statements of a block whose text is well formed. -/
def stmtsOf : Nat → Toks → List Stmt
  | 0, _ => []
  | n + 1, ts => (pieces (rust .stmt) ts.length ts).map fun p => match itemOf n p with
    | .other _ => .other p
    | i => if has (rust .item) p then .item i else .other p
/-- A well formed item. -/
def itemOf : Nat → Toks → Item
  | 0, ts => .other ts
  | n + 1, all =>
    let (attrs, ts) := attrsOf false all.length all
    let (vis, ts) := cut visP ts
    let body := lastBody all
    let (inner, inside) := attrsOf true body.length body
    let allAttrs := attrs ++ inner
    let start (k : Str) (ts : Toks) := has (kwP k) ts
    let unsafeR := cut (kwP c! "unsafe") ts
    if has (seq (sigP rust) (blockP rust)) ts then .fn allAttrs vis (beforeBody ts) (stmtsOf n inside)
    else if start c! "struct" ts then
      let (ident, ts) := cut1 (ts.drop 1)
      let (gen, ts) := cut (genericParams rust) ts
      let (w, ts) := cut (whereP rust) ts
      match ts with
      | .group .brace c :: _ => .struct ⟨attrs, gen, w⟩ vis ident (.named (namedFields c))
      | .group .paren c :: r => .struct ⟨attrs, gen, (cut (whereP rust) r).1⟩ vis ident (.unnamed (unnamedFields c))
      | _ => .struct ⟨attrs, gen, w⟩ vis ident .unit
    else if start c! "enum" ts then
      let (ident, ts) := cut1 (ts.drop 1)
      let (gen, ts) := cut (genericParams rust) ts
      .enum ⟨attrs, gen, (cut (whereP rust) ts).1⟩ vis ident (elems (variantP rust) variantOf ',' (body.length + 1) body)
    else if has (seq (kwP c! "union") identP) ts then
      let (ident, ts) := cut1 (ts.drop 1)
      let (gen, ts) := cut (genericParams rust) ts
      .union ⟨attrs, gen, (cut (whereP rust) ts).1⟩ vis ident (namedFields body)
    else if has (seqs [opt (kwP c! "unsafe"), opt (kwP c! "auto"), kwP c! "trait"]) ts then
      let (auto, ts) := cut (kwP c! "auto") unsafeR.2
      let (ident, ts) := cut1 (ts.drop 1)
      let (gen, ts) := cut (genericParams rust) ts
      let (sup, ts) : Punctuated Toks × Toks := match pc ':' ts with
        | some ts => let r := cut (opt (sepBy1 (rust .bound) (pc '+'))) ts; (elems (rust .bound) id '+' (r.1.length + 1) r.1, r.2)
        | none => (⟨[], false⟩, ts)
      .trait ⟨allAttrs, gen, (cut (whereP rust) ts).1⟩ vis (!unsafeR.1.isEmpty) (!auto.isEmpty) ident sup
        ((pieces (traitItemP rust) inside.length inside).map (traitItemOf n))
    else if has (implHead rust) ts then
      let (d, ts) := cut (kwP c! "default") ts
      let (u, ts) := cut (kwP c! "unsafe") ts
      let (gen, ts) := cut (genericParams rust) (ts.drop 1)
      let (t, ts) : Option (Bool × Toks) × Toks := match seqs [opt (pc '!'), rust .typePath, kwP c! "for"] ts with
        | some r => let b := cut (pc '!') ts; (some (!b.1.isEmpty, (used b.2 r).dropLast), r)
        | none => (none, ts)
      let (self, ts) := cut (rust .type) ts
      .impl ⟨allAttrs, gen, (cut (whereP rust) ts).1⟩ (!d.isEmpty) (!u.isEmpty) t self
        ((pieces (implItemP rust) inside.length inside).map (implItemOf n))
    else if has (kwP c! "mod") unsafeR.2 then
      let (ident, ts) := cut1 (unsafeR.2.drop 1)
      match ts with
      | .group .brace _ :: _ => .mod allAttrs vis (!unsafeR.1.isEmpty) ident
          (some ((pieces (rust .item) inside.length inside).map (itemOf n)))
      | _ => .mod attrs vis (!unsafeR.1.isEmpty) ident none
    else if has (seqs [kwP c! "extern", opt litStrP, groupP .brace (fun _ => true)]) unsafeR.2 then
      let (abi, _) := cut litStrP (unsafeR.2.drop 1)
      .foreignMod allAttrs (!unsafeR.1.isEmpty) (if abi.isEmpty then none else some abi)
        (pieces (foreignItemP rust) inside.length inside)
    else .other all
def traitItemOf : Nat → Toks → TraitItem
  | 0, ts => .other ts
  | n + 1, all =>
    let (attrs, ts) := attrsOf false all.length all
    if has (seq (sigP rust) (orElse semiP (blockP rust))) ts then
      match ts.getLast? with
      | some (.group .brace body) =>
        let (inner, inside) := attrsOf true body.length body
        .fn (attrs ++ inner) ts.dropLast (some (stmtsOf n inside))
      | _ => .fn attrs ts.dropLast none
    else .other all
def implItemOf : Nat → Toks → ImplItem
  | 0, ts => .other ts
  | n + 1, all =>
    let (attrs, ts) := attrsOf false all.length all
    let (vis, ts) := cut visP ts
    let (d, ts) := cut (kwP c! "default") ts
    if has (seq (sigP rust) (blockP rust)) ts then
      let body := lastBody ts
      let (inner, inside) := attrsOf true body.length body
      .fn (attrs ++ inner) vis (!d.isEmpty) ts.dropLast (stmtsOf n inside)
    else .other all
end

/-! ## Checking what was taken apart -/

def outerOnly (as : List Attr) : Bool := as.all (!·.inner)
def outerThenInner (as : List Attr) : Bool := (as.dropWhile (!·.inner)).all (·.inner)

def visOk : Toks → Bool
  | [] => true
  | [.ident p] => p == c! "pub"
  | [.ident p, .group .paren _] => p == c! "pub"
  | _ => false

def oneIdent : Toks → Bool
  | [.ident _] => true
  | _ => false

def genericsOk : Toks → Bool
  | [] => true
  | .punct c _ :: ts => c == '<' && (match ts.getLast? with | some (.punct d _) => d == '>' | _ => false)
  | _ => false

def whereOk : Toks → Bool
  | [] => true
  | .ident w :: _ => w == c! "where"
  | _ => false

/-- `fn` and a name stand next to each other. -/
def sigOk : Toks → Bool
  | .ident a :: .ident b :: ts => a == c! "fn" || sigOk (.ident b :: ts)
  | _ :: ts => sigOk ts
  | [] => false

def listOk {α : Type} (f : α → Bool) (p : Punctuated α) : Bool := p.items.all f && !(p.items.isEmpty && p.trailing)

def fieldOk (named : Bool) (f : Field) : Bool :=
  outerOnly f.attrs && visOk f.vis && (match f.ident with | some i => named && oneIdent i | none => !named)

def fieldsOk : Fields → Bool
  | .named fs => listOk (fieldOk true) fs
  | .unnamed fs => listOk (fieldOk false) fs
  | .unit => true

def variantOk (v : Variant) : Bool := outerOnly v.attrs && oneIdent v.ident && fieldsOk v.fields

def headOk (h : Head) : Bool := genericsOk h.generics && whereOk h.whereClause

def abiOk : Option Toks → Bool
  | none => true
  | some [.lit (.str _ _)] => true
  | _ => false

mutual
/-- The parts of the statement have the form they should have; a statement which is not taken apart is a block by itself. -/
def stmtOk (block : Toks → Bool) : Stmt → Bool
  | .item i => itemOk block i
  | .other ts => block ts
def stmtsOk (block : Toks → Bool) : List Stmt → Bool
  | [] => true
  | s :: ss => stmtOk block s && stmtsOk block ss
def itemOk (block : Toks → Bool) : Item → Bool
  | .fn attrs vis sig b => outerThenInner attrs && visOk vis && sigOk sig && stmtsOk block b
  | .struct h vis ident fields => outerOnly h.attrs && headOk h && visOk vis && oneIdent ident && fieldsOk fields
  | .enum h vis ident variants => outerOnly h.attrs && headOk h && visOk vis && oneIdent ident && listOk variantOk variants
  | .union h vis ident fields => outerOnly h.attrs && headOk h && visOk vis && oneIdent ident && listOk (fieldOk true) fields
  | .trait h vis _ _ ident sups items =>
    outerThenInner h.attrs && headOk h && visOk vis && oneIdent ident && listOk (fun _ => true) sups && traitItemsOk block items
  | .impl h _ _ _ _ items => outerThenInner h.attrs && headOk h && implItemsOk block items
  | .mod attrs vis _ ident none => outerOnly attrs && visOk vis && oneIdent ident
  | .mod attrs vis _ ident (some items) => outerThenInner attrs && visOk vis && oneIdent ident && itemsOk block items
  | .foreignMod attrs _ abi _ => outerThenInner attrs && abiOk abi
  | .other _ => true
def itemsOk (block : Toks → Bool) : List Item → Bool
  | [] => true
  | i :: is => itemOk block i && itemsOk block is
def traitItemOk (block : Toks → Bool) : TraitItem → Bool
  | .fn attrs sig none => outerOnly attrs && sigOk sig
  | .fn attrs sig (some b) => outerThenInner attrs && sigOk sig && stmtsOk block b
  | .other _ => true
def traitItemsOk (block : Toks → Bool) : List TraitItem → Bool
  | [] => true
  | i :: is => traitItemOk block i && traitItemsOk block is
def implItemOk (block : Toks → Bool) : ImplItem → Bool
  | .fn attrs vis _ sig b => outerThenInner attrs && visOk vis && sigOk sig && stmtsOk block b
  | .other _ => true
def implItemsOk (block : Toks → Bool) : List ImplItem → Bool
  | [] => true
  | i :: is => implItemOk block i && implItemsOk block is
end

/-- `syn::parse2::<Block>` succeeds. (Inner attributes of the block itself are refused, as in `syn`.) -/
def goodBlock (ts : Toks) : Bool := !has innerAttr ts && blockOk rust ts

/-- The statements printed are the block again, and they have the form they should have. -/
def takenApart (ts : Toks) (ss : List Stmt) : Bool :=
  Spec.unspaced (stmtsToks ss) == Spec.unspaced ts && stmtsOk goodBlock ss

/-- `syn::parse2::<Block>`, the contents. A block which is too deep to be taken apart remains one statement. -/
def parseBlock (ts : Toks) : Option (List Stmt) :=
  if goodBlock ts then (let ss := stmtsOf fuel ts; some (if takenApart ts ss then ss else [.other ts])) else none

/-- Meta items are a path, a path with a delimited argument, or a path and a value. -/
def metaOk (ts : Toks) : Bool :=
  match rust .exprPath ts with
  | some [] => true
  | some [.group _ _] => true
  | some (.punct '=' _ :: e) => full (rust .expr) e
  | _ => false

def validNode : NodeKind → Toks → Bool
  | .vis => full visP
  | .ident => full identP
  | .sig => full (sigP rust)
  | .generics => full (genericParams rust)
  | .type => full (rust .type)
  | .expr => full (rust .expr)
  | .path => full (rust .path)
  | .bound => full (rust .bound)
  | .litStr => full litStrP
  | .traitItem => full (traitItemP rust)
  | .implItem => full (implItemP rust)
  | .foreignItem => full (foreignItemP rust)
  | .item => full (rust .item)

/-- How many token trees a parser consumes. -/
def count (p : Par) (ts : Toks) : Option Nat := (p ts).map fun r => ts.length - r.length

def syn : Syn where
  valid := validNode
  validMeta := metaOk
  parseBlock := parseBlock
  path := count (rust .path)
  type := count (rust .type)
  expr := count (rust .expr)

/-- Identifiers of the segments of a path. -/
def segsOf : Nat → Toks → List Str
  | 0, _ => []
  | n + 1, ts =>
    match ts with
    | .ident s :: ts => s :: (match seq (oneOf [seq colons (genericsP rust), genericsP rust, some]) colons ts with
      | some r => segsOf n r
      | none => [])
    | _ => []

def ext : Ext where
  toCharClass := CharClass.ascii
  toUppercase s := s.map Char.toUpper
  toLowercase s := s.map Char.toLower
  snake := snake
  lowerCamel := lowerCamel
  pascal := pascal
  render := render
  strRepr := quote
  lex := lex
  isPath := full (rust .path)
  isType := full (rust .type)
  isExpr := full (rust .expr)
  pathSegs ts := let ts := (colons ts).getD ts; segsOf ts.length ts

/-- Items inside the parts of a block that are not taken apart are not looked for. -/
def world : World := ⟨ext, syn, fun _ ts => [.toks ts]⟩

/-! ## Comparing results -/

mutual
/-- Tokens without spacing and spelling of string literals. -/
def plainTok : Tok → Tok
  | .punct c _ => .punct c false
  | .lit (.str _ v) => .lit (.str [] v)
  | .group d ts => .group d (plain ts)
  | t => t
def plain : Toks → Toks
  | [] => []
  | t :: ts => plainTok t :: plain ts
end

/-- The result of an invocation on a fresh thread with the seed 1. -/
def result (inv : Invocation) : Output := (composeCore world (fun k => k + 1) (fun _ l => l) inv Thread.fresh).1

/-- The test of `src/interpreter/test.rs:1-84`: the definitions are parsed as loops and definitions, the block is parsed by itself, and
the interpreter runs with the seed 1. -/
def execTest (spec block : Str) : Res Toks :=
  let ids := fun k => k + 1000
  let known := fun n => (builtinFuncs n).isSome
  let (loops, ts, k) : Option PLoops × Toks × Nat := match parseLoops syn known ids (toks spec) 0 with
    | (.ok (l, ts), k) => (some l, ts, k)
    | (_, k) => (none, toks spec, k)
  let (alias, rest) : Option PSpec × Toks := match parseSpec syn known ids ts k with
    | (.ok (a, ts), _) => (some a, ts)
    | _ => (none, ts)
  match parseBlock (toks block) with
  | none => .err .parse
  | some b => if rest.isEmpty then execute world (Env.builtin 1) (fun _ l => l) none (PAst.forget ⟨0, loops, alias, b⟩) else .err .parse

def Gives (spec block expected : Str) : Prop := (execTest spec block).map plain = .ok (plain (toks expected))
instance (a b c : Str) : Decidable (Gives a b c) := inferInstanceAs (Decidable (_ = _))

def failure : Res Toks → Option ErrorType
  | .err e => some (errorType e)
  | _ => none

def Fails (spec block : Str) (e : ErrorType) : Prop := failure (execTest spec block) = some e
instance (a b : Str) (c : ErrorType) : Decidable (Fails a b c) := inferInstanceAs (Decidable (_ = _))

end Verif.Lite
