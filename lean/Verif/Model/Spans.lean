import Verif.Model.Interp
/-!
# Where generated code points

The evaluation of definitions and the substitution in a syntax node once more, now with the span of every token. The functions here do what those
of the same name without `S` do; the results differ only in that the tokens carry spans.

Simplifications: a group has one span, not one for each delimiter; which spans the parser gives to the nodes is a
parameter (`Source`): the span of a call is that of the name of the function (`src/parse/call.rs:13`), a value keeps the tokens it was read from
(`Spec/SpanReads` says so of the tokens of an invocation). The block visitor with spans is in `Model/SpanItems`.
-/

namespace Verif

/-- `proc_macro2::TokenTree` with spans from `σ` (`src/substitution/stream_visitor.rs:107-112` and 159-167 match on it). -/
inductive STok (σ : Type)
  | ident (s : Str) (sp : σ)
  | punct (c : Char) (joint : Bool) (sp : σ)
  | lit (l : Lit) (sp : σ)
  | group (d : Delim) (ts : List (STok σ)) (sp : σ)
  deriving Repr

/-- `proc_macro2::TokenStream` with spans. -/
abbrev SToks (σ : Type) := List (STok σ)

mutual
/-- The token without its spans. -/
def STok.erase {σ : Type} : STok σ → Tok
  | .ident s _ => .ident s
  | .punct c j _ => .punct c j
  | .lit l _ => .lit l
  | .group d ts _ => .group d (STok.eraseL ts)
def STok.eraseL {σ : Type} : SToks σ → Toks
  | [] => []
  | t :: ts => t.erase :: STok.eraseL ts
end

mutual
/-- The token with the same span everywhere. -/
def Tok.at_ {σ : Type} (sp : σ) : Tok → STok σ
  | .ident s => .ident s sp
  | .punct c j => .punct c j sp
  | .lit l => .lit l sp
  | .group d ts => .group d (Tok.atL sp ts) sp
def Tok.atL {σ : Type} (sp : σ) : Toks → SToks σ
  | [] => []
  | t :: ts => t.at_ sp :: Tok.atL sp ts
end

/-- What `proc_macro2::Span` offers: `Span::call_site`, which `syn::parse_str` gives to all tokens, and `Span::join`, with which `syn` makes the
span of a negative literal (the first of the two spans where the compiler does not join). -/
structure SpanOps (σ : Type) where
  callSite : σ
  join : σ → σ → σ

/-- `ValueKind`, `src/ast/value.rs:25-35`, with spans. -/
inductive SVal (σ : Type)
  | ident (s : Str) (sp : σ)
  | path (ts : SToks σ)
  | type (ts : SToks σ)
  | expr (ts : SToks σ)
  | litStr (repr value : Str) (sp : σ)
  | litInt (i : IntLit) (sp : σ)
  | tokens (ts : SToks σ)
  | raw (ts : SToks σ)

namespace SVal
variable {σ : Type}

/-- The value without spans. -/
def erase : SVal σ → VKind
  | ident s _ => .ident s
  | path ts => .path (STok.eraseL ts)
  | type ts => .type (STok.eraseL ts)
  | expr ts => .expr (STok.eraseL ts)
  | litStr r v _ => .litStr r v
  | litInt i _ => .litInt i
  | tokens ts => .tokens (STok.eraseL ts)
  | raw ts => .raw (STok.eraseL ts)

/-- `Value::type_`, `src/ast/value.rs:68-79`. -/
def ty : SVal σ → Ty
  | ident _ _ => .ident
  | path _ => .path
  | type _ => .type
  | expr _ => .expr
  | litStr _ _ _ => .litStr
  | litInt _ _ => .litInt
  | tokens _ => .tokens
  | raw _ => .raw

/-- `impl ToTokens for Value`, `src/ast/value.rs:292-305`; both tokens of a negative literal have its span. -/
def toTokens : SVal σ → SToks σ
  | ident s sp => [.ident s sp]
  | path ts => ts
  | type ts => ts
  | expr ts => ts
  | litStr r v sp => [.lit (.str r v) sp]
  | litInt i sp => (if i.neg then [.punct '-' false sp] else []) ++ [.lit (.int i.repr i.val) sp]
  | tokens ts => ts
  | raw ts => ts

/-- A value made with one span: `Ident::new(_, span)`, `LitStr::new(_, span)`, `LitInt::new(_, span)`. -/
def mk (sp : σ) : VKind → SVal σ
  | .ident s => .ident s sp
  | .path ts => .path (Tok.atL sp ts)
  | .type ts => .type (Tok.atL sp ts)
  | .expr ts => .expr (Tok.atL sp ts)
  | .litStr r v => .litStr r v sp
  | .litInt i => .litInt i sp
  | .tokens ts => .tokens (Tok.atL sp ts)
  | .raw ts => .raw (Tok.atL sp ts)

end SVal

section
variable {σ : Type}

/-- `syn::parse2::<Ident>`: the identifier keeps its span. -/
def parseIdentS : SToks σ → Option (Str × σ)
  | [.ident s sp] => if keywords.contains s then none else some (s, sp)
  | _ => none

/-- `syn::parse2::<LitStr>`: the literal keeps its span. -/
def parseLitStrS : SToks σ → Option (Str × Str × σ)
  | [.lit (.str r v) sp] => some (r, v, sp)
  | _ => none

/-- `syn::parse2::<LitInt>`: the literal keeps its span, a sign and a literal are joined. -/
def parseLitIntS (P : SpanOps σ) : SToks σ → Option (IntLit × σ)
  | [.lit (.int r v) sp] => some (⟨false, r, v⟩, sp)
  | [.punct '-' _ sp, .lit (.int r v) sq] => some (⟨true, r, v⟩, P.join sp sq)
  | _ => none

/-- `from_lit_str_as_ident`, `src/ast/value.rs:104-114`: `syn::parse_str` makes tokens with the span of the call site. -/
def litStrAsIdentS (E : Ext) (P : SpanOps σ) (v : Str) : Res (SVal σ) :=
  (Res.ofOption (castError .litStr .ident) (parseStrIdent E v)).map (.ident · P.callSite)

/-- `Value::try_cast`, `src/ast/value.rs:117-255`, arms in order. -/
def tryCastS (E : Ext) (P : SpanOps σ) (v : SVal σ) (to : Ty) : Res (SVal σ) :=
  if v.ty = to then .ok v
  else match v, to with
    -- lines 120-126
    | .ident s sp, .path => .ok (.path [.ident s sp])
    -- lines 127-140
    | .ident s sp, .type => if E.isType [.ident s] then .ok (.type [.ident s sp]) else .err (castError .ident .type)
    -- lines 141-154
    | .ident s sp, .expr => if E.isExpr [.ident s] then .ok (.expr [.ident s sp]) else .err (castError .ident .expr)
    -- lines 155-171, the span is set in line 167
    | .ident s sp, .litStr =>
      (Res.ofOption (castError .ident .litStr) (parseStrLitStr E ('"' :: s ++ ['"']))).map (fun p => .litStr p.1 p.2 sp)
    -- lines 172-178
    | .litStr _ s _, .ident => litStrAsIdentS E P s
    -- lines 179-194
    | v, .ident =>
      match parseLitStrS v.toTokens with
      | some (_, s, _) => litStrAsIdentS E P s
      | none => (Res.ofOption (castError v.ty .ident) (parseIdentS v.toTokens)).map (fun p => .ident p.1 p.2)
    -- lines 195-203
    | v, .path => if E.isPath (STok.eraseL v.toTokens) then .ok (.path v.toTokens) else .err (castError v.ty .path)
    -- lines 204-212
    | v, .type => if E.isType (STok.eraseL v.toTokens) then .ok (.type v.toTokens) else .err (castError v.ty .type)
    -- lines 213-221
    | v, .expr => if E.isExpr (STok.eraseL v.toTokens) then .ok (.expr v.toTokens) else .err (castError v.ty .expr)
    -- lines 222-236, the span in line 224
    | v, .litStr =>
      match parseIdentS v.toTokens with
      | some (s, sp) => .ok (.litStr (E.strRepr s) s sp)
      | none => (Res.ofOption (castError v.ty .litStr) (parseLitStrS v.toTokens)).map (fun p => .litStr p.1 p.2.1 p.2.2)
    -- lines 237-245
    | v, .litInt => (Res.ofOption (castError v.ty .litInt) (parseLitIntS P v.toTokens)).map (fun p => .litInt p.1 p.2)
    -- lines 246-247
    | v, .tokens => .ok (.tokens v.toTokens)
    | v, .raw => .ok (.raw v.toTokens)
    -- lines 248-253
    | v, .variadic t => .err (castError v.ty (.variadic t))

/-- `Ast::span` of an identifier or a literal, `src/ast/value.rs:263-273`; other values are not asked for their span by a function. -/
def SVal.span? : SVal σ → Option σ
  | .ident _ sp => some sp
  | .litStr _ _ sp => some sp
  | .litInt _ sp => some sp
  | _ => none

/-- Which span a built-in function gives to its result. -/
inductive SpanRule
  /-- that of its argument -/
  | argument
  /-- that of the call, the third parameter of the closures -/
  | call
  /-- that of the call site, from `syn::parse_str` -/
  | callSite
  /-- the arguments are passed on as they are -/
  | keep
  /-- the result is made by `try_cast` -/
  | cast
  deriving DecidableEq

/-- The spans in the closures of `init_funcs`, `src/core/environment/init_funcs.rs`. -/
def Func.spanRule (f : Func) : SpanRule :=
  -- lines 41, 54
  if f.name ∈ [c! "upper", c! "lower", c! "snake_case", c! "camel_case", c! "pascal_case"] then .argument
  -- lines 98; 117, 131, 145, 159, 173, 187, 201; 220, 239, 256
  else if f.name ∈ [c! "normalize", c! "normalize2", c! "hash"] then .call
  else if f.name = c! "concat" then
    -- line 303
    if f.args = [.ident, .variadic .tokens] then .callSite
    -- lines 367-375
    else if f.args = [.variadic .tokens] then .keep
    -- lines 279, 337, 356
    else .call
  -- lines 482, 497
  else if f.name ∈ [c! "to_tokens", c! "raw"] then .keep
  -- lines 380-470
  else .cast

/-- `Func::call`, `src/core/type_.rs:199-207`, with the closures of `init_funcs`: the result is that of `impl`, its spans are given by the rule. -/
def Func.implS (E : Ext) (P : SpanOps σ) (seed : Nat) (f : Func) (call : σ) (args : List (SVal σ)) : Res (SVal σ) :=
  match f.spanRule with
  | .argument =>
    match args with
    | [a] =>
      match a.span? with
      | some sp => (f.impl E seed (args.map SVal.erase)).map (SVal.mk sp)
      | none => .panic
    | _ => .panic
  | .call => (f.impl E seed (args.map SVal.erase)).map (SVal.mk call)
  | .callSite => (f.impl E seed (args.map SVal.erase)).map (SVal.mk P.callSite)
  | .keep => (f.impl E seed (args.map SVal.erase)).map (fun _ => .tokens (args.flatMap SVal.toTokens))
  | .cast =>
    match args with
    | [.tokens ts] => tryCastS E P (.tokens ts) f.out
    | _ => .panic

/-- The spans of the nodes of the definitions, by the ids of the nodes: of values with all tokens, of calls the one made in `src/parse/call.rs:13`. -/
structure Source (σ : Type) where
  vals : Nat → SVal σ
  calls : Nat → σ

/-- The variables of `Context`, `src/eval/core.rs:19-23`. -/
abbrev VarsS (σ : Type) := Str → Option (SVal σ)

/-- `Context::add_variable`, `src/eval/core.rs:35-40`. -/
def VarsS.add (vars : VarsS σ) (name : Str) (v : SVal σ) : VarsS σ := fun n => if n = name then some v else vars n

/-- `impl Eval for Value`, `src/eval/value.rs:8-29`. -/
def evalValueS (E : Ext) (P : SpanOps σ) (src : Source σ) (m : Metadata) (vars : VarsS σ) (id : Nat) : Res (SVal σ) :=
  let value := match src.vals id with
    | .ident s sp => (vars s).getD (.ident s sp)
    | v => v
  match m.vals id with
  | none => .err .internal
  | some md =>
    match tryCastS E P value md.target with
    | .ok v => .ok v
    | _ => .panic

/-- `impl Eval for Expr`, `src/eval/expr.rs:8-13`, with `impl Eval for Call`, `src/eval/call.rs:8-36`: the function gets the span of the call, line 32. -/
def evalExprS (E : Ext) (P : SpanOps σ) (src : Source σ) (env : Env) (m : Metadata) (vars : VarsS σ) : Nat → Expr → Res (SVal σ)
  | 0, _ => .panic
  | _ + 1, .value id _ => evalValueS E P src m vars id
  | n + 1, .call id _ _ _ =>
    match m.calls id with
    | none => .err .internal
    | some md => do
      let args ← mapRes (evalExprS E P src env m vars n) md.args
      let result ← md.func.implS E P env.seed (src.calls id) args
      tryCastS E P result md.target

/-- `impl Eval for AliasSpec`, `src/eval/alias_spec.rs:8-19`. -/
def evalSpecS (E : Ext) (P : SpanOps σ) (src : Source σ) (env : Env) (m : Metadata) :
    List (Alias × Expr) → VarsS σ → List (Alias × SVal σ) → Res (List (Alias × SVal σ))
  | [], _, bindings => .ok bindings
  | (alias, e) :: items, vars, bindings => do
    let v ← evalExprS E P src env m vars e.depth e
    evalSpecS E P src env m items (vars.add alias.2 v) (insertKey alias v bindings)

/-- `HashMap<String, Rc<Value>>`, with spans. -/
abbrev SubsS (σ : Type) := List (Str × SVal σ)

/-- `HashMap::get`. -/
def SubsS.get (subs : SubsS σ) (name : Str) : Option (SVal σ) := (subs.find? (fun e => e.1 == name)).map (·.2)

/-- The entries without spans. -/
def SubsS.erase (subs : SubsS σ) : Subs := subs.map fun e => (e.1, e.2.erase)

/-- The loop of `make_substitutions` over the bindings, `src/interpreter/core.rs:70-76`. -/
def collectSubsS : List (Alias × SVal σ) → SubsS σ → SubsS σ
  | [], subs => subs
  | (alias, v) :: rest, subs => collectSubsS rest (insertKey alias.2 v subs)

/-- `make_substitutions`, `src/interpreter/core.rs:55-78`. Resolving does not look at spans. -/
def makeSubstitutionsS (E : Ext) (P : SpanOps σ) (src : Source σ) (env : Env) (order : List (Alias × SVal σ) → List (Alias × SVal σ))
    (items : List (Alias × Expr)) : Res (SubsS σ) := do
  let sc ← resolveSpec env items Scope.empty
  let bindings ← evalSpecS E P src env sc.md items (fun _ => none) []
  .ok (collectSubsS (order bindings) [])

/-! ## The walk through a node -/

/-- Outcome with the span of the error. -/
inductive PRes (σ α : Type) where
  | ok (a : α)
  | err (e : Err) (sp : σ)
  | panic

namespace PRes
variable {α β : Type}

/-- The `?` operator. -/
def bind (x : PRes σ α) (f : α → PRes σ β) : PRes σ β :=
  match x with
  | ok a => f a
  | err e sp => err e sp
  | panic => panic

def map (f : α → β) : PRes σ α → PRes σ β
  | ok a => ok (f a)
  | err e sp => err e sp
  | panic => panic

/-- The outcome without the span. -/
def forget : PRes σ α → Res α
  | ok a => .ok a
  | err e _ => .err e
  | panic => .panic

end PRes

/-- An element of the stack of `VisitorCtx`, `src/substitution/stream_visitor.rs:207-209`. -/
structure SFrame (σ : Type) where
  idx : Nat
  toks : SToks σ

/-- `VisitorCtx`, lines 207-213. -/
abbrev SCtx (σ : Type) := List (SFrame σ)

namespace SCtx

/-- `fold_group`, lines 261-274: the new group has the delimiter and, by line 272, the span of the old one. -/
def foldGroup (group parent : SToks σ) (i : Nat) : PRes σ (SToks σ) :=
  match parent[i]? with
  | some (.group d _ sp) => .ok (parent.set i (.group d group sp))
  | _ => .panic

/-- The fold of `current_stream`, lines 332-337. -/
def foldFrames : SToks σ → SCtx σ → PRes σ (SToks σ)
  | acc, [] => .ok acc
  | acc, ⟨i, ts⟩ :: st => (foldGroup acc ts i).bind fun ts' => foldFrames ts' st

end SCtx

/-- State of `SubstituteIdentsVisitor`, `src/substitution/substitute_idents.rs:21-25`: `error_data`, with the span. -/
abbrev SubstStateS (σ : Type) := Option (Str × Str × σ)

/-- `visit_ident_mut`, `src/substitution/substitute_idents.rs:38-55`, and `visit_literal_mut`, lines 56-68: what a token that is not a group is replaced by, if
anything, and the state afterwards. The new literal has the span of the old one, line 65; the span of the error is that of the identifier, line 48. -/
def visitLeafS (E : Ext) (subs : SubsS σ) (s : SubstStateS σ) : STok σ → Option (SToks σ) × SubstStateS σ
  | .ident n sp =>
    match subs.get n with
    | some v => (some v.toTokens, some (n, E.render (STok.eraseL v.toTokens), sp))
    | none => (none, s)
  | .lit (.str _ v) sp =>
    let f := fmtStr E subs.erase v
    (some [.lit (.str (E.strRepr f) f) sp], s)
  | _ => (none, s)

/-- `after_replace_mut`, lines 69-89. -/
def afterReplaceS (valid : Toks → Bool) (s : SubstStateS σ) : SCtx σ → PRes σ Unit
  | [] => .ok ()
  | ⟨_, ts⟩ :: st => (SCtx.foldFrames ts st).bind fun all =>
    if valid (STok.eraseL all) then .ok ()
    else match s with
      | some (name, repl, sp) => .err (.substitution name repl) sp
      | none => .panic

/-- Result of one iteration of the main loop. -/
inductive StepOutS (σ : Type) where
  | next (s : SubstStateS σ) (c : SCtx σ)
  | done (ts : SToks σ)

/-- One iteration of `StreamWalker::walk`, `src/substitution/stream_visitor.rs:44-200`, for `SubstituteIdentsVisitor`: the arms for actions it never
takes are left out (they are in `walkStep`). -/
def walkStepS (E : Ext) (valid : Toks → Bool) (subs : SubsS σ) (s : SubstStateS σ) (c : SCtx σ) : PRes σ (StepOutS σ) :=
  match c with
  | [] => .panic
  | ⟨i, ts⟩ :: parents =>
    if ts.length ≤ i then
      match parents with
      -- lines 56-79
      | [] => .ok (.done ts)
      -- lines 81-105: `pop_fold` (281-288) and `advance_current_group` (299-303)
      | ⟨j, us⟩ :: st => (SCtx.foldGroup ts us j).bind fun us' => .ok (.next s (⟨min us'.length (j + 1), us'⟩ :: st))
    else
      match ts[i]? with
      | none => .panic
      -- lines 107-157
      | some (.group _ us _) => .ok (.next s (⟨0, us⟩ :: c))
      -- lines 159-198: `replace_current_token` (239-246) and, unless nothing is put in, `advance_current_group` move the cursor behind the new tokens
      | some t =>
        match visitLeafS E subs s t with
        | (none, s) => .ok (.next s (⟨min ts.length (i + 1), ts⟩ :: parents))
        | (some new, s) =>
          let c := ⟨i + new.length, ts.take i ++ new ++ ts.drop (i + 1)⟩ :: parents
          (afterReplaceS valid s c).bind fun _ => .ok (.next s c)

/-- The main loop, cut off after `n` iterations. -/
def walkNS (E : Ext) (valid : Toks → Bool) (subs : SubsS σ) : Nat → SubstStateS σ → SCtx σ → Option (PRes σ (SToks σ))
  | 0, _, _ => none
  | n + 1, s, c =>
    match walkStepS E valid subs s c with
    | .ok (.done ts) => some (.ok ts)
    | .ok (.next s c) => walkNS E valid subs n s c
    | .err e sp => some (.err e sp)
    | .panic => some .panic

/-- `StreamWalker::walk`, lines 36-202, with enough iterations. -/
def walkS (E : Ext) (valid : Toks → Bool) (subs : SubsS σ) (ts : SToks σ) : PRes σ (SToks σ) :=
  (walkNS E valid subs (Tok.weightL (STok.eraseL ts) + 1) none [⟨0, ts⟩]).getD .panic

/-- `substitute_idents`, `src/substitution/substitute_idents.rs:94-115`. -/
def substituteIdentsS (E : Ext) (valid : Toks → Bool) (subs : SubsS σ) (node : SToks σ) : PRes σ (SToks σ) :=
  (walkS E valid subs node).bind fun ts => if valid (STok.eraseL ts) then .ok ts else .panic

end

end Verif
