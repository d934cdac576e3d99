import Verif.Model.Spans
import Verif.Model.Visitor
/-!
# Blocks with spans

The syntax trees of `Model/Items` once more, now with the span of every token, and the block visitor of `Model/Visitor`
(`src/substitution/alias_substitution_visitor.rs`) for them. The functions here do what those of the same name without `S` do.

Simplification: the spans of the keywords, of the punctuation and of the braces of an item are numbered (`at_`) instead of being fields of their own.
-/

namespace Verif

/-- `syn::Attribute`, with the spans of `#`, of `!` if there is one, and of the brackets. -/
structure SAttr (σ : Type) where
  inner : Bool
  hash : σ
  bang : σ
  bracket : σ
  body : SToks σ

/-- `Punctuated<T, P>`, with the spans of the separators. -/
structure SPunctuated (σ α : Type) where
  items : List α
  trailing : Bool
  seps : Nat → σ

/-- `syn::Field`. -/
structure SField (σ : Type) where
  attrs : List (SAttr σ)
  vis : SToks σ
  ident : Option (SToks σ)
  colon : σ
  ty : SToks σ

/-- `syn::Fields`, with the span of the delimiters. -/
inductive SFields (σ : Type)
  | named (fs : SPunctuated σ (SField σ)) (sp : σ)
  | unnamed (fs : SPunctuated σ (SField σ)) (sp : σ)
  | unit

/-- `syn::Variant`. -/
structure SVariant (σ : Type) where
  attrs : List (SAttr σ)
  ident : SToks σ
  fields : SFields σ
  eq : σ
  discriminant : Option (SToks σ)

/-- See `Head`. -/
structure SHead (σ : Type) where
  attrs : List (SAttr σ)
  generics : SToks σ
  whereClause : SToks σ

mutual
/-- `syn::Stmt`, see `Stmt`. -/
inductive SStmt (σ : Type)
  | item (i : SItem σ)
  | other (ts : SToks σ)

/-- `syn::Item`, see `Item`. -/
inductive SItem (σ : Type)
  | fn (at_ : Nat → σ) (attrs : List (SAttr σ)) (vis sig : SToks σ) (block : List (SStmt σ))
  | struct (at_ : Nat → σ) (h : SHead σ) (vis ident : SToks σ) (fields : SFields σ)
  | enum (at_ : Nat → σ) (h : SHead σ) (vis ident : SToks σ) (variants : SPunctuated σ (SVariant σ))
  | union (at_ : Nat → σ) (h : SHead σ) (vis ident : SToks σ) (fields : SPunctuated σ (SField σ))
  | trait (at_ : Nat → σ) (h : SHead σ) (vis : SToks σ) (isUnsafe isAuto : Bool) (ident : SToks σ) (supertraits : SPunctuated σ (SToks σ))
      (items : List (STraitItem σ))
  | impl (at_ : Nat → σ) (h : SHead σ) (isDefault isUnsafe : Bool) (trait_ : Option (Bool × SToks σ)) (selfTy : SToks σ) (items : List (SImplItem σ))
  | mod (at_ : Nat → σ) (attrs : List (SAttr σ)) (vis : SToks σ) (isUnsafe : Bool) (ident : SToks σ) (content : Option (List (SItem σ)))
  | foreignMod (at_ : Nat → σ) (attrs : List (SAttr σ)) (isUnsafe : Bool) (abi : Option (SToks σ)) (items : List (SToks σ))
  | other (ts : SToks σ)

/-- `syn::TraitItem`, see `TraitItem`. -/
inductive STraitItem (σ : Type)
  | fn (at_ : Nat → σ) (attrs : List (SAttr σ)) (sig : SToks σ) (default : Option (List (SStmt σ)))
  | other (ts : SToks σ)

/-- `syn::ImplItem`, see `ImplItem`. -/
inductive SImplItem (σ : Type)
  | fn (at_ : Nat → σ) (attrs : List (SAttr σ)) (vis : SToks σ) (isDefault : Bool) (sig : SToks σ) (block : List (SStmt σ))
  | other (ts : SToks σ)
end

/-! ## Without spans -/

section
variable {σ : Type}

/-- The attribute without spans. -/
def SAttr.erase (a : SAttr σ) : Attr := ⟨a.inner, STok.eraseL a.body⟩

def SPunctuated.erase {α β : Type} (f : α → β) (p : SPunctuated σ α) : Punctuated β := ⟨p.items.map f, p.trailing⟩

def SField.erase (f : SField σ) : Field := ⟨f.attrs.map SAttr.erase, STok.eraseL f.vis, f.ident.map STok.eraseL, STok.eraseL f.ty⟩

def SFields.erase : SFields σ → Fields
  | .named fs _ => .named (fs.erase SField.erase)
  | .unnamed fs _ => .unnamed (fs.erase SField.erase)
  | .unit => .unit

def SVariant.erase (v : SVariant σ) : Variant :=
  ⟨v.attrs.map SAttr.erase, STok.eraseL v.ident, v.fields.erase, v.discriminant.map STok.eraseL⟩

def SHead.erase (h : SHead σ) : Head := ⟨h.attrs.map SAttr.erase, STok.eraseL h.generics, STok.eraseL h.whereClause⟩

mutual
/-- The statement without spans. -/
def SStmt.erase : SStmt σ → Stmt
  | .item i => .item i.erase
  | .other ts => .other (STok.eraseL ts)
def SStmt.eraseL : List (SStmt σ) → List Stmt
  | [] => []
  | s :: ss => s.erase :: SStmt.eraseL ss
def SItem.erase : SItem σ → Item
  | .fn _ attrs vis sig block => .fn (attrs.map SAttr.erase) (STok.eraseL vis) (STok.eraseL sig) (SStmt.eraseL block)
  | .struct _ h vis ident fields => .struct h.erase (STok.eraseL vis) (STok.eraseL ident) fields.erase
  | .enum _ h vis ident variants => .enum h.erase (STok.eraseL vis) (STok.eraseL ident) (variants.erase SVariant.erase)
  | .union _ h vis ident fields => .union h.erase (STok.eraseL vis) (STok.eraseL ident) (fields.erase SField.erase)
  | .trait _ h vis u a ident supertraits items =>
    .trait h.erase (STok.eraseL vis) u a (STok.eraseL ident) (supertraits.erase STok.eraseL) (STraitItem.eraseL items)
  | .impl _ h d u trait_ selfTy items =>
    .impl h.erase d u (trait_.map fun p => (p.1, STok.eraseL p.2)) (STok.eraseL selfTy) (SImplItem.eraseL items)
  | .mod _ attrs vis u ident content =>
    .mod (attrs.map SAttr.erase) (STok.eraseL vis) u (STok.eraseL ident) (match content with | some is => some (SItem.eraseL is) | none => none)
  | .foreignMod _ attrs u abi items => .foreignMod (attrs.map SAttr.erase) u (abi.map STok.eraseL) (items.map STok.eraseL)
  | .other ts => .other (STok.eraseL ts)
def SItem.eraseL : List (SItem σ) → List Item
  | [] => []
  | i :: is => i.erase :: SItem.eraseL is
def STraitItem.erase : STraitItem σ → TraitItem
  | .fn _ attrs sig default =>
    .fn (attrs.map SAttr.erase) (STok.eraseL sig) (match default with | some b => some (SStmt.eraseL b) | none => none)
  | .other ts => .other (STok.eraseL ts)
def STraitItem.eraseL : List (STraitItem σ) → List TraitItem
  | [] => []
  | i :: is => i.erase :: STraitItem.eraseL is
def SImplItem.erase : SImplItem σ → ImplItem
  | .fn _ attrs vis d sig block => .fn (attrs.map SAttr.erase) (STok.eraseL vis) d (STok.eraseL sig) (SStmt.eraseL block)
  | .other ts => .other (STok.eraseL ts)
def SImplItem.eraseL : List (SImplItem σ) → List ImplItem
  | [] => []
  | i :: is => i.erase :: SImplItem.eraseL is
end

end

section
variable {σ : Type}

/-! ## Printing (`ToTokens`) -/

/-- A keyword. -/
def kwS (s : String) (sp : σ) : SToks σ := [.ident (S s) sp]

/-- A keyword that is there or not. -/
def kwIfS (b : Bool) (s : String) (sp : σ) : SToks σ := if b then kwS s sp else []

/-- `impl ToTokens for Attribute`. -/
def SAttr.toks (a : SAttr σ) : SToks σ :=
  .punct '#' false a.hash :: (if a.inner then [.punct '!' false a.bang] else []) ++ [.group .bracket a.body a.bracket]

/-- The attributes in front of an item. -/
def outerToksS (as : List (SAttr σ)) : SToks σ := (as.filter (fun a => !a.inner)).flatMap SAttr.toks

/-- The attributes printed inside the braces of an item. -/
def innerToksS (as : List (SAttr σ)) : SToks σ := (as.filter (fun a => a.inner)).flatMap SAttr.toks

/-- `impl ToTokens for Punctuated`, the punctuation being one character. -/
def sepToksS (c : Char) (trailing : Bool) (seps : Nat → σ) : List (SToks σ) → SToks σ
  | [] => []
  | [t] => t ++ (if trailing then [.punct c false (seps 0)] else [])
  | t :: ts => t ++ .punct c false (seps 0) :: sepToksS c trailing (fun n => seps (n + 1)) ts

def SPunctuated.toks {α} (f : α → SToks σ) (c : Char) (p : SPunctuated σ α) : SToks σ := sepToksS c p.trailing p.seps (p.items.map f)

def SField.toks (f : SField σ) : SToks σ :=
  outerToksS f.attrs ++ f.vis ++ (match f.ident with | some i => i ++ [.punct ':' false f.colon] | none => []) ++ f.ty

/-- The fields of a struct with the where-clause and the final `;`, or of a variant, see `Fields.toks`. -/
def SFields.toks (w : SToks σ) (semi : SToks σ) : SFields σ → SToks σ
  | .named fs sp => w ++ [.group .brace (fs.toks SField.toks ',') sp]
  | .unnamed fs sp => .group .paren (fs.toks SField.toks ',') sp :: w ++ semi
  | .unit => w ++ semi

def SVariant.toks (v : SVariant σ) : SToks σ :=
  outerToksS v.attrs ++ v.ident ++ v.fields.toks [] [] ++
    (match v.discriminant with | some e => .punct '=' false v.eq :: e | none => [])

/-- The trait of an impl: `!`, path, `for`. -/
def implTraitToksS (bang for_ : σ) : Option (Bool × SToks σ) → SToks σ
  | some (b, p) => (if b then [.punct '!' false bang] else []) ++ p ++ kwS "for" for_
  | none => []

/-- The supertraits; the colon is printed when there are any. -/
def superToksS (colon : σ) (s : SPunctuated σ (SToks σ)) : SToks σ :=
  if s.items.isEmpty then [] else .punct ':' false colon :: s.toks id '+'

mutual
def SStmt.toks : SStmt σ → SToks σ
  | .item i => i.toks
  | .other ts => ts
def stmtsToksS : List (SStmt σ) → SToks σ
  | [] => []
  | s :: ss => s.toks ++ stmtsToksS ss
def SItem.toks : SItem σ → SToks σ
  | .fn sp attrs vis sig block => outerToksS attrs ++ vis ++ sig ++ [.group .brace (innerToksS attrs ++ stmtsToksS block) (sp 0)]
  | .struct sp h vis ident fields =>
    outerToksS h.attrs ++ vis ++ kwS "struct" (sp 0) ++ ident ++ h.generics ++ fields.toks h.whereClause [.punct ';' false (sp 1)]
  | .enum sp h vis ident variants =>
    outerToksS h.attrs ++ vis ++ kwS "enum" (sp 0) ++ ident ++ h.generics ++ h.whereClause ++
      [.group .brace (variants.toks SVariant.toks ',') (sp 1)]
  | .union sp h vis ident fields =>
    outerToksS h.attrs ++ vis ++ kwS "union" (sp 0) ++ ident ++ h.generics ++ h.whereClause ++
      [.group .brace (fields.toks SField.toks ',') (sp 1)]
  | .trait sp h vis u a ident supertraits items =>
    outerToksS h.attrs ++ vis ++ kwIfS u "unsafe" (sp 0) ++ kwIfS a "auto" (sp 1) ++ kwS "trait" (sp 2) ++ ident ++ h.generics ++
      superToksS (sp 3) supertraits ++ h.whereClause ++ [.group .brace (innerToksS h.attrs ++ traitItemsToksS items) (sp 4)]
  | .impl sp h d u trait_ selfTy items =>
    outerToksS h.attrs ++ kwIfS d "default" (sp 0) ++ kwIfS u "unsafe" (sp 1) ++ kwS "impl" (sp 2) ++ h.generics ++ implTraitToksS (sp 3) (sp 4) trait_ ++
      selfTy ++ h.whereClause ++ [.group .brace (innerToksS h.attrs ++ implItemsToksS items) (sp 5)]
  | .mod sp attrs vis u ident content =>
    outerToksS attrs ++ vis ++ kwIfS u "unsafe" (sp 0) ++ kwS "mod" (sp 1) ++ ident ++
      (match content with
       | some items => [.group .brace (innerToksS attrs ++ itemsToksS items) (sp 2)]
       | none => [.punct ';' false (sp 2)])
  | .foreignMod sp attrs u abi items =>
    outerToksS attrs ++ kwIfS u "unsafe" (sp 0) ++ kwS "extern" (sp 1) ++ abi.getD [] ++ [.group .brace (innerToksS attrs ++ items.flatten) (sp 2)]
  | .other ts => ts
def itemsToksS : List (SItem σ) → SToks σ
  | [] => []
  | i :: is => i.toks ++ itemsToksS is
def STraitItem.toks : STraitItem σ → SToks σ
  | .fn sp attrs sig default =>
    outerToksS attrs ++ sig ++
      (match default with
       | some block => [.group .brace (innerToksS attrs ++ stmtsToksS block) (sp 0)]
       | none => [.punct ';' false (sp 0)])
  | .other ts => ts
def traitItemsToksS : List (STraitItem σ) → SToks σ
  | [] => []
  | i :: is => i.toks ++ traitItemsToksS is
def SImplItem.toks : SImplItem σ → SToks σ
  | .fn sp attrs vis d sig block =>
    outerToksS attrs ++ vis ++ kwIfS d "default" (sp 0) ++ sig ++ [.group .brace (innerToksS attrs ++ stmtsToksS block) (sp 1)]
  | .other ts => ts
def implItemsToksS : List (SImplItem σ) → SToks σ
  | [] => []
  | i :: is => i.toks ++ implItemsToksS is
end

/-- `OuterAttributes::parse`, `src/substitution/alias_substitution_visitor.rs:28-33`. -/
def SAttr.parseOuter (ok : Toks → Bool) : SToks σ → Option (List (SAttr σ))
  | [] => some []
  | .punct '#' _ h :: .group .bracket body b :: ts =>
    if ok (STok.eraseL body) then (SAttr.parseOuter ok ts).map (⟨false, h, h, b, body⟩ :: ·) else none
  | _ => none

end

/-- `syn`'s grammar (`Grammar`), with the statements of a block with their spans. -/
structure GrammarS (σ : Type) extends Grammar where
  parseBlockS : SToks σ → Option (List (SStmt σ))

section
variable {σ : Type}

/-- `syn::parse2::<Block>` succeeds. -/
def GrammarS.parseBraces (G : GrammarS σ) : SToks σ → Option (List (SStmt σ))
  | [.group .brace ts _] => G.parseBlockS ts
  | _ => none

/-! ## The visitor -/

/-- Methods of `AliasSubstitutionVisitor`, `src/substitution/alias_substitution_visitor.rs:51-57`: the state is its `error` field, with the span of the
error. -/
abbrev VisitMS (σ : Type) := StateT (Option (Err × σ)) Res

/-- `check_error!`, lines 43-49, returns from the method when this holds. -/
def VisitMS.failed : VisitMS σ Bool := fun e => .ok (e.isSome, e)

/-- `self.error = Some(err)`. -/
def VisitMS.fail (e : Err × σ) : VisitMS σ Unit := fun _ => .ok ((), some e)

def VisitMS.panic {α} : VisitMS σ α := fun _ => .panic

open VisitMS

variable (E : Ext) (P : SpanOps σ) (G : GrammarS σ) (subs : SubsS σ)

/-- `visit_mut`, lines 71-82, and `visit_boxed_mut`, lines 83-98; `valid` and `parse` describe the node type `N`: a node `x` is
its tokens `x.1` and whatever parsing those gives. -/
def visitNodeS {α} (valid : Toks → Bool) (parse : SToks σ → Option α) (toks : SToks σ) (node : α) : VisitMS σ α := do
  if ← failed then return node
  match substituteIdentsS E valid subs toks with
  | .ok ts =>
    match parse ts with
    | some n => return n
    | none => panic
  | .err e sp => fail (e, sp); return node
  | .panic => panic

/-- `visit_mut` for a node that is represented by its tokens. -/
def visitMutS (k : NodeKind) (node : SToks σ) : VisitMS σ (SToks σ) := visitNodeS E subs (G.valid k) some node node

/-- `visit_attrs_mut`, lines 99-110; `OuterAttributes` prints all attributes, inner ones too, but parses only outer ones. -/
def visitAttrsS (attrs : List (SAttr σ)) : VisitMS σ (List (SAttr σ)) := do
  if ← failed then return attrs
  visitNodeS E subs (fun ts => (Attr.parseOuter G.validMeta ts).isSome) (SAttr.parseOuter G.validMeta)
    (attrs.flatMap SAttr.toks) attrs

/-- The visit of an optional part, and of nothing when it is missing. -/
def visitOptS (k : NodeKind) : Option (SToks σ) → VisitMS σ (Option (SToks σ))
  | none => return none
  | some ts => do return some (← visitMutS E G subs k ts)

/-- `visit_field_mut`, lines 192-207. -/
def visitFieldS (field : SField σ) : VisitMS σ (SField σ) := do
  if ← failed then return field
  let attrs ← visitAttrsS E G subs field.attrs
  if ← failed then return { field with attrs }
  let vis ← visitMutS E G subs .vis field.vis
  if ← failed then return { field with attrs, vis }
  let ident ← visitOptS E G subs .ident field.ident
  if ← failed then return { field with attrs, vis, ident }
  let ty ← visitMutS E G subs .type field.ty
  return { field with attrs, vis, ident, ty }

/-- The loops `for x in xs.iter_mut() { visit(x); check_error!(self); }`, as in lines 117-120. -/
def visitEachS {α} (visit : α → VisitMS σ α) : List α → VisitMS σ (List α)
  | [] => return []
  | x :: xs => do
    let x' ← visit x
    if ← failed then return x' :: xs
    let xs' ← visitEachS visit xs
    return x' :: xs'

/-- The same loop over a punctuated list. -/
def visitPunctS {α} (visit : α → VisitMS σ α) (p : SPunctuated σ α) : VisitMS σ (SPunctuated σ α) := do
  let items ← visitEachS visit p.items
  return { p with items }

/-- `visit_fields_mut`, lines 111-130. -/
def visitFieldsS (fields : SFields σ) : VisitMS σ (SFields σ) := do
  if ← failed then return fields
  match fields with
  | .named fs sp => return .named (← visitPunctS (visitFieldS E G subs) fs) sp
  | .unnamed fs sp => return .unnamed (← visitPunctS (visitFieldS E G subs) fs) sp
  | .unit => return .unit

/-- The body of the loop over the variants in `visit_item_enum_mut`, lines 252-265. -/
def visitVariantS (v : SVariant σ) : VisitMS σ (SVariant σ) := do
  let attrs ← visitAttrsS E G subs v.attrs
  if ← failed then return { v with attrs }
  let ident ← visitMutS E G subs .ident v.ident
  if ← failed then return { v with attrs, ident }
  let fields ← visitFieldsS E G subs v.fields
  if ← failed then return { v with attrs, ident, fields }
  let discriminant ← visitOptS E G subs .expr v.discriminant
  return { v with attrs, ident, fields, discriminant }

/-- `self.visit_mut(&mut i.generics)`: `Generics` prints and parses only its parameters, so that the new node has no
where-clause. -/
def visitGenericsS (h : SHead σ) : VisitMS σ (SHead σ) := do
  if ← failed then return h
  match substituteIdentsS E (G.valid .generics) subs h.generics with
  | .ok generics => return { h with generics, whereClause := [] }
  | .err e sp => fail (e, sp); return h
  | .panic => panic

/-- The beginning shared by `visit_item_enum_mut` (lines 238-249), `visit_item_struct_mut` (363-374),
`visit_item_trait_mut` (380-391) and `visit_item_union_mut` (412-423): attributes, visibility, name, generics. -/
def visitHeadS (h : SHead σ) (vis ident : SToks σ) : VisitMS σ (SHead σ × SToks σ × SToks σ) := do
  if ← failed then return (h, vis, ident)
  let attrs ← visitAttrsS E G subs h.attrs
  if ← failed then return ({ h with attrs }, vis, ident)
  let vis ← visitMutS E G subs .vis vis
  if ← failed then return ({ h with attrs }, vis, ident)
  let ident ← visitMutS E G subs .ident ident
  if ← failed then return ({ h with attrs }, vis, ident)
  let h ← visitGenericsS E G subs { h with attrs }
  return (h, vis, ident)

/-- The path of the trait of an impl, lines 306-310. -/
def visitImplTraitS : Option (Bool × SToks σ) → VisitMS σ (Option (Bool × SToks σ))
  | none => return none
  | some (bang, p) => do return some (bang, ← visitMutS E G subs .path p)

/-- The arm for other statements in `visit_block_mut`, lines 178-185: the statement is put in braces (which must parse:
`parse_quote!` panics otherwise), substituted as a block, and replaced by the statements of that block. -/
def visitOtherS (ts : SToks σ) : VisitMS σ (List (SStmt σ)) :=
  match G.parseBlockS ts with
  | none => panic
  | some stmts => visitNodeS E subs G.validBlock G.parseBraces [.group .brace ts P.callSite] stmts

mutual
/-- The loop of `visit_block_mut`, lines 139-190; the result is `new_stmts`. Simplification: after an error the statements
already done are returned, not the block's own statements changed in place; the block is then dropped anyway
(`src/interpreter/core.rs:88-90`). -/
def visitStmtsS : List (SStmt σ) → VisitMS σ (List (SStmt σ))
  | [] => return []
  | s :: ss => do
    let new ← visitStmtS s
    if ← failed then return new ++ ss
    let rest ← visitStmtsS ss
    return new ++ rest
/-- The `match` of `visit_block_mut`, lines 141-186. -/
def visitStmtS : SStmt σ → VisitMS σ (List (SStmt σ))
  | .item i => do return [.item (← visitItemS i)]
  | .other ts => visitOtherS E P G subs ts
/-- The match on items in `visit_block_mut`, lines 142-173, and in `visit_item_mod_mut`, lines 343-356. -/
def visitItemS : SItem σ → VisitMS σ (SItem σ)
  -- `visit_item_fn_mut`, lines 267-279
  | .fn sp attrs vis sig block => do
    if ← failed then return .fn sp attrs vis sig block
    let attrs ← visitAttrsS E G subs attrs
    if ← failed then return .fn sp attrs vis sig block
    let vis ← visitMutS E G subs .vis vis
    if ← failed then return .fn sp attrs vis sig block
    let sig ← visitMutS E G subs .sig sig
    if ← failed then return .fn sp attrs vis sig block
    let block ← visitStmtsS block
    return .fn sp attrs vis sig block
  -- `visit_item_struct_mut`, lines 361-377
  | .struct sp h vis ident fields => do
    let (h, vis, ident) ← visitHeadS E G subs h vis ident
    if ← failed then return .struct sp h vis ident fields
    let fields ← visitFieldsS E G subs fields
    return .struct sp h vis ident fields
  -- `visit_item_enum_mut`, lines 236-266
  | .enum sp h vis ident variants => do
    let (h, vis, ident) ← visitHeadS E G subs h vis ident
    if ← failed then return .enum sp h vis ident variants
    let variants ← visitPunctS (visitVariantS E G subs) variants
    return .enum sp h vis ident variants
  -- `visit_item_union_mut`, lines 410-430
  | .union sp h vis ident fields => do
    let (h, vis, ident) ← visitHeadS E G subs h vis ident
    if ← failed then return .union sp h vis ident fields
    let fields ← visitPunctS (visitFieldS E G subs) fields
    return .union sp h vis ident fields
  -- `visit_item_trait_mut`, lines 378-409
  | .trait sp h vis u a ident supertraits items => do
    let (h, vis, ident) ← visitHeadS E G subs h vis ident
    if ← failed then return .trait sp h vis u a ident supertraits items
    let supertraits ← visitPunctS (visitMutS E G subs .bound) supertraits
    if ← failed then return .trait sp h vis u a ident supertraits items
    let items ← visitTraitItemsS items
    return .trait sp h vis u a ident supertraits items
  -- `visit_item_impl_mut`, lines 298-327
  | .impl sp h d u trait_ selfTy items => do
    if ← failed then return .impl sp h d u trait_ selfTy items
    let attrs ← visitAttrsS E G subs h.attrs
    if ← failed then return .impl sp { h with attrs } d u trait_ selfTy items
    let h ← visitGenericsS E G subs { h with attrs }
    if ← failed then return .impl sp h d u trait_ selfTy items
    let trait_ ← visitImplTraitS E G subs trait_
    if ← failed then return .impl sp h d u trait_ selfTy items
    let selfTy ← visitMutS E G subs .type selfTy
    if ← failed then return .impl sp h d u trait_ selfTy items
    let items ← visitImplItemsS items
    return .impl sp h d u trait_ selfTy items
  -- `visit_item_mod_mut`, lines 328-360
  | .mod sp attrs vis u ident content => do
    if ← failed then return .mod sp attrs vis u ident content
    let attrs ← visitAttrsS E G subs attrs
    if ← failed then return .mod sp attrs vis u ident content
    let vis ← visitMutS E G subs .vis vis
    if ← failed then return .mod sp attrs vis u ident content
    let ident ← visitMutS E G subs .ident ident
    if ← failed then return .mod sp attrs vis u ident content
    match content with
    | none => return .mod sp attrs vis u ident none
    | some items =>
      let items ← visitItemsS items
      return .mod sp attrs vis u ident (some items)
  -- `visit_item_foreign_mod_mut`, lines 280-296
  | .foreignMod sp attrs u abi items => do
    if ← failed then return .foreignMod sp attrs u abi items
    let attrs ← visitAttrsS E G subs attrs
    if ← failed then return .foreignMod sp attrs u abi items
    let abi ← visitOptS E G subs .litStr abi
    if ← failed then return .foreignMod sp attrs u abi items
    let items ← visitEachS (visitMutS E G subs .foreignItem) items
    return .foreignMod sp attrs u abi items
  -- lines 352-355
  | .other ts => do return .other (← visitMutS E G subs .item ts)
/-- The loop over the items of a module, lines 341-358. -/
def visitItemsS : List (SItem σ) → VisitMS σ (List (SItem σ))
  | [] => return []
  | i :: is => do
    let i ← visitItemS i
    if ← failed then return i :: is
    let is ← visitItemsS is
    return i :: is
/-- The match on trait items, lines 400-406 (and 431-435, 449-458); functions: `visit_trait_item_fn_mut`, lines 436-448. -/
def visitTraitItemS : STraitItem σ → VisitMS σ (STraitItem σ)
  | .fn sp attrs sig default => do
    if ← failed then return .fn sp attrs sig default
    let attrs ← visitAttrsS E G subs attrs
    if ← failed then return .fn sp attrs sig default
    let sig ← visitMutS E G subs .sig sig
    if ← failed then return .fn sp attrs sig default
    match default with
    | none => return .fn sp attrs sig none
    | some block =>
      let block ← visitStmtsS block
      return .fn sp attrs sig (some block)
  | .other ts => do return .other (← visitMutS E G subs .traitItem ts)
/-- The loop over the items of a trait, lines 399-408. -/
def visitTraitItemsS : List (STraitItem σ) → VisitMS σ (List (STraitItem σ))
  | [] => return []
  | i :: is => do
    let i ← visitTraitItemS i
    if ← failed then return i :: is
    let is ← visitTraitItemsS is
    return i :: is
/-- The match on impl items, lines 318-324 (and 208-212, 226-235); functions: `visit_impl_item_fn_mut`, lines 213-225. -/
def visitImplItemS : SImplItem σ → VisitMS σ (SImplItem σ)
  | .fn sp attrs vis d sig block => do
    if ← failed then return .fn sp attrs vis d sig block
    let attrs ← visitAttrsS E G subs attrs
    if ← failed then return .fn sp attrs vis d sig block
    let vis ← visitMutS E G subs .vis vis
    if ← failed then return .fn sp attrs vis d sig block
    let sig ← visitMutS E G subs .sig sig
    if ← failed then return .fn sp attrs vis d sig block
    let block ← visitStmtsS block
    return .fn sp attrs vis d sig block
  | .other ts => do return .other (← visitMutS E G subs .implItem ts)
/-- The loop over the items of an impl, lines 316-326. -/
def visitImplItemsS : List (SImplItem σ) → VisitMS σ (List (SImplItem σ))
  | [] => return []
  | i :: is => do
    let i ← visitImplItemS i
    if ← failed then return i :: is
    let is ← visitImplItemsS is
    return i :: is
end

/-- `AliasSubstitutionVisitor::new`, `visit_block_mut` and the look at `error()`, `src/interpreter/core.rs:86-90`. -/
def visitBlockS (block : List (SStmt σ)) : PRes σ (List (SStmt σ)) :=
  match visitStmtsS E P G subs block none with
  | .ok (_, some (e, sp)) => .err e sp
  | .ok (stmts, none) => .ok stmts
  | _ => .panic

end

end Verif
