import Verif.Model.Items
/-!
# The block visitor (`src/substitution/alias_substitution_visitor.rs`)

The visitor works in place and keeps the first error in a field; here a method returns the changed node, and the state
is the field `error`. `panic` is a panic of the macro; the outcome `err` of `Res` is not used by the methods.
-/

namespace Verif

/-- Methods of `AliasSubstitutionVisitor`, lines 51-57: the state is its `error` field. -/
abbrev VisitM := StateT (Option Err) Res

/-- `check_error!`, lines 43-49, returns from the method when this holds. -/
def VisitM.failed : VisitM Bool := fun e => .ok (e.isSome, e)

/-- `self.error = Some(err)`. -/
def VisitM.fail (e : Err) : VisitM Unit := fun _ => .ok ((), some e)

def VisitM.panic {α} : VisitM α := fun _ => .panic

open VisitM

section
variable (E : Ext) (G : Grammar) (subs : Subs)

/-- `visit_mut`, lines 71-82, and `visit_boxed_mut`, lines 83-98; `valid` and `parse` describe the node type `N`: a node `x` is
its tokens `x.1` and whatever parsing those gives. -/
def visitNode {α} (valid : Toks → Bool) (parse : Toks → Option α) (toks : Toks) (node : α) : VisitM α := do
  if ← failed then return node
  match substituteIdents E valid subs toks with
  | .ok ts =>
    match parse ts with
    | some n => return n
    | none => panic
  | .err e => fail e; return node
  | .panic => panic

/-- `visit_mut` for a node that is represented by its tokens. -/
def visitMut (k : NodeKind) (node : Toks) : VisitM Toks := visitNode E subs (G.valid k) some node node

/-- `visit_attrs_mut`, lines 99-110; `OuterAttributes` prints all attributes, inner ones too, but parses only outer ones. -/
def visitAttrs (attrs : List Attr) : VisitM (List Attr) := do
  if ← failed then return attrs
  visitNode E subs (fun ts => (Attr.parseOuter G.validMeta ts).isSome) (Attr.parseOuter G.validMeta)
    (attrs.flatMap Attr.toks) attrs

/-- The visit of an optional part, and of nothing when it is missing. -/
def visitOpt (k : NodeKind) : Option Toks → VisitM (Option Toks)
  | none => return none
  | some ts => do return some (← visitMut E G subs k ts)

/-- `visit_field_mut`, lines 192-207. -/
def visitField (field : Field) : VisitM Field := do
  if ← failed then return field
  let attrs ← visitAttrs E G subs field.attrs
  if ← failed then return { field with attrs }
  let vis ← visitMut E G subs .vis field.vis
  if ← failed then return { field with attrs, vis }
  let ident ← visitOpt E G subs .ident field.ident
  if ← failed then return { field with attrs, vis, ident }
  let ty ← visitMut E G subs .type field.ty
  return { attrs, vis, ident, ty }

/-- The loops `for x in xs.iter_mut() { visit(x); check_error!(self); }`, as in lines 117-120. -/
def visitEach {α} (visit : α → VisitM α) : List α → VisitM (List α)
  | [] => return []
  | x :: xs => do
    let x' ← visit x
    if ← failed then return x' :: xs
    let xs' ← visitEach visit xs
    return x' :: xs'

/-- The same loop over a punctuated list. -/
def visitPunct {α} (visit : α → VisitM α) (p : Punctuated α) : VisitM (Punctuated α) := do
  let items ← visitEach visit p.items
  return { p with items }

/-- `visit_fields_mut`, lines 111-130. -/
def visitFields (fields : Fields) : VisitM Fields := do
  if ← failed then return fields
  match fields with
  | .named fs => return .named (← visitPunct (visitField E G subs) fs)
  | .unnamed fs => return .unnamed (← visitPunct (visitField E G subs) fs)
  | .unit => return .unit

/-- The body of the loop over the variants in `visit_item_enum_mut`, lines 252-265. -/
def visitVariant (v : Variant) : VisitM Variant := do
  let attrs ← visitAttrs E G subs v.attrs
  if ← failed then return { v with attrs }
  let ident ← visitMut E G subs .ident v.ident
  if ← failed then return { v with attrs, ident }
  let fields ← visitFields E G subs v.fields
  if ← failed then return { v with attrs, ident, fields }
  let discriminant ← visitOpt E G subs .expr v.discriminant
  return { attrs, ident, fields, discriminant }

/-- `self.visit_mut(&mut i.generics)`: `Generics` prints and parses only its parameters, so that the new node has no
where-clause. -/
def visitGenerics (h : Head) : VisitM Head := do
  if ← failed then return h
  match substituteIdents E (G.valid .generics) subs h.generics with
  | .ok generics => return { h with generics, whereClause := [] }
  | .err e => fail e; return h
  | .panic => panic

/-- The beginning shared by `visit_item_enum_mut` (lines 238-249), `visit_item_struct_mut` (363-374),
`visit_item_trait_mut` (380-391) and `visit_item_union_mut` (412-423): attributes, visibility, name, generics. -/
def visitHead (h : Head) (vis ident : Toks) : VisitM (Head × Toks × Toks) := do
  if ← failed then return (h, vis, ident)
  let attrs ← visitAttrs E G subs h.attrs
  if ← failed then return ({ h with attrs }, vis, ident)
  let vis ← visitMut E G subs .vis vis
  if ← failed then return ({ h with attrs }, vis, ident)
  let ident ← visitMut E G subs .ident ident
  if ← failed then return ({ h with attrs }, vis, ident)
  let h ← visitGenerics E G subs { h with attrs }
  return (h, vis, ident)

/-- The path of the trait of an impl, lines 306-310. -/
def visitImplTrait : Option (Bool × Toks) → VisitM (Option (Bool × Toks))
  | none => return none
  | some (bang, p) => do return some (bang, ← visitMut E G subs .path p)

/-- The arm for other statements in `visit_block_mut`, lines 178-185: the statement is put in braces (which must parse:
`parse_quote!` panics otherwise), substituted as a block, and replaced by the statements of that block. -/
def visitOther (ts : Toks) : VisitM (List Stmt) :=
  match G.parseBlock ts with
  | none => panic
  | some stmts =>
    visitNode E subs G.validBlock (fun
      | [.group .brace ts] => G.parseBlock ts
      | _ => none) [.group .brace ts] stmts

mutual
/-- The loop of `visit_block_mut`, lines 139-190; the result is `new_stmts`. Simplification: after an error the statements
already done are returned, not the block's own statements changed in place; the block is then dropped anyway
(`src/interpreter/core.rs:88-90`). -/
def visitStmts : List Stmt → VisitM (List Stmt)
  | [] => return []
  | s :: ss => do
    let new ← visitStmt s
    if ← failed then return new ++ ss
    let rest ← visitStmts ss
    return new ++ rest
/-- The `match` of `visit_block_mut`, lines 141-186. -/
def visitStmt : Stmt → VisitM (List Stmt)
  | .item i => do return [.item (← visitItem i)]
  | .other ts => visitOther E G subs ts
/-- The match on items in `visit_block_mut`, lines 142-173, and in `visit_item_mod_mut`, lines 343-356. -/
def visitItem : Item → VisitM Item
  -- `visit_item_fn_mut`, lines 267-279
  | .fn attrs vis sig block => do
    if ← failed then return .fn attrs vis sig block
    let attrs ← visitAttrs E G subs attrs
    if ← failed then return .fn attrs vis sig block
    let vis ← visitMut E G subs .vis vis
    if ← failed then return .fn attrs vis sig block
    let sig ← visitMut E G subs .sig sig
    if ← failed then return .fn attrs vis sig block
    let block ← visitStmts block
    return .fn attrs vis sig block
  -- `visit_item_struct_mut`, lines 361-377
  | .struct h vis ident fields => do
    let (h, vis, ident) ← visitHead E G subs h vis ident
    if ← failed then return .struct h vis ident fields
    let fields ← visitFields E G subs fields
    return .struct h vis ident fields
  -- `visit_item_enum_mut`, lines 236-266
  | .enum h vis ident variants => do
    let (h, vis, ident) ← visitHead E G subs h vis ident
    if ← failed then return .enum h vis ident variants
    let variants ← visitPunct (visitVariant E G subs) variants
    return .enum h vis ident variants
  -- `visit_item_union_mut`, lines 410-430
  | .union h vis ident fields => do
    let (h, vis, ident) ← visitHead E G subs h vis ident
    if ← failed then return .union h vis ident fields
    let fields ← visitPunct (visitField E G subs) fields
    return .union h vis ident fields
  -- `visit_item_trait_mut`, lines 378-409
  | .trait h vis u a ident supertraits items => do
    let (h, vis, ident) ← visitHead E G subs h vis ident
    if ← failed then return .trait h vis u a ident supertraits items
    let supertraits ← visitPunct (visitMut E G subs .bound) supertraits
    if ← failed then return .trait h vis u a ident supertraits items
    let items ← visitTraitItems items
    return .trait h vis u a ident supertraits items
  -- `visit_item_impl_mut`, lines 298-327
  | .impl h d u trait_ selfTy items => do
    if ← failed then return .impl h d u trait_ selfTy items
    let attrs ← visitAttrs E G subs h.attrs
    if ← failed then return .impl { h with attrs } d u trait_ selfTy items
    let h ← visitGenerics E G subs { h with attrs }
    if ← failed then return .impl h d u trait_ selfTy items
    let trait_ ← visitImplTrait E G subs trait_
    if ← failed then return .impl h d u trait_ selfTy items
    let selfTy ← visitMut E G subs .type selfTy
    if ← failed then return .impl h d u trait_ selfTy items
    let items ← visitImplItems items
    return .impl h d u trait_ selfTy items
  -- `visit_item_mod_mut`, lines 328-360
  | .mod attrs vis u ident content => do
    if ← failed then return .mod attrs vis u ident content
    let attrs ← visitAttrs E G subs attrs
    if ← failed then return .mod attrs vis u ident content
    let vis ← visitMut E G subs .vis vis
    if ← failed then return .mod attrs vis u ident content
    let ident ← visitMut E G subs .ident ident
    if ← failed then return .mod attrs vis u ident content
    match content with
    | none => return .mod attrs vis u ident none
    | some items =>
      let items ← visitItems items
      return .mod attrs vis u ident (some items)
  -- `visit_item_foreign_mod_mut`, lines 280-296
  | .foreignMod attrs u abi items => do
    if ← failed then return .foreignMod attrs u abi items
    let attrs ← visitAttrs E G subs attrs
    if ← failed then return .foreignMod attrs u abi items
    let abi ← visitOpt E G subs .litStr abi
    if ← failed then return .foreignMod attrs u abi items
    let items ← visitEach (visitMut E G subs .foreignItem) items
    return .foreignMod attrs u abi items
  -- lines 352-355
  | .other ts => do return .other (← visitMut E G subs .item ts)
/-- The loop over the items of a module, lines 341-358. -/
def visitItems : List Item → VisitM (List Item)
  | [] => return []
  | i :: is => do
    let i ← visitItem i
    if ← failed then return i :: is
    let is ← visitItems is
    return i :: is
/-- The match on trait items, lines 400-406 (and 431-435, 449-458); functions: `visit_trait_item_fn_mut`, lines 436-448. -/
def visitTraitItem : TraitItem → VisitM TraitItem
  | .fn attrs sig default => do
    if ← failed then return .fn attrs sig default
    let attrs ← visitAttrs E G subs attrs
    if ← failed then return .fn attrs sig default
    let sig ← visitMut E G subs .sig sig
    if ← failed then return .fn attrs sig default
    match default with
    | none => return .fn attrs sig none
    | some block =>
      let block ← visitStmts block
      return .fn attrs sig (some block)
  | .other ts => do return .other (← visitMut E G subs .traitItem ts)
/-- The loop over the items of a trait, lines 399-408. -/
def visitTraitItems : List TraitItem → VisitM (List TraitItem)
  | [] => return []
  | i :: is => do
    let i ← visitTraitItem i
    if ← failed then return i :: is
    let is ← visitTraitItems is
    return i :: is
/-- The match on impl items, lines 318-324 (and 208-212, 226-235); functions: `visit_impl_item_fn_mut`, lines 213-225. -/
def visitImplItem : ImplItem → VisitM ImplItem
  | .fn attrs vis d sig block => do
    if ← failed then return .fn attrs vis d sig block
    let attrs ← visitAttrs E G subs attrs
    if ← failed then return .fn attrs vis d sig block
    let vis ← visitMut E G subs .vis vis
    if ← failed then return .fn attrs vis d sig block
    let sig ← visitMut E G subs .sig sig
    if ← failed then return .fn attrs vis d sig block
    let block ← visitStmts block
    return .fn attrs vis d sig block
  | .other ts => do return .other (← visitMut E G subs .implItem ts)
/-- The loop over the items of an impl, lines 316-326. -/
def visitImplItems : List ImplItem → VisitM (List ImplItem)
  | [] => return []
  | i :: is => do
    let i ← visitImplItem i
    if ← failed then return i :: is
    let is ← visitImplItems is
    return i :: is
end

/-- `AliasSubstitutionVisitor::new`, `visit_block_mut` and the look at `error()`, `src/interpreter/core.rs:86-90`. -/
def visitBlock (block : List Stmt) : Res (List Stmt) := do
  let (stmts, error) ← visitStmts E G subs block none
  match error with
  | some e => .err e
  | none => .ok stmts

end

end Verif
