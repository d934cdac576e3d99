import Verif.Model.Parses
import Verif.Model.Visitor
/-!
# What the block visitor parses (`src/substitution/alias_substitution_visitor.rs`)

The methods of `Model/Visitor` once more, method by method, with a record of every stream that is parsed: those parsed by
`substitute_idents` and the statement in braces of `parse_quote!` (lines 179-181). `Proofs/VisitorParses` shows that, without the
record, they are the same.
-/

namespace Verif

/-- Methods of `AliasSubstitutionVisitor`, lines 51-57: the state is its `error` field and the record. -/
abbrev VisitMP := StateT (Option Err × List Toks) Res

namespace VisitMP

/-- `check_error!`, lines 43-49, returns from the method when this holds. -/
def failed : VisitMP Bool := fun s => .ok (s.1.isSome, s)

/-- `self.error = Some(err)`. -/
def fail (e : Err) : VisitMP Unit := fun s => .ok ((), some e, s.2)

def panic {α} : VisitMP α := fun _ => .panic

/-- Streams are parsed. -/
def parsing {α} (x : Logged α) : VisitMP (Res α) := fun s => .ok (x.res, s.1, s.2 ++ x.parsed)

end VisitMP

open VisitMP

section
variable (E : Ext) (G : Grammar) (subs : Subs)

/-- `visit_mut`, lines 71-82, and `visit_boxed_mut`, lines 83-98, as in `visitNode`. -/
def visitNodeP {α} (valid : Toks → Bool) (parse : Toks → Option α) (toks : Toks) (node : α) : VisitMP α := do
  if ← failed then return node
  match ← parsing (substituteIdentsP E valid subs toks) with
  | .ok ts =>
    match parse ts with
    | some n => return n
    | none => panic
  | .err e => fail e; return node
  | .panic => panic

/-- `visit_mut` for a node that is represented by its tokens. -/
def visitMutP (k : NodeKind) (node : Toks) : VisitMP Toks := visitNodeP E subs (G.valid k) some node node

/-- `visit_attrs_mut`, lines 99-110; `OuterAttributes` prints all attributes, inner ones too, but parses only outer ones. -/
def visitAttrsP (attrs : List Attr) : VisitMP (List Attr) := do
  if ← failed then return attrs
  visitNodeP E subs (fun ts => (Attr.parseOuter G.validMeta ts).isSome) (Attr.parseOuter G.validMeta)
    (attrs.flatMap Attr.toks) attrs

/-- The visit of an optional part, and of nothing when it is missing. -/
def visitOptP (k : NodeKind) : Option Toks → VisitMP (Option Toks)
  | none => return none
  | some ts => do return some (← visitMutP E G subs k ts)

/-- `visit_field_mut`, lines 192-207. -/
def visitFieldP (field : Field) : VisitMP Field := do
  if ← failed then return field
  let attrs ← visitAttrsP E G subs field.attrs
  if ← failed then return { field with attrs }
  let vis ← visitMutP E G subs .vis field.vis
  if ← failed then return { field with attrs, vis }
  let ident ← visitOptP E G subs .ident field.ident
  if ← failed then return { field with attrs, vis, ident }
  let ty ← visitMutP E G subs .type field.ty
  return { attrs, vis, ident, ty }

/-- The loops `for x in xs.iter_mut() { visit(x); check_error!(self); }`, as in lines 117-120. -/
def visitEachP {α} (visit : α → VisitMP α) : List α → VisitMP (List α)
  | [] => return []
  | x :: xs => do
    let x' ← visit x
    if ← failed then return x' :: xs
    let xs' ← visitEachP visit xs
    return x' :: xs'

/-- The same loop over a punctuated list. -/
def visitPunctP {α} (visit : α → VisitMP α) (p : Punctuated α) : VisitMP (Punctuated α) := do
  let items ← visitEachP visit p.items
  return { p with items }

/-- `visit_fields_mut`, lines 111-130. -/
def visitFieldsP (fields : Fields) : VisitMP Fields := do
  if ← failed then return fields
  match fields with
  | .named fs => return .named (← visitPunctP (visitFieldP E G subs) fs)
  | .unnamed fs => return .unnamed (← visitPunctP (visitFieldP E G subs) fs)
  | .unit => return .unit

/-- The body of the loop over the variants in `visit_item_enum_mut`, lines 252-265. -/
def visitVariantP (v : Variant) : VisitMP Variant := do
  let attrs ← visitAttrsP E G subs v.attrs
  if ← failed then return { v with attrs }
  let ident ← visitMutP E G subs .ident v.ident
  if ← failed then return { v with attrs, ident }
  let fields ← visitFieldsP E G subs v.fields
  if ← failed then return { v with attrs, ident, fields }
  let discriminant ← visitOptP E G subs .expr v.discriminant
  return { attrs, ident, fields, discriminant }

/-- `self.visit_mut(&mut i.generics)`: `Generics` prints and parses only its parameters, so that the new node has no
where-clause. -/
def visitGenericsP (h : Head) : VisitMP Head := do
  if ← failed then return h
  match ← parsing (substituteIdentsP E (G.valid .generics) subs h.generics) with
  | .ok generics => return { h with generics, whereClause := [] }
  | .err e => fail e; return h
  | .panic => panic

/-- The beginning shared by `visit_item_enum_mut` (lines 238-249), `visit_item_struct_mut` (363-374),
`visit_item_trait_mut` (380-391) and `visit_item_union_mut` (412-423): attributes, visibility, name, generics. -/
def visitHeadP (h : Head) (vis ident : Toks) : VisitMP (Head × Toks × Toks) := do
  if ← failed then return (h, vis, ident)
  let attrs ← visitAttrsP E G subs h.attrs
  if ← failed then return ({ h with attrs }, vis, ident)
  let vis ← visitMutP E G subs .vis vis
  if ← failed then return ({ h with attrs }, vis, ident)
  let ident ← visitMutP E G subs .ident ident
  if ← failed then return ({ h with attrs }, vis, ident)
  let h ← visitGenericsP E G subs { h with attrs }
  return (h, vis, ident)

/-- The path of the trait of an impl, lines 306-310. -/
def visitImplTraitP : Option (Bool × Toks) → VisitMP (Option (Bool × Toks))
  | none => return none
  | some (bang, p) => do return some (bang, ← visitMutP E G subs .path p)

/-- The arm for other statements in `visit_block_mut`, lines 178-185: the statement is put in braces (which must parse:
`parse_quote!` panics otherwise), substituted as a block, and replaced by the statements of that block. -/
def visitOtherP (ts : Toks) : VisitMP (List Stmt) := do
  match ← parsing ⟨.ok (G.parseBlock ts), [[.group .brace ts]]⟩ with
  | .ok (some stmts) =>
    visitNodeP E subs G.validBlock (fun
      | [.group .brace ts] => G.parseBlock ts
      | _ => none) [.group .brace ts] stmts
  | _ => panic

mutual
/-- The loop of `visit_block_mut`, lines 139-190; the result is `new_stmts`. Simplification: after an error the statements
already done are returned, not the block's own statements changed in place; the block is then dropped anyway
(`src/interpreter/core.rs:88-90`). -/
def visitStmtsP : List Stmt → VisitMP (List Stmt)
  | [] => return []
  | s :: ss => do
    let new ← visitStmtP s
    if ← failed then return new ++ ss
    let rest ← visitStmtsP ss
    return new ++ rest
/-- The `match` of `visit_block_mut`, lines 141-186. -/
def visitStmtP : Stmt → VisitMP (List Stmt)
  | .item i => do return [.item (← visitItemP i)]
  | .other ts => visitOtherP E G subs ts
/-- The match on items in `visit_block_mut`, lines 142-173, and in `visit_item_mod_mut`, lines 343-356. -/
def visitItemP : Item → VisitMP Item
  -- `visit_item_fn_mut`, lines 267-279
  | .fn attrs vis sig block => do
    if ← failed then return .fn attrs vis sig block
    let attrs ← visitAttrsP E G subs attrs
    if ← failed then return .fn attrs vis sig block
    let vis ← visitMutP E G subs .vis vis
    if ← failed then return .fn attrs vis sig block
    let sig ← visitMutP E G subs .sig sig
    if ← failed then return .fn attrs vis sig block
    let block ← visitStmtsP block
    return .fn attrs vis sig block
  -- `visit_item_struct_mut`, lines 361-377
  | .struct h vis ident fields => do
    let (h, vis, ident) ← visitHeadP E G subs h vis ident
    if ← failed then return .struct h vis ident fields
    let fields ← visitFieldsP E G subs fields
    return .struct h vis ident fields
  -- `visit_item_enum_mut`, lines 236-266
  | .enum h vis ident variants => do
    let (h, vis, ident) ← visitHeadP E G subs h vis ident
    if ← failed then return .enum h vis ident variants
    let variants ← visitPunctP (visitVariantP E G subs) variants
    return .enum h vis ident variants
  -- `visit_item_union_mut`, lines 410-430
  | .union h vis ident fields => do
    let (h, vis, ident) ← visitHeadP E G subs h vis ident
    if ← failed then return .union h vis ident fields
    let fields ← visitPunctP (visitFieldP E G subs) fields
    return .union h vis ident fields
  -- `visit_item_trait_mut`, lines 378-409
  | .trait h vis u a ident supertraits items => do
    let (h, vis, ident) ← visitHeadP E G subs h vis ident
    if ← failed then return .trait h vis u a ident supertraits items
    let supertraits ← visitPunctP (visitMutP E G subs .bound) supertraits
    if ← failed then return .trait h vis u a ident supertraits items
    let items ← visitTraitItemsP items
    return .trait h vis u a ident supertraits items
  -- `visit_item_impl_mut`, lines 298-327
  | .impl h d u trait_ selfTy items => do
    if ← failed then return .impl h d u trait_ selfTy items
    let attrs ← visitAttrsP E G subs h.attrs
    if ← failed then return .impl { h with attrs } d u trait_ selfTy items
    let h ← visitGenericsP E G subs { h with attrs }
    if ← failed then return .impl h d u trait_ selfTy items
    let trait_ ← visitImplTraitP E G subs trait_
    if ← failed then return .impl h d u trait_ selfTy items
    let selfTy ← visitMutP E G subs .type selfTy
    if ← failed then return .impl h d u trait_ selfTy items
    let items ← visitImplItemsP items
    return .impl h d u trait_ selfTy items
  -- `visit_item_mod_mut`, lines 328-360
  | .mod attrs vis u ident content => do
    if ← failed then return .mod attrs vis u ident content
    let attrs ← visitAttrsP E G subs attrs
    if ← failed then return .mod attrs vis u ident content
    let vis ← visitMutP E G subs .vis vis
    if ← failed then return .mod attrs vis u ident content
    let ident ← visitMutP E G subs .ident ident
    if ← failed then return .mod attrs vis u ident content
    match content with
    | none => return .mod attrs vis u ident none
    | some items =>
      let items ← visitItemsP items
      return .mod attrs vis u ident (some items)
  -- `visit_item_foreign_mod_mut`, lines 280-296
  | .foreignMod attrs u abi items => do
    if ← failed then return .foreignMod attrs u abi items
    let attrs ← visitAttrsP E G subs attrs
    if ← failed then return .foreignMod attrs u abi items
    let abi ← visitOptP E G subs .litStr abi
    if ← failed then return .foreignMod attrs u abi items
    let items ← visitEachP (visitMutP E G subs .foreignItem) items
    return .foreignMod attrs u abi items
  -- lines 352-355
  | .other ts => do return .other (← visitMutP E G subs .item ts)
/-- The loop over the items of a module, lines 341-358. -/
def visitItemsP : List Item → VisitMP (List Item)
  | [] => return []
  | i :: is => do
    let i ← visitItemP i
    if ← failed then return i :: is
    let is ← visitItemsP is
    return i :: is
/-- The match on trait items, lines 400-406 (and 431-435, 449-458); functions: `visit_trait_item_fn_mut`, lines 436-448. -/
def visitTraitItemP : TraitItem → VisitMP TraitItem
  | .fn attrs sig default => do
    if ← failed then return .fn attrs sig default
    let attrs ← visitAttrsP E G subs attrs
    if ← failed then return .fn attrs sig default
    let sig ← visitMutP E G subs .sig sig
    if ← failed then return .fn attrs sig default
    match default with
    | none => return .fn attrs sig none
    | some block =>
      let block ← visitStmtsP block
      return .fn attrs sig (some block)
  | .other ts => do return .other (← visitMutP E G subs .traitItem ts)
/-- The loop over the items of a trait, lines 399-408. -/
def visitTraitItemsP : List TraitItem → VisitMP (List TraitItem)
  | [] => return []
  | i :: is => do
    let i ← visitTraitItemP i
    if ← failed then return i :: is
    let is ← visitTraitItemsP is
    return i :: is
/-- The match on impl items, lines 318-324 (and 208-212, 226-235); functions: `visit_impl_item_fn_mut`, lines 213-225. -/
def visitImplItemP : ImplItem → VisitMP ImplItem
  | .fn attrs vis d sig block => do
    if ← failed then return .fn attrs vis d sig block
    let attrs ← visitAttrsP E G subs attrs
    if ← failed then return .fn attrs vis d sig block
    let vis ← visitMutP E G subs .vis vis
    if ← failed then return .fn attrs vis d sig block
    let sig ← visitMutP E G subs .sig sig
    if ← failed then return .fn attrs vis d sig block
    let block ← visitStmtsP block
    return .fn attrs vis d sig block
  | .other ts => do return .other (← visitMutP E G subs .implItem ts)
/-- The loop over the items of an impl, lines 316-326. -/
def visitImplItemsP : List ImplItem → VisitMP (List ImplItem)
  | [] => return []
  | i :: is => do
    let i ← visitImplItemP i
    if ← failed then return i :: is
    let is ← visitImplItemsP is
    return i :: is
end

/-- `AliasSubstitutionVisitor::new`, `visit_block_mut` and the look at `error()`, `src/interpreter/core.rs:86-90`; the record is
lost when there is a panic. -/
def visitBlockP (block : List Stmt) : Res (Logged (List Stmt)) := do
  let (stmts, error, l) ← visitStmtsP E G subs block (none, [])
  match error with
  | some e => .ok ⟨.err e, l⟩
  | none => .ok ⟨.ok stmts, l⟩

end

end Verif
