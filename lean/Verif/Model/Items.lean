import Verif.Model.Subst
/-!
# Blocks and items, as far as the code takes them apart

`syn`'s syntax trees, cut at the nodes that `src/substitution/alias_substitution_visitor.rs` hands to `substitute_idents`
as a whole: such a node is represented by its tokens. Keywords and punctuation that the visitor never touches are not
stored, they appear in the printing functions (`toks`), which follow the `ToTokens` implementations of `syn` 2.
-/

namespace Verif

/-- The node types `N` for which `substitute_idents::<N>` is called by the visitor, `alias_substitution_visitor.rs:71-98`
and its callers: visibilities, identifiers, signatures, generics, types, expressions (discriminants), paths (of the
trait of an impl), bounds (supertraits), string literals (ABI names), whole items of traits, impls, extern blocks and
modules. (Attribute lists and blocks are modelled in more detail, see `Attr.parseOuter` and `Grammar.parseBlock`.) -/
inductive NodeKind
  | vis | ident | sig | generics | type | expr | path | bound | litStr | traitItem | implItem | foreignItem | item
  deriving DecidableEq, Repr

/-- `syn::Attribute`: `#[body]`, or `#![body]` when `inner`. -/
structure Attr where
  inner : Bool
  body : Toks
  deriving DecidableEq, Repr

/-- `Punctuated<T, P>`: the elements are separated by the punctuation, which may also follow the last one. -/
structure Punctuated (α : Type) where
  items : List α
  trailing : Bool
  deriving DecidableEq, Repr

/-- `syn::Field`: the name is missing in tuple structs. -/
structure Field where
  attrs : List Attr
  vis : Toks
  ident : Option Toks
  ty : Toks
  deriving DecidableEq, Repr

/-- `syn::Fields`. -/
inductive Fields
  | named (fs : Punctuated Field)
  | unnamed (fs : Punctuated Field)
  | unit
  deriving DecidableEq, Repr

/-- `syn::Variant`. -/
structure Variant where
  attrs : List Attr
  ident : Toks
  fields : Fields
  discriminant : Option Toks
  deriving DecidableEq, Repr

/-- The part of `syn::Generics`, and what surrounds it, that structs, enums, unions, traits and impls share: attributes,
the parameters `<…>` and the where-clause (with the keyword `where`; empty when missing). -/
structure Head where
  attrs : List Attr
  generics : Toks
  whereClause : Toks
  deriving DecidableEq, Repr

mutual
/-- `syn::Stmt`, split as in `visit_block_mut`, lines 141-186: the eight item kinds that are taken apart, and every other
statement (`other`), by its tokens. -/
inductive Stmt
  | item (i : Item)
  | other (ts : Toks)

/-- `syn::Item`; `other` are the kinds handled as a whole in modules (lines 352-355). A statement never is
`item (other _)`, see `Stmt.other`. -/
inductive Item
  | fn (attrs : List Attr) (vis sig : Toks) (block : List Stmt)
  | struct (h : Head) (vis ident : Toks) (fields : Fields)
  | enum (h : Head) (vis ident : Toks) (variants : Punctuated Variant)
  | union (h : Head) (vis ident : Toks) (fields : Punctuated Field)
  | trait (h : Head) (vis : Toks) (isUnsafe isAuto : Bool) (ident : Toks) (supertraits : Punctuated Toks)
      (items : List TraitItem)
  | impl (h : Head) (isDefault isUnsafe : Bool) (trait_ : Option (Bool × Toks)) (selfTy : Toks) (items : List ImplItem)
  | mod (attrs : List Attr) (vis : Toks) (isUnsafe : Bool) (ident : Toks) (content : Option (List Item))
  | foreignMod (attrs : List Attr) (isUnsafe : Bool) (abi : Option Toks) (items : List Toks)
  | other (ts : Toks)

/-- `syn::TraitItem`; everything but functions is handled as a whole, lines 400-406. -/
inductive TraitItem
  | fn (attrs : List Attr) (sig : Toks) (default : Option (List Stmt))
  | other (ts : Toks)

/-- `syn::ImplItem`; everything but functions is handled as a whole, lines 318-324. -/
inductive ImplItem
  | fn (attrs : List Attr) (vis : Toks) (isDefault : Bool) (sig : Toks) (block : List Stmt)
  | other (ts : Toks)
end

/-! ## Printing (`ToTokens`) -/

/-- A keyword. -/
def kw (s : String) : Toks := [.ident (S s)]

/-- A keyword that is there or not. -/
def kwIf (b : Bool) (s : String) : Toks := if b then kw s else []

/-- `impl ToTokens for Attribute`. -/
def Attr.toks (a : Attr) : Toks :=
  .punct '#' false :: (if a.inner then [.punct '!' false] else []) ++ [.group .bracket a.body]

/-- The attributes in front of an item (`attrs.outer()` in `syn`). -/
def outerToks (as : List Attr) : Toks := (as.filter (fun a => !a.inner)).flatMap Attr.toks

/-- The attributes printed inside the braces of an item (`attrs.inner()` in `syn`). -/
def innerToks (as : List Attr) : Toks := (as.filter (fun a => a.inner)).flatMap Attr.toks

/-- `impl ToTokens for Punctuated`, the punctuation being one character. -/
def sepToks (c : Char) (trailing : Bool) : List Toks → Toks
  | [] => []
  | [t] => t ++ (if trailing then [.punct c false] else [])
  | t :: ts => t ++ .punct c false :: sepToks c trailing ts

def Punctuated.toks {α} (f : α → Toks) (c : Char) (p : Punctuated α) : Toks := sepToks c p.trailing (p.items.map f)

def Field.toks (f : Field) : Toks :=
  outerToks f.attrs ++ f.vis ++ (match f.ident with | some i => i ++ [.punct ':' false] | none => []) ++ f.ty

/-- The fields of a struct with the where-clause and the final `;`, `impl ToTokens for ItemStruct`; in a variant
(`w` empty, no `;`) just the fields. -/
def Fields.toks (w : Toks) (semi : Toks) : Fields → Toks
  | .named fs => w ++ [.group .brace (fs.toks Field.toks ',')]
  | .unnamed fs => .group .paren (fs.toks Field.toks ',') :: w ++ semi
  | .unit => w ++ semi

def Variant.toks (v : Variant) : Toks :=
  outerToks v.attrs ++ v.ident ++ v.fields.toks [] [] ++
    (match v.discriminant with | some e => .punct '=' false :: e | none => [])

/-- The trait of an impl: `!`, path, `for`. -/
def implTraitToks : Option (Bool × Toks) → Toks
  | some (bang, p) => (if bang then [.punct '!' false] else []) ++ p ++ kw "for"
  | none => []

/-- The supertraits; the colon is printed when there are any. -/
def superToks (s : Punctuated Toks) : Toks := if s.items.isEmpty then [] else .punct ':' false :: s.toks id '+'

mutual
def Stmt.toks : Stmt → Toks
  | .item i => i.toks
  | .other ts => ts
def stmtsToks : List Stmt → Toks
  | [] => []
  | s :: ss => s.toks ++ stmtsToks ss
def Item.toks : Item → Toks
  | .fn attrs vis sig block => outerToks attrs ++ vis ++ sig ++ [.group .brace (innerToks attrs ++ stmtsToks block)]
  | .struct h vis ident fields =>
    outerToks h.attrs ++ vis ++ kw "struct" ++ ident ++ h.generics ++ fields.toks h.whereClause [.punct ';' false]
  | .enum h vis ident variants =>
    outerToks h.attrs ++ vis ++ kw "enum" ++ ident ++ h.generics ++ h.whereClause ++
      [.group .brace (variants.toks Variant.toks ',')]
  | .union h vis ident fields =>
    outerToks h.attrs ++ vis ++ kw "union" ++ ident ++ h.generics ++ h.whereClause ++
      [.group .brace (fields.toks Field.toks ',')]
  | .trait h vis u a ident supertraits items =>
    outerToks h.attrs ++ vis ++ kwIf u "unsafe" ++ kwIf a "auto" ++ kw "trait" ++ ident ++ h.generics ++
      superToks supertraits ++ h.whereClause ++ [.group .brace (innerToks h.attrs ++ traitItemsToks items)]
  | .impl h d u trait_ selfTy items =>
    outerToks h.attrs ++ kwIf d "default" ++ kwIf u "unsafe" ++ kw "impl" ++ h.generics ++ implTraitToks trait_ ++ selfTy ++
      h.whereClause ++ [.group .brace (innerToks h.attrs ++ implItemsToks items)]
  | .mod attrs vis u ident content =>
    outerToks attrs ++ vis ++ kwIf u "unsafe" ++ kw "mod" ++ ident ++
      (match content with
       | some items => [.group .brace (innerToks attrs ++ itemsToks items)]
       | none => [.punct ';' false])
  | .foreignMod attrs u abi items =>
    outerToks attrs ++ kwIf u "unsafe" ++ kw "extern" ++ abi.getD [] ++ [.group .brace (innerToks attrs ++ items.flatten)]
  | .other ts => ts
def itemsToks : List Item → Toks
  | [] => []
  | i :: is => i.toks ++ itemsToks is
def TraitItem.toks : TraitItem → Toks
  | .fn attrs sig default =>
    outerToks attrs ++ sig ++
      (match default with
       | some block => [.group .brace (innerToks attrs ++ stmtsToks block)]
       | none => [.punct ';' false])
  | .other ts => ts
def traitItemsToks : List TraitItem → Toks
  | [] => []
  | i :: is => i.toks ++ traitItemsToks is
def ImplItem.toks : ImplItem → Toks
  | .fn attrs vis d sig block =>
    outerToks attrs ++ vis ++ kwIf d "default" ++ sig ++ [.group .brace (innerToks attrs ++ stmtsToks block)]
  | .other ts => ts
def implItemsToks : List ImplItem → Toks
  | [] => []
  | i :: is => i.toks ++ implItemsToks is
end

/-- `OuterAttributes::parse`, `alias_substitution_visitor.rs:28-33` (`Attribute::parse_outer`, then the end of the input is
required): a sequence of `#[…]`. `ok` says whether the contents of the brackets are a `syn::Meta`. -/
def Attr.parseOuter (ok : Toks → Bool) : Toks → Option (List Attr)
  | [] => some []
  | .punct '#' _ :: .group .bracket body :: ts =>
    if ok body then (Attr.parseOuter ok ts).map (⟨false, body⟩ :: ·) else none
  | _ => none

/-- The parts of `syn`'s grammar that the model leaves open. Nothing is assumed about them except where a theorem has
an explicit hypothesis. -/
structure Grammar where
  /-- `syn::parse2::<N>` succeeds -/
  valid : NodeKind → Toks → Bool
  /-- the contents of the brackets of an attribute are well formed -/
  validMeta : Toks → Bool
  /-- the statements between the braces of a block; `none` if `syn::parse2::<Block>` fails -/
  parseBlock : Toks → Option (List Stmt)

/-- `syn::parse2::<Block>` succeeds. -/
def Grammar.validBlock (G : Grammar) : Toks → Bool
  | [.group .brace ts] => (G.parseBlock ts).isSome
  | _ => false

end Verif
