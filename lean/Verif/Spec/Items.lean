import Verif.Model.Items
/-!
# Pieces of a block

The pieces of code a block consists of, in the order of the text (with the keywords and the punctuation of the items
left out), and the block without the where-clauses of structs, enums, unions, traits and impls.
-/

namespace Verif.Spec
open Verif

/-- `q` disregards at most properties of single tokens, such as the spacing of punctuation (or nothing at all). -/
structure Coarse (q : Toks → Toks) : Prop where
  nil : q [] = []
  append : ∀ a b, q (a ++ b) = q a ++ q b
  group : ∀ d us ts, q (.group d us :: ts) = .group d (q us) :: q ts

/-- What a piece of code is to be: a node of some kind, a list of attributes, or a statement in braces. -/
inductive PartKind
  | node (k : NodeKind)
  | attrs
  | block
  deriving DecidableEq, Repr

/-- The piece is well-formed code of its kind. -/
def validPart (G : Grammar) : PartKind → Toks → Bool
  | .node k => G.valid k
  | .attrs => fun ts => (Attr.parseOuter G.validMeta ts).isSome
  | .block => G.validBlock

abbrev Parts := List (PartKind × Toks)

def optPart (k : NodeKind) : Option Toks → Parts
  | some ts => [(.node k, ts)]
  | none => []

def attrParts (as : List Attr) : Parts := [(.attrs, as.flatMap Attr.toks)]

def fieldParts (f : Field) : Parts :=
  attrParts f.attrs ++ [(.node .vis, f.vis)] ++ optPart .ident f.ident ++ [(.node .type, f.ty)]

def fieldsParts : Fields → Parts
  | .named fs => fs.items.flatMap fieldParts
  | .unnamed fs => fs.items.flatMap fieldParts
  | .unit => []

def variantParts (v : Variant) : Parts :=
  attrParts v.attrs ++ [(.node .ident, v.ident)] ++ fieldsParts v.fields ++ optPart .expr v.discriminant

/-- Attributes, visibility, name and generic parameters. -/
def headParts (h : Head) (vis ident : Toks) : Parts :=
  attrParts h.attrs ++ [(.node .vis, vis), (.node .ident, ident), (.node .generics, h.generics)]

mutual
def stmtParts : Stmt → Parts
  | .item i => itemParts i
  | .other ts => [(.block, [.group .brace ts])]
def stmtsParts : List Stmt → Parts
  | [] => []
  | s :: ss => stmtParts s ++ stmtsParts ss
def itemParts : Item → Parts
  | .fn attrs vis sig block => attrParts attrs ++ [(.node .vis, vis), (.node .sig, sig)] ++ stmtsParts block
  | .struct h vis ident fields => headParts h vis ident ++ fieldsParts fields
  | .enum h vis ident variants => headParts h vis ident ++ variants.items.flatMap variantParts
  | .union h vis ident fields => headParts h vis ident ++ fields.items.flatMap fieldParts
  | .trait h vis _ _ ident supertraits items =>
    headParts h vis ident ++ supertraits.items.map (PartKind.node .bound, ·) ++ traitItemsParts items
  | .impl h _ _ trait_ selfTy items =>
    attrParts h.attrs ++ [(.node .generics, h.generics)] ++ optPart .path (trait_.map (·.2)) ++ [(.node .type, selfTy)] ++
      implItemsParts items
  | .mod attrs vis _ ident content =>
    attrParts attrs ++ [(.node .vis, vis), (.node .ident, ident)] ++
      (match content with | some items => itemsParts items | none => [])
  | .foreignMod attrs _ abi items =>
    attrParts attrs ++ optPart .litStr abi ++ items.map (PartKind.node .foreignItem, ·)
  | .other ts => [(.node .item, ts)]
def itemsParts : List Item → Parts
  | [] => []
  | i :: is => itemParts i ++ itemsParts is
def traitItemParts : TraitItem → Parts
  | .fn attrs sig default =>
    attrParts attrs ++ [(.node .sig, sig)] ++ (match default with | some block => stmtsParts block | none => [])
  | .other ts => [(.node .traitItem, ts)]
def traitItemsParts : List TraitItem → Parts
  | [] => []
  | i :: is => traitItemParts i ++ traitItemsParts is
def implItemParts : ImplItem → Parts
  | .fn attrs vis _ sig block => attrParts attrs ++ [(.node .vis, vis), (.node .sig, sig)] ++ stmtsParts block
  | .other ts => [(.node .implItem, ts)]
def implItemsParts : List ImplItem → Parts
  | [] => []
  | i :: is => implItemParts i ++ implItemsParts is
end

/-- Without the where-clause. -/
def headNoWhere (h : Head) : Head := { h with whereClause := [] }

mutual
/-- The statement with the where-clauses of its structs, enums, unions, traits and impls deleted; those of functions
belong to their signatures and stay. -/
def stmtNoWhere : Stmt → Stmt
  | .item i => .item (itemNoWhere i)
  | .other ts => .other ts
def stmtsNoWhere : List Stmt → List Stmt
  | [] => []
  | s :: ss => stmtNoWhere s :: stmtsNoWhere ss
def itemNoWhere : Item → Item
  | .fn attrs vis sig block => .fn attrs vis sig (stmtsNoWhere block)
  | .struct h vis ident fields => .struct (headNoWhere h) vis ident fields
  | .enum h vis ident variants => .enum (headNoWhere h) vis ident variants
  | .union h vis ident fields => .union (headNoWhere h) vis ident fields
  | .trait h vis u a ident supertraits items =>
    .trait (headNoWhere h) vis u a ident supertraits (traitItemsNoWhere items)
  | .impl h d u trait_ selfTy items => .impl (headNoWhere h) d u trait_ selfTy (implItemsNoWhere items)
  | .mod attrs vis u ident content =>
    .mod attrs vis u ident (match content with | some items => some (itemsNoWhere items) | none => none)
  | .foreignMod attrs u abi items => .foreignMod attrs u abi items
  | .other ts => .other ts
def itemsNoWhere : List Item → List Item
  | [] => []
  | i :: is => itemNoWhere i :: itemsNoWhere is
def traitItemNoWhere : TraitItem → TraitItem
  | .fn attrs sig default =>
    .fn attrs sig (match default with | some block => some (stmtsNoWhere block) | none => none)
  | .other ts => .other ts
def traitItemsNoWhere : List TraitItem → List TraitItem
  | [] => []
  | i :: is => traitItemNoWhere i :: traitItemsNoWhere is
def implItemNoWhere : ImplItem → ImplItem
  | .fn attrs vis d sig block => .fn attrs vis d sig (stmtsNoWhere block)
  | .other ts => .other ts
def implItemsNoWhere : List ImplItem → List ImplItem
  | [] => []
  | i :: is => implItemNoWhere i :: implItemsNoWhere is
end

/-- The keywords of items that stand outside the pieces. -/
def itemKeywords : List Str :=
  ["struct", "enum", "union", "unsafe", "auto", "trait", "default", "impl", "for", "mod", "extern"].map S

end Verif.Spec
