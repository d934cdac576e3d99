import Verif.Model.SpanItems
import Verif.Spec.Items
import Verif.Spec.Spans
/-!
# Pieces of a block with spans

As `Spec/Items`, for trees with spans.
-/

namespace Verif.Spec
open Verif

variable {σ : Type}

/-- `q` disregards at most properties of single tokens, such as the spacing of punctuation (or nothing at all), but no spans of groups. -/
structure CoarseS (q : SToks σ → SToks σ) : Prop where
  nil : q [] = []
  append : ∀ a b, q (a ++ b) = q a ++ q b
  group : ∀ d us sp ts, q (.group d us sp :: ts) = .group d (q us) sp :: q ts

abbrev PartsS (σ : Type) := List (PartKind × SToks σ)

section
variable (P : SpanOps σ)

def optPartS (k : NodeKind) : Option (SToks σ) → PartsS σ
  | some ts => [(.node k, ts)]
  | none => []

def attrPartsS (as : List (SAttr σ)) : PartsS σ := [(.attrs, as.flatMap SAttr.toks)]

def fieldPartsS (f : SField σ) : PartsS σ :=
  attrPartsS f.attrs ++ [(.node .vis, f.vis)] ++ optPartS .ident f.ident ++ [(.node .type, f.ty)]

def fieldsPartsS : SFields σ → PartsS σ
  | .named fs _ => fs.items.flatMap fieldPartsS
  | .unnamed fs _ => fs.items.flatMap fieldPartsS
  | .unit => []

def variantPartsS (v : SVariant σ) : PartsS σ :=
  attrPartsS v.attrs ++ [(.node .ident, v.ident)] ++ fieldsPartsS v.fields ++ optPartS .expr v.discriminant

/-- Attributes, visibility, name and generic parameters. -/
def headPartsS (h : SHead σ) (vis ident : SToks σ) : PartsS σ :=
  attrPartsS h.attrs ++ [(.node .vis, vis), (.node .ident, ident), (.node .generics, h.generics)]

mutual
def stmtPartsS : SStmt σ → PartsS σ
  | .item i => itemPartsS i
  | .other ts => [(.block, [.group .brace ts P.callSite])]
def stmtsPartsS : List (SStmt σ) → PartsS σ
  | [] => []
  | s :: ss => stmtPartsS s ++ stmtsPartsS ss
def itemPartsS : SItem σ → PartsS σ
  | .fn _ attrs vis sig block => attrPartsS attrs ++ [(.node .vis, vis), (.node .sig, sig)] ++ stmtsPartsS block
  | .struct _ h vis ident fields => headPartsS h vis ident ++ fieldsPartsS fields
  | .enum _ h vis ident variants => headPartsS h vis ident ++ variants.items.flatMap variantPartsS
  | .union _ h vis ident fields => headPartsS h vis ident ++ fields.items.flatMap fieldPartsS
  | .trait _ h vis _ _ ident supertraits items =>
    headPartsS h vis ident ++ supertraits.items.map (PartKind.node .bound, ·) ++ traitItemsPartsS items
  | .impl _ h _ _ trait_ selfTy items =>
    attrPartsS h.attrs ++ [(.node .generics, h.generics)] ++ optPartS .path (trait_.map (·.2)) ++ [(.node .type, selfTy)] ++
      implItemsPartsS items
  | .mod _ attrs vis _ ident content =>
    attrPartsS attrs ++ [(.node .vis, vis), (.node .ident, ident)] ++
      (match content with | some items => itemsPartsS items | none => [])
  | .foreignMod _ attrs _ abi items =>
    attrPartsS attrs ++ optPartS .litStr abi ++ items.map (PartKind.node .foreignItem, ·)
  | .other ts => [(.node .item, ts)]
def itemsPartsS : List (SItem σ) → PartsS σ
  | [] => []
  | i :: is => itemPartsS i ++ itemsPartsS is
def traitItemPartsS : STraitItem σ → PartsS σ
  | .fn _ attrs sig default =>
    attrPartsS attrs ++ [(.node .sig, sig)] ++ (match default with | some block => stmtsPartsS block | none => [])
  | .other ts => [(.node .traitItem, ts)]
def traitItemsPartsS : List (STraitItem σ) → PartsS σ
  | [] => []
  | i :: is => traitItemPartsS i ++ traitItemsPartsS is
def implItemPartsS : SImplItem σ → PartsS σ
  | .fn _ attrs vis _ sig block => attrPartsS attrs ++ [(.node .vis, vis), (.node .sig, sig)] ++ stmtsPartsS block
  | .other ts => [(.node .implItem, ts)]
def implItemsPartsS : List (SImplItem σ) → PartsS σ
  | [] => []
  | i :: is => implItemPartsS i ++ implItemsPartsS is
end

end

/-- Without the where-clause. -/
def headNoWhereS (h : SHead σ) : SHead σ := { h with whereClause := [] }

mutual
/-- The statement with the where-clauses of its structs, enums, unions, traits and impls deleted; those of functions
belong to their signatures and stay. -/
def stmtNoWhereS : SStmt σ → SStmt σ
  | .item i => .item (itemNoWhereS i)
  | .other ts => .other ts
def stmtsNoWhereS : List (SStmt σ) → List (SStmt σ)
  | [] => []
  | s :: ss => stmtNoWhereS s :: stmtsNoWhereS ss
def itemNoWhereS : SItem σ → SItem σ
  | .fn sp attrs vis sig block => .fn sp attrs vis sig (stmtsNoWhereS block)
  | .struct sp h vis ident fields => .struct sp (headNoWhereS h) vis ident fields
  | .enum sp h vis ident variants => .enum sp (headNoWhereS h) vis ident variants
  | .union sp h vis ident fields => .union sp (headNoWhereS h) vis ident fields
  | .trait sp h vis u a ident supertraits items =>
    .trait sp (headNoWhereS h) vis u a ident supertraits (traitItemsNoWhereS items)
  | .impl sp h d u trait_ selfTy items => .impl sp (headNoWhereS h) d u trait_ selfTy (implItemsNoWhereS items)
  | .mod sp attrs vis u ident content =>
    .mod sp attrs vis u ident (match content with | some items => some (itemsNoWhereS items) | none => none)
  | .foreignMod sp attrs u abi items => .foreignMod sp attrs u abi items
  | .other ts => .other ts
def itemsNoWhereS : List (SItem σ) → List (SItem σ)
  | [] => []
  | i :: is => itemNoWhereS i :: itemsNoWhereS is
def traitItemNoWhereS : STraitItem σ → STraitItem σ
  | .fn sp attrs sig default =>
    .fn sp attrs sig (match default with | some block => some (stmtsNoWhereS block) | none => none)
  | .other ts => .other ts
def traitItemsNoWhereS : List (STraitItem σ) → List (STraitItem σ)
  | [] => []
  | i :: is => traitItemNoWhereS i :: traitItemsNoWhereS is
def implItemNoWhereS : SImplItem σ → SImplItem σ
  | .fn sp attrs vis d sig block => .fn sp attrs vis d sig (stmtsNoWhereS block)
  | .other ts => .other ts
def implItemsNoWhereS : List (SImplItem σ) → List (SImplItem σ)
  | [] => []
  | i :: is => implItemNoWhereS i :: implItemsNoWhereS is
end

end Verif.Spec
