import Verif.Model.Deprecation
import Verif.Model.SpanItems
/-!
# Deprecation warnings with spans (`src/util/deprecation.rs`)

The visitor of `Model/Deprecation` once more, for blocks with the span of every token. The functions here do what those of the same name without `S` do.
-/

namespace Verif

/-- A piece of the output block, see `Cst`, with spans. -/
inductive SCst (σ : Type)
  | toks (ts : SToks σ)
  | group (d : Delim) (cs : List (SCst σ)) (sp : σ)
  | node (attrs : List (SAttr σ)) (cs : List (SCst σ))

/-- Where items can be found inside the parts that the model does not take apart, see `Sites`. -/
abbrev SitesS (σ : Type) := Option NodeKind → SToks σ → List (SCst σ)

section
variable {σ : Type}

mutual
/-- The piece without spans. -/
def SCst.erase : SCst σ → Cst
  | .toks ts => .toks (STok.eraseL ts)
  | .group d cs _ => .group d (SCst.eraseL cs)
  | .node attrs cs => .node (attrs.map SAttr.erase) (SCst.eraseL cs)
def SCst.eraseL : List (SCst σ) → List Cst
  | [] => []
  | c :: cs => c.erase :: SCst.eraseL cs
end

mutual
/-- Printing (`ToTokens`), after the visit. -/
def SCst.print : SCst σ → SToks σ
  | .toks ts => ts
  | .group d cs sp => [.group d (cstsPrintS cs) sp]
  | .node attrs cs => outerToksS attrs ++ cstsPrintS cs
def cstsPrintS : List (SCst σ) → SToks σ
  | [] => []
  | c :: cs => c.print ++ cstsPrintS cs
end

section
variable (sites : SitesS σ)

/-- See `Field.cst`. -/
def SField.cst (f : SField σ) : SCst σ :=
  .node f.attrs (sites (some .vis) f.vis ++ (match f.ident with | some i => [.toks (i ++ [.punct ':' false f.colon])] | none => []) ++
    sites (some .type) f.ty)

/-- A punctuated list, as `sepToksS`. -/
def sepCstS (c : Char) (trailing : Bool) (seps : Nat → σ) : List (SCst σ) → List (SCst σ)
  | [] => []
  | [t] => t :: (if trailing then [.toks [.punct c false (seps 0)]] else [])
  | t :: ts => t :: .toks [.punct c false (seps 0)] :: sepCstS c trailing (fun n => seps (n + 1)) ts

def SPunctuated.cst {α} (f : α → SCst σ) (c : Char) (p : SPunctuated σ α) : List (SCst σ) := sepCstS c p.trailing p.seps (p.items.map f)

/-- See `Fields.cst`. -/
def SFields.cst (w semi : SToks σ) : SFields σ → List (SCst σ)
  | .named fs sp => [.toks w, .group .brace (fs.cst (SField.cst sites) ',') sp]
  | .unnamed fs sp => [.group .paren (fs.cst (SField.cst sites) ',') sp, .toks (w ++ semi)]
  | .unit => [.toks (w ++ semi)]

/-- See `Variant.cst`. -/
def SVariant.cst (v : SVariant σ) : SCst σ :=
  .node v.attrs (.toks v.ident :: v.fields.cst sites [] [] ++
    (match v.discriminant with | some e => .toks [.punct '=' false v.eq] :: sites (some .expr) e | none => []))

mutual
/-- The default methods of `syn::visit_mut`, as far as they lead to the methods overridden in deprecation.rs:77-142, see `Stmt.cst`. -/
def SStmt.cst : SStmt σ → List (SCst σ)
  | .item i => i.cst
  | .other ts => sites none ts
def stmtsCstS : List (SStmt σ) → List (SCst σ)
  | [] => []
  | s :: ss => s.cst ++ stmtsCstS ss
def SItem.cst : SItem σ → List (SCst σ)
  | .fn sp attrs vis sig block => [.node attrs (sites (some .vis) vis ++ sites (some .sig) sig ++
      [.group .brace (.toks (innerToksS attrs) :: stmtsCstS block) (sp 0)])]
  | .struct sp h vis ident fields => [.node h.attrs (sites (some .vis) vis ++ [.toks (kwS "struct" (sp 0) ++ ident)] ++
      sites (some .generics) h.generics ++ fields.cst sites h.whereClause [.punct ';' false (sp 1)])]
  | .enum sp h vis ident variants => [.node h.attrs (sites (some .vis) vis ++ [.toks (kwS "enum" (sp 0) ++ ident)] ++
      sites (some .generics) h.generics ++ [.toks h.whereClause, .group .brace (variants.cst (SVariant.cst sites) ',') (sp 1)])]
  | .union sp h vis ident fields => [.node h.attrs (sites (some .vis) vis ++ [.toks (kwS "union" (sp 0) ++ ident)] ++
      sites (some .generics) h.generics ++ [.toks h.whereClause, .group .brace (fields.cst (SField.cst sites) ',') (sp 1)])]
  | .trait sp h vis u a ident supertraits items => [.node h.attrs (sites (some .vis) vis ++
      [.toks (kwIfS u "unsafe" (sp 0) ++ kwIfS a "auto" (sp 1) ++ kwS "trait" (sp 2) ++ ident)] ++ sites (some .generics) h.generics ++
      [.toks (superToksS (sp 3) supertraits ++ h.whereClause), .group .brace (.toks (innerToksS h.attrs) :: traitItemsCstS items) (sp 4)])]
  | .impl sp h d u trait_ selfTy items => [.node h.attrs ([.toks (kwIfS d "default" (sp 0) ++ kwIfS u "unsafe" (sp 1) ++ kwS "impl" (sp 2))] ++
      sites (some .generics) h.generics ++ [.toks (implTraitToksS (sp 3) (sp 4) trait_)] ++ sites (some .type) selfTy ++
      [.toks h.whereClause, .group .brace (.toks (innerToksS h.attrs) :: implItemsCstS items) (sp 5)])]
  | .mod sp attrs vis u ident content => [.node attrs (sites (some .vis) vis ++
      [.toks (kwIfS u "unsafe" (sp 0) ++ kwS "mod" (sp 1) ++ ident)] ++
      (match content with
       | some items => [.group .brace (.toks (innerToksS attrs) :: itemsCstS items) (sp 2)]
       | none => [.toks [.punct ';' false (sp 2)]]))]
  | .foreignMod sp attrs u abi items => [.node attrs [.toks (kwIfS u "unsafe" (sp 0) ++ kwS "extern" (sp 1) ++ abi.getD []),
      .group .brace (.toks (innerToksS attrs) :: items.flatMap (sites (some .foreignItem))) (sp 2)]]
  | .other ts => sites (some .item) ts
def itemsCstS : List (SItem σ) → List (SCst σ)
  | [] => []
  | i :: is => i.cst ++ itemsCstS is
def STraitItem.cst : STraitItem σ → List (SCst σ)
  | .fn sp attrs sig default => [.node attrs (sites (some .sig) sig ++
      (match default with
       | some block => [.group .brace (.toks (innerToksS attrs) :: stmtsCstS block) (sp 0)]
       | none => [.toks [.punct ';' false (sp 0)]]))]
  | .other ts => sites (some .traitItem) ts
def traitItemsCstS : List (STraitItem σ) → List (SCst σ)
  | [] => []
  | i :: is => i.cst ++ traitItemsCstS is
def SImplItem.cst : SImplItem σ → List (SCst σ)
  | .fn sp attrs vis d sig block => .toks (outerToksS attrs) :: sites (some .vis) vis ++ [.toks (kwIfS d "default" (sp 0))] ++
      sites (some .sig) sig ++ [.group .brace (.toks (innerToksS attrs) :: stmtsCstS block) (sp 1)]
  | .other ts => sites (some .implItem) ts
def implItemsCstS : List (SImplItem σ) → List (SCst σ)
  | [] => []
  | i :: is => i.cst ++ implItemsCstS is
end
end

/-! ## The visitor -/

/-- `to_attribute`, deprecation.rs:37-45: `parse_quote!` gives all tokens, those of the two strings too, the span `sp = Span::call_site()`. -/
def Warning.toAttrS (repr : Str → Str) (sp : σ) (w : Warning) : SAttr σ := ⟨false, sp, sp, sp, Tok.atL sp (w.toAttr repr).body⟩

/-- `attr.path().is_ident("deprecated")`, line 67. -/
def SAttr.isDeprecated (a : SAttr σ) : Bool :=
  match a.body with
  | .ident _ _ :: .punct ':' _ _ :: _ => false
  | .ident s _ :: _ => s == S "deprecated"
  | _ => false

/-- `process_deprecations`, lines 62-74. -/
def processDeprecationsS (repr : Str → Str) (sp : σ) (pre : Str) (attrs : List (SAttr σ)) (ws : List Warning) : List (SAttr σ) × List Warning :=
  if ws.isEmpty then (attrs, ws)
  else if attrs.any SAttr.isDeprecated then (attrs, ws)
  else match ws.getLast? with
    | none => (attrs, ws)
    | some w => (attrs ++ [(w.withPrefix pre).toAttrS repr sp], ws.dropLast)

mutual
/-- The visit of a node, lines 78-141. -/
def SCst.visit (repr : Str → Str) (sp : σ) (pre : Str) : SCst σ → List Warning → SCst σ × List Warning
  | .toks ts, ws => (.toks ts, ws)
  | .group d cs sg, ws => let r := cstsVisitS repr sp pre cs ws; (.group d r.1 sg, r.2)
  | .node attrs cs, ws =>
    let a := processDeprecationsS repr sp pre attrs ws
    let r := cstsVisitS repr sp pre cs a.2
    (.node a.1 r.1, r.2)
def cstsVisitS (repr : Str → Str) (sp : σ) (pre : Str) : List (SCst σ) → List Warning → List (SCst σ) × List Warning
  | [], ws => ([], ws)
  | c :: cs, ws =>
    let r := c.visit repr sp pre ws
    let rs := cstsVisitS repr sp pre cs r.2
    (r.1 :: rs.1, rs.2)
end

/-- `emit`, lines 202-211. -/
def Service.emitS (repr : Str → Str) (P : SpanOps σ) (s : Service) (block : List (SCst σ)) : List (SCst σ) :=
  if s.warnings.isEmpty then block else (cstsVisitS repr P.callSite s.pre block s.warnings.reverse).1

end

end Verif
