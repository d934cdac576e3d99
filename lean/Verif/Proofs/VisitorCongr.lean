import Verif.Model.Visitor
/-! # The visitor looks at the alias map only through look-ups -/

set_option linter.unusedSectionVars false

namespace Verif

section
variable {E : Ext} {G : Grammar} {subs subs' : Subs} (h : ∀ n, subs.get n = subs'.get n)
include h

theorem substituteIdents_congr (valid : Toks → Bool) (node : Toks) :
    substituteIdents E valid subs node = substituteIdents E valid subs' node := by
  have : substVisitor E valid subs = substVisitor E valid subs' := by
    simp only [substVisitor, fmtStr, h]
  simp only [substituteIdents, this]

theorem visitNode_congr {α} (valid : Toks → Bool) (parse : Toks → Option α) (toks : Toks) (node : α) :
    visitNode E subs valid parse toks node = visitNode E subs' valid parse toks node := by
  simp only [visitNode, substituteIdents_congr h]

theorem visitMut_congr (k : NodeKind) : visitMut E G subs k = visitMut E G subs' k := by
  funext node
  simp only [visitMut, visitNode_congr h]

theorem visitAttrs_congr : visitAttrs E G subs = visitAttrs E G subs' := by
  funext attrs
  simp only [visitAttrs, visitNode_congr h]

theorem visitOpt_congr (k : NodeKind) : visitOpt E G subs k = visitOpt E G subs' k := by
  funext o
  cases o <;> simp only [visitOpt, visitMut_congr h]

theorem visitField_congr : visitField E G subs = visitField E G subs' := by
  funext f
  simp only [visitField, visitAttrs_congr h, visitMut_congr h, visitOpt_congr h]

theorem visitFields_congr : visitFields E G subs = visitFields E G subs' := by
  funext f
  simp only [visitFields, visitField_congr h]

theorem visitVariant_congr : visitVariant E G subs = visitVariant E G subs' := by
  funext v
  simp only [visitVariant, visitAttrs_congr h, visitMut_congr h, visitOpt_congr h, visitFields_congr h]

theorem visitGenerics_congr : visitGenerics E G subs = visitGenerics E G subs' := by
  funext x
  simp only [visitGenerics, substituteIdents_congr h]

theorem visitHead_congr : visitHead E G subs = visitHead E G subs' := by
  funext x vis ident
  simp only [visitHead, visitAttrs_congr h, visitMut_congr h, visitGenerics_congr h]

theorem visitImplTrait_congr : visitImplTrait E G subs = visitImplTrait E G subs' := by
  funext o
  cases o <;> simp only [visitImplTrait, visitMut_congr h]

theorem visitOther_congr : visitOther E G subs = visitOther E G subs' := by
  funext ts
  simp only [visitOther, visitNode_congr h]

mutual
theorem visitStmts_congr (ss : List Stmt) : visitStmts E G subs ss = visitStmts E G subs' ss := by
  match ss with
  | [] => simp only [visitStmts]
  | s :: ss => simp only [visitStmts, visitStmt_congr s, visitStmts_congr ss]
theorem visitStmt_congr (s : Stmt) : visitStmt E G subs s = visitStmt E G subs' s := by
  match s with
  | .item i => simp only [visitStmt, visitItem_congr i]
  | .other ts => simp only [visitStmt, visitOther_congr h]
theorem visitItem_congr (i : Item) : visitItem E G subs i = visitItem E G subs' i := by
  match i with
  | .fn attrs vis sig block => simp only [visitItem, visitAttrs_congr h, visitMut_congr h, visitStmts_congr block]
  | .struct .. => simp only [visitItem, visitHead_congr h, visitFields_congr h]
  | .enum .. => simp only [visitItem, visitHead_congr h, visitVariant_congr h]
  | .union .. => simp only [visitItem, visitHead_congr h, visitField_congr h]
  | .trait _ _ _ _ _ _ items => simp only [visitItem, visitHead_congr h, visitMut_congr h, visitTraitItems_congr items]
  | .impl _ _ _ _ _ items =>
    simp only [visitItem, visitAttrs_congr h, visitMut_congr h, visitGenerics_congr h, visitImplTrait_congr h,
      visitImplItems_congr items]
  | .mod _ _ _ _ none => simp only [visitItem, visitAttrs_congr h, visitMut_congr h]
  | .mod _ _ _ _ (some items) => simp only [visitItem, visitAttrs_congr h, visitMut_congr h, visitItems_congr items]
  | .foreignMod .. => simp only [visitItem, visitAttrs_congr h, visitMut_congr h, visitOpt_congr h]
  | .other ts => simp only [visitItem, visitMut_congr h]
theorem visitItems_congr (is : List Item) : visitItems E G subs is = visitItems E G subs' is := by
  match is with
  | [] => simp only [visitItems]
  | i :: is => simp only [visitItems, visitItem_congr i, visitItems_congr is]
theorem visitTraitItem_congr (i : TraitItem) : visitTraitItem E G subs i = visitTraitItem E G subs' i := by
  match i with
  | .fn _ _ none => simp only [visitTraitItem, visitAttrs_congr h, visitMut_congr h]
  | .fn _ _ (some block) => simp only [visitTraitItem, visitAttrs_congr h, visitMut_congr h, visitStmts_congr block]
  | .other ts => simp only [visitTraitItem, visitMut_congr h]
theorem visitTraitItems_congr (is : List TraitItem) : visitTraitItems E G subs is = visitTraitItems E G subs' is := by
  match is with
  | [] => simp only [visitTraitItems]
  | i :: is => simp only [visitTraitItems, visitTraitItem_congr i, visitTraitItems_congr is]
theorem visitImplItem_congr (i : ImplItem) : visitImplItem E G subs i = visitImplItem E G subs' i := by
  match i with
  | .fn _ _ _ _ block => simp only [visitImplItem, visitAttrs_congr h, visitMut_congr h, visitStmts_congr block]
  | .other ts => simp only [visitImplItem, visitMut_congr h]
theorem visitImplItems_congr (is : List ImplItem) : visitImplItems E G subs is = visitImplItems E G subs' is := by
  match is with
  | [] => simp only [visitImplItems]
  | i :: is => simp only [visitImplItems, visitImplItem_congr i, visitImplItems_congr is]
end

theorem visitBlock_congr (b : List Stmt) : visitBlock E G subs b = visitBlock E G subs' b := by
  simp only [visitBlock, visitStmts_congr h]
end

end Verif
