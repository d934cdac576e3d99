import Verif.Spec.SpanDeprecation
import Verif.Proofs.Deprecation
import Verif.Proofs.SpanBlocks
/-! # Lemmas about deprecation warnings with spans -/

namespace Verif
open Spec

variable {σ : Type}

set_option linter.unusedSimpArgs false

/-! ## Printing without spans -/

theorem outerToksS_erase (as : List (SAttr σ)) : STok.eraseL (outerToksS as) = outerToks (as.map SAttr.erase) := by
  rw [outerToksS, attrs_toks_erase, outerToks, List.filter_map]
  rfl

theorem innerToksS_erase (as : List (SAttr σ)) : STok.eraseL (innerToksS as) = innerToks (as.map SAttr.erase) := by
  rw [innerToksS, attrs_toks_erase, innerToks, List.filter_map]
  rfl

theorem kwS_erase (s : String) (sp : σ) : STok.eraseL (kwS s sp) = kw s := rfl

theorem kwIfS_erase (b : Bool) (s : String) (sp : σ) : STok.eraseL (kwIfS b s sp) = kwIf b s := by cases b <;> rfl

theorem sepToksS_erase (c : Char) (tr : Bool) (seps : Nat → σ) (ts : List (SToks σ)) :
    STok.eraseL (sepToksS c tr seps ts) = sepToks c tr (ts.map STok.eraseL) := by
  induction ts generalizing seps with
  | nil => rfl
  | cons a as ih =>
    cases as with
    | nil => cases tr <;> simp [sepToksS, sepToks, eraseL_append', STok.eraseL, STok.erase]
    | cons b bs =>
      simp only [sepToksS, List.map_cons, sepToks, eraseL_append', STok.eraseL, STok.erase]
      rw [ih]
      simp

theorem punct_toks_erase {α β : Type} (f : α → SToks σ) (g : β → Toks) (e : α → β) (h : ∀ a, STok.eraseL (f a) = g (e a)) (c : Char)
    (p : SPunctuated σ α) : STok.eraseL (p.toks f c) = (p.erase e).toks g c := by
  simp only [SPunctuated.toks, Punctuated.toks, SPunctuated.erase, sepToksS_erase, List.map_map]
  congr 1
  exact List.map_congr_left fun a _ => h a

theorem field_toks_erase (f : SField σ) : STok.eraseL f.toks = f.erase.toks := by
  cases h : f.ident <;> simp [SField.toks, SField.erase, Field.toks, eraseL_append', outerToksS_erase, h, STok.eraseL, STok.erase]

theorem fields_toks_erase (w semi : SToks σ) (f : SFields σ) :
    STok.eraseL (f.toks w semi) = f.erase.toks (STok.eraseL w) (STok.eraseL semi) := by
  cases f <;> simp [SFields.toks, SFields.erase, Fields.toks, eraseL_append', STok.eraseL, STok.erase,
    punct_toks_erase SField.toks Field.toks SField.erase field_toks_erase]

theorem variant_toks_erase (v : SVariant σ) : STok.eraseL v.toks = v.erase.toks := by
  cases h : v.discriminant <;>
    simp [SVariant.toks, SVariant.erase, Variant.toks, eraseL_append', outerToksS_erase, fields_toks_erase, h, STok.eraseL, STok.erase]

theorem implTraitToksS_erase (b f : σ) (t : Option (Bool × SToks σ)) :
    STok.eraseL (implTraitToksS b f t) = implTraitToks (t.map fun p => (p.1, STok.eraseL p.2)) := by
  cases t with
  | none => rfl
  | some p => obtain ⟨n, p⟩ := p; cases n <;> simp [implTraitToksS, implTraitToks, eraseL_append', kwS_erase, STok.eraseL, STok.erase]

theorem superToksS_erase (c : σ) (s : SPunctuated σ (SToks σ)) : STok.eraseL (superToksS c s) = superToks (s.erase STok.eraseL) := by
  have h := punct_toks_erase (id : SToks σ → SToks σ) id STok.eraseL (fun _ => rfl) '+' s
  cases hs : s.items with
  | nil => simp [superToksS, superToks, SPunctuated.erase, hs, STok.eraseL]
  | cons a as =>
    simp only [superToksS, superToks, hs, SPunctuated.erase, List.isEmpty_cons, List.map_cons, Bool.false_eq_true, if_false,
      STok.eraseL, STok.erase]
    rw [h]
    simp [SPunctuated.erase, hs]

theorem flatten_toks_erase (ts : List (SToks σ)) : STok.eraseL ts.flatten = (ts.map STok.eraseL).flatten := by
  induction ts with
  | nil => rfl
  | cons t ts ih => simp [eraseL_append', ih]

theorem getD_toks_erase (o : Option (SToks σ)) : STok.eraseL (o.getD []) = (o.map STok.eraseL).getD [] := by cases o <;> rfl

mutual
theorem stmt_toks_erase (s : SStmt σ) : STok.eraseL s.toks = s.erase.toks := by
  match s with
  | .item i => simpa [SStmt.toks, SStmt.erase, Stmt.toks] using item_toks_erase i
  | .other ts => simp [SStmt.toks, SStmt.erase, Stmt.toks]
theorem stmts_toks_erase (ss : List (SStmt σ)) : STok.eraseL (stmtsToksS ss) = stmtsToks (SStmt.eraseL ss) := by
  match ss with
  | [] => simp [stmtsToksS, stmtsToks, SStmt.eraseL, STok.eraseL]
  | s :: ss => simp [stmtsToksS, stmtsToks, SStmt.eraseL, eraseL_append', stmt_toks_erase s, stmts_toks_erase ss]
theorem item_toks_erase (i : SItem σ) : STok.eraseL i.toks = i.erase.toks := by
  match i with
  | .fn sp attrs vis sig block =>
    simp [SItem.toks, SItem.erase, Item.toks, eraseL_append', outerToksS_erase, innerToksS_erase, STok.eraseL, STok.erase, stmts_toks_erase block]
  | .struct sp h vis ident fields =>
    simp [SItem.toks, SItem.erase, SHead.erase, Item.toks, eraseL_append', outerToksS_erase, kwS_erase, STok.eraseL, STok.erase, fields_toks_erase]
  | .enum sp h vis ident variants =>
    simp [SItem.toks, SItem.erase, SHead.erase, Item.toks, eraseL_append', outerToksS_erase, kwS_erase, STok.eraseL, STok.erase,
      punct_toks_erase SVariant.toks Variant.toks SVariant.erase variant_toks_erase]
  | .union sp h vis ident fields =>
    simp [SItem.toks, SItem.erase, SHead.erase, Item.toks, eraseL_append', outerToksS_erase, kwS_erase, STok.eraseL, STok.erase,
      punct_toks_erase SField.toks Field.toks SField.erase field_toks_erase]
  | .trait sp h vis u a ident supertraits items =>
    simp [SItem.toks, SItem.erase, SHead.erase, Item.toks, eraseL_append', outerToksS_erase, innerToksS_erase, kwS_erase, kwIfS_erase, STok.eraseL, STok.erase,
      superToksS_erase, traitItems_toks_erase items]
  | .impl sp h d u trait_ selfTy items =>
    simp [SItem.toks, SItem.erase, SHead.erase, Item.toks, eraseL_append', outerToksS_erase, innerToksS_erase, kwS_erase, kwIfS_erase, STok.eraseL, STok.erase,
      implTraitToksS_erase, implItems_toks_erase items]
  | .mod sp attrs vis u ident none =>
    simp [SItem.toks, SItem.erase, Item.toks, eraseL_append', outerToksS_erase, kwS_erase, kwIfS_erase, STok.eraseL, STok.erase]
  | .mod sp attrs vis u ident (some items) =>
    simp [SItem.toks, SItem.erase, Item.toks, eraseL_append', outerToksS_erase, innerToksS_erase, kwS_erase, kwIfS_erase, STok.eraseL, STok.erase,
      items_toks_erase items]
  | .foreignMod sp attrs u abi items =>
    simp [SItem.toks, SItem.erase, Item.toks, eraseL_append', outerToksS_erase, innerToksS_erase, kwS_erase, kwIfS_erase, STok.eraseL, STok.erase,
      flatten_toks_erase, getD_toks_erase]
  | .other ts => simp [SItem.toks, SItem.erase, Item.toks]
theorem items_toks_erase (is : List (SItem σ)) : STok.eraseL (itemsToksS is) = itemsToks (SItem.eraseL is) := by
  match is with
  | [] => simp [itemsToksS, itemsToks, SItem.eraseL, STok.eraseL]
  | i :: is => simp [itemsToksS, itemsToks, SItem.eraseL, eraseL_append', item_toks_erase i, items_toks_erase is]
theorem traitItem_toks_erase (i : STraitItem σ) : STok.eraseL i.toks = i.erase.toks := by
  match i with
  | .fn sp attrs sig none => simp [STraitItem.toks, STraitItem.erase, TraitItem.toks, eraseL_append', outerToksS_erase, STok.eraseL, STok.erase]
  | .fn sp attrs sig (some block) =>
    simp [STraitItem.toks, STraitItem.erase, TraitItem.toks, eraseL_append', outerToksS_erase, innerToksS_erase, STok.eraseL, STok.erase, stmts_toks_erase block]
  | .other ts => simp [STraitItem.toks, STraitItem.erase, TraitItem.toks]
theorem traitItems_toks_erase (is : List (STraitItem σ)) : STok.eraseL (traitItemsToksS is) = traitItemsToks (STraitItem.eraseL is) := by
  match is with
  | [] => simp [traitItemsToksS, traitItemsToks, STraitItem.eraseL, STok.eraseL]
  | i :: is => simp [traitItemsToksS, traitItemsToks, STraitItem.eraseL, eraseL_append', traitItem_toks_erase i, traitItems_toks_erase is]
theorem implItem_toks_erase (i : SImplItem σ) : STok.eraseL i.toks = i.erase.toks := by
  match i with
  | .fn sp attrs vis d sig block =>
    simp [SImplItem.toks, SImplItem.erase, ImplItem.toks, eraseL_append', outerToksS_erase, innerToksS_erase, kwIfS_erase, STok.eraseL, STok.erase,
      stmts_toks_erase block]
  | .other ts => simp [SImplItem.toks, SImplItem.erase, ImplItem.toks]
theorem implItems_toks_erase (is : List (SImplItem σ)) : STok.eraseL (implItemsToksS is) = implItemsToks (SImplItem.eraseL is) := by
  match is with
  | [] => simp [implItemsToksS, implItemsToks, SImplItem.eraseL, STok.eraseL]
  | i :: is => simp [implItemsToksS, implItemsToks, SImplItem.eraseL, eraseL_append', implItem_toks_erase i, implItems_toks_erase is]
end

/-! ## Pieces without spans -/

theorem csts_eraseL_append (as bs : List (SCst σ)) : SCst.eraseL (as ++ bs) = SCst.eraseL as ++ SCst.eraseL bs := by
  induction as with
  | nil => rfl
  | cons a as ih => simp [SCst.eraseL, ih]

section
variable {sites : SitesS σ} {sites' : Sites} (hs : SameSites sites sites')
include hs

theorem field_cst_erase (f : SField σ) : (f.cst sites).erase = f.erase.cst sites' := by
  cases h : f.ident <;>
    simp [SField.cst, SField.erase, Field.cst, SCst.erase, SCst.eraseL, csts_eraseL_append, hs _ _, h, eraseL_append', STok.eraseL, STok.erase]

omit hs in
theorem sepCstS_erase (c : Char) (tr : Bool) (seps : Nat → σ) (cs : List (SCst σ)) :
    SCst.eraseL (sepCstS c tr seps cs) = sepCst c tr (cs.map SCst.erase) := by
  induction cs generalizing seps with
  | nil => rfl
  | cons a as ih =>
    cases as with
    | nil => cases tr <;> simp [sepCstS, sepCst, SCst.eraseL, SCst.erase, STok.eraseL, STok.erase]
    | cons b bs =>
      simp only [sepCstS, List.map_cons, sepCst, SCst.eraseL, SCst.erase, STok.eraseL, STok.erase]
      rw [ih]
      simp

omit hs in
theorem punct_cst_erase {α β : Type} (f : α → SCst σ) (g : β → Cst) (e : α → β) (h : ∀ a, (f a).erase = g (e a)) (c : Char)
    (p : SPunctuated σ α) : SCst.eraseL (p.cst f c) = (p.erase e).cst g c := by
  simp only [SPunctuated.cst, Punctuated.cst, SPunctuated.erase, sepCstS_erase, List.map_map]
  congr 1
  exact List.map_congr_left fun a _ => h a

theorem fields_cst_erase (w semi : SToks σ) (f : SFields σ) :
    SCst.eraseL (f.cst sites w semi) = f.erase.cst sites' (STok.eraseL w) (STok.eraseL semi) := by
  cases f <;> simp [SFields.cst, SFields.erase, Fields.cst, SCst.eraseL, SCst.erase, eraseL_append',
    punct_cst_erase (SField.cst sites) (Field.cst sites') SField.erase (field_cst_erase hs)]

theorem variant_cst_erase (v : SVariant σ) : (v.cst sites).erase = v.erase.cst sites' := by
  cases h : v.discriminant <;>
    simp [SVariant.cst, SVariant.erase, Variant.cst, SCst.erase, SCst.eraseL, csts_eraseL_append, hs _ _, h, fields_cst_erase hs, STok.eraseL, STok.erase]

theorem flatMap_sites_erase (k) (is : List (SToks σ)) : SCst.eraseL (is.flatMap (sites k)) = (is.map STok.eraseL).flatMap (sites' k) := by
  induction is with
  | nil => rfl
  | cons i is ih => simp [csts_eraseL_append, hs _ _, ih]

set_option linter.unusedSectionVars false

mutual
theorem stmt_cst_erase (s : SStmt σ) : SCst.eraseL (s.cst sites) = s.erase.cst sites' := by
  match s with
  | .item i => simpa [SStmt.cst, SStmt.erase, Stmt.cst] using item_cst_erase i
  | .other ts => simp [SStmt.cst, SStmt.erase, Stmt.cst, hs _ _]
theorem stmts_cst_erase (ss : List (SStmt σ)) : SCst.eraseL (stmtsCstS sites ss) = stmtsCst sites' (SStmt.eraseL ss) := by
  match ss with
  | [] => simp [stmtsCstS, stmtsCst, SStmt.eraseL, SCst.eraseL]
  | s :: ss => simp [stmtsCstS, stmtsCst, SStmt.eraseL, csts_eraseL_append, stmt_cst_erase s, stmts_cst_erase ss]
theorem item_cst_erase (i : SItem σ) : SCst.eraseL (i.cst sites) = i.erase.cst sites' := by
  match i with
  | .fn sp attrs vis sig block =>
    simp [SItem.cst, SItem.erase, Item.cst, SCst.eraseL, SCst.erase, csts_eraseL_append, hs _ _, innerToksS_erase, stmts_cst_erase block]
  | .struct sp h vis ident fields =>
    simp [SItem.cst, SItem.erase, SHead.erase, Item.cst, SCst.eraseL, SCst.erase, csts_eraseL_append, eraseL_append', hs _ _, kwS_erase,
      fields_cst_erase hs, STok.eraseL, STok.erase]
  | .enum sp h vis ident variants =>
    simp [SItem.cst, SItem.erase, SHead.erase, Item.cst, SCst.eraseL, SCst.erase, csts_eraseL_append, eraseL_append', hs _ _, kwS_erase,
      punct_cst_erase (SVariant.cst sites) (Variant.cst sites') SVariant.erase (variant_cst_erase hs)]
  | .union sp h vis ident fields =>
    simp [SItem.cst, SItem.erase, SHead.erase, Item.cst, SCst.eraseL, SCst.erase, csts_eraseL_append, eraseL_append', hs _ _, kwS_erase,
      punct_cst_erase (SField.cst sites) (Field.cst sites') SField.erase (field_cst_erase hs)]
  | .trait sp h vis u a ident supertraits items =>
    simp [SItem.cst, SItem.erase, SHead.erase, Item.cst, SCst.eraseL, SCst.erase, csts_eraseL_append, eraseL_append', hs _ _, kwS_erase, kwIfS_erase,
      superToksS_erase, innerToksS_erase, traitItems_cst_erase items]
  | .impl sp h d u trait_ selfTy items =>
    simp [SItem.cst, SItem.erase, SHead.erase, Item.cst, SCst.eraseL, SCst.erase, csts_eraseL_append, eraseL_append', hs _ _, kwS_erase, kwIfS_erase,
      implTraitToksS_erase, innerToksS_erase, implItems_cst_erase items]
  | .mod sp attrs vis u ident none =>
    simp [SItem.cst, SItem.erase, Item.cst, SCst.eraseL, SCst.erase, csts_eraseL_append, eraseL_append', hs _ _, kwS_erase, kwIfS_erase, STok.eraseL, STok.erase]
  | .mod sp attrs vis u ident (some items) =>
    simp [SItem.cst, SItem.erase, Item.cst, SCst.eraseL, SCst.erase, csts_eraseL_append, eraseL_append', hs _ _, kwS_erase, kwIfS_erase,
      innerToksS_erase, items_cst_erase items]
  | .foreignMod sp attrs u abi items =>
    simp [SItem.cst, SItem.erase, Item.cst, SCst.eraseL, SCst.erase, eraseL_append', kwS_erase, kwIfS_erase,
      innerToksS_erase, getD_toks_erase, flatMap_sites_erase hs]
  | .other ts => simp [SItem.cst, SItem.erase, Item.cst, hs _ _]
theorem items_cst_erase (is : List (SItem σ)) : SCst.eraseL (itemsCstS sites is) = itemsCst sites' (SItem.eraseL is) := by
  match is with
  | [] => simp [itemsCstS, itemsCst, SItem.eraseL, SCst.eraseL]
  | i :: is => simp [itemsCstS, itemsCst, SItem.eraseL, csts_eraseL_append, item_cst_erase i, items_cst_erase is]
theorem traitItem_cst_erase (i : STraitItem σ) : SCst.eraseL (i.cst sites) = i.erase.cst sites' := by
  match i with
  | .fn sp attrs sig none =>
    simp [STraitItem.cst, STraitItem.erase, TraitItem.cst, SCst.eraseL, SCst.erase, csts_eraseL_append, hs _ _, STok.eraseL, STok.erase]
  | .fn sp attrs sig (some block) =>
    simp [STraitItem.cst, STraitItem.erase, TraitItem.cst, SCst.eraseL, SCst.erase, csts_eraseL_append, hs _ _, innerToksS_erase, stmts_cst_erase block]
  | .other ts => simp [STraitItem.cst, STraitItem.erase, TraitItem.cst, hs _ _]
theorem traitItems_cst_erase (is : List (STraitItem σ)) : SCst.eraseL (traitItemsCstS sites is) = traitItemsCst sites' (STraitItem.eraseL is) := by
  match is with
  | [] => simp [traitItemsCstS, traitItemsCst, STraitItem.eraseL, SCst.eraseL]
  | i :: is => simp [traitItemsCstS, traitItemsCst, STraitItem.eraseL, csts_eraseL_append, traitItem_cst_erase i, traitItems_cst_erase is]
theorem implItem_cst_erase (i : SImplItem σ) : SCst.eraseL (i.cst sites) = i.erase.cst sites' := by
  match i with
  | .fn sp attrs vis d sig block =>
    simp [SImplItem.cst, SImplItem.erase, ImplItem.cst, SCst.eraseL, SCst.erase, csts_eraseL_append, hs _ _, outerToksS_erase, innerToksS_erase,
      kwIfS_erase, stmts_cst_erase block]
  | .other ts => simp [SImplItem.cst, SImplItem.erase, ImplItem.cst, hs _ _]
theorem implItems_cst_erase (is : List (SImplItem σ)) : SCst.eraseL (implItemsCstS sites is) = implItemsCst sites' (SImplItem.eraseL is) := by
  match is with
  | [] => simp [implItemsCstS, implItemsCst, SImplItem.eraseL, SCst.eraseL]
  | i :: is => simp [implItemsCstS, implItemsCst, SImplItem.eraseL, csts_eraseL_append, implItem_cst_erase i, implItems_cst_erase is]
end
end

/-! ## Printing loses nothing -/

theorem cstsPrintS_append (as bs : List (SCst σ)) : cstsPrintS (as ++ bs) = cstsPrintS as ++ cstsPrintS bs := by
  induction as with
  | nil => rfl
  | cons a as ih => simp [cstsPrintS, ih]

mutual
theorem cst_print_erase (c : SCst σ) : STok.eraseL c.print = c.erase.print := by
  match c with
  | .toks ts => simp [SCst.print, SCst.erase, Cst.print]
  | .group d cs sp => simp [SCst.print, SCst.erase, Cst.print, STok.eraseL, STok.erase, csts_print_erase cs]
  | .node as cs => simp [SCst.print, SCst.erase, Cst.print, eraseL_append', outerToksS_erase, csts_print_erase cs]
theorem csts_print_erase (cs : List (SCst σ)) : STok.eraseL (cstsPrintS cs) = cstsPrint (SCst.eraseL cs) := by
  match cs with
  | [] => simp [cstsPrintS, cstsPrint, SCst.eraseL, STok.eraseL]
  | c :: cs => simp [cstsPrintS, cstsPrint, SCst.eraseL, eraseL_append', cst_print_erase c, csts_print_erase cs]
end

section
variable {sites : SitesS σ} (hl : ∀ k ts, cstsPrintS (sites k ts) = ts)
include hl

theorem field_cstS (f : SField σ) : (f.cst sites).print = f.toks := by
  cases h : f.ident <;> simp [SField.cst, SField.toks, SCst.print, cstsPrintS_append, hl _ _, h, cstsPrintS]

omit hl in
theorem sepCstS_print (c : Char) (tr : Bool) (seps : Nat → σ) (cs : List (SCst σ)) :
    cstsPrintS (sepCstS c tr seps cs) = sepToksS c tr seps (cs.map SCst.print) := by
  induction cs generalizing seps with
  | nil => rfl
  | cons a as ih =>
    cases as with
    | nil => cases tr <;> simp [sepCstS, sepToksS, cstsPrintS, SCst.print]
    | cons b bs =>
      simp only [sepCstS, List.map_cons, cstsPrintS, sepToksS, SCst.print]
      rw [ih]
      simp

omit hl in
theorem punct_cstS {α} (f : α → SCst σ) (g : α → SToks σ) (h : ∀ a, (f a).print = g a) (c : Char) (p : SPunctuated σ α) :
    cstsPrintS (p.cst f c) = p.toks g c := by
  simp only [SPunctuated.cst, SPunctuated.toks, sepCstS_print, List.map_map]
  congr 1
  exact List.map_congr_left fun a _ => h a

theorem fields_cstS (w semi : SToks σ) (f : SFields σ) : cstsPrintS (f.cst sites w semi) = f.toks w semi := by
  cases f <;> simp [SFields.cst, SFields.toks, cstsPrintS, SCst.print, punct_cstS _ _ (field_cstS hl)]

theorem variant_cstS (v : SVariant σ) : (v.cst sites).print = v.toks := by
  cases h : v.discriminant <;>
    simp [SVariant.cst, SVariant.toks, SCst.print, cstsPrintS_append, hl _ _, h, cstsPrintS, fields_cstS hl]

theorem flatMap_sitesS (k) (is : List (SToks σ)) : cstsPrintS (is.flatMap (sites k)) = is.flatten := by
  induction is with
  | nil => rfl
  | cons i is ih => simp [cstsPrintS_append, hl _ _, ih]

set_option linter.unusedSectionVars false

mutual
theorem stmt_cstS (s : SStmt σ) : cstsPrintS (s.cst sites) = s.toks := by
  match s with
  | .item i => simpa [SStmt.cst, SStmt.toks] using item_cstS i
  | .other ts => simp [SStmt.cst, SStmt.toks, hl _ _]
theorem stmts_cstS (ss : List (SStmt σ)) : cstsPrintS (stmtsCstS sites ss) = stmtsToksS ss := by
  match ss with
  | [] => simp [stmtsCstS, stmtsToksS, cstsPrintS]
  | s :: ss => simp [stmtsCstS, stmtsToksS, cstsPrintS_append, stmt_cstS s, stmts_cstS ss]
theorem item_cstS (i : SItem σ) : cstsPrintS (i.cst sites) = i.toks := by
  match i with
  | .fn sp attrs vis sig block =>
    simp [SItem.cst, SItem.toks, cstsPrintS, SCst.print, cstsPrintS_append, hl _ _, stmts_cstS block]
  | .struct sp h vis ident fields =>
    simp [SItem.cst, SItem.toks, cstsPrintS, SCst.print, cstsPrintS_append, hl _ _, fields_cstS hl]
  | .enum sp h vis ident variants =>
    simp [SItem.cst, SItem.toks, cstsPrintS, SCst.print, cstsPrintS_append, hl _ _, punct_cstS _ _ (variant_cstS hl)]
  | .union sp h vis ident fields =>
    simp [SItem.cst, SItem.toks, cstsPrintS, SCst.print, cstsPrintS_append, hl _ _, punct_cstS _ _ (field_cstS hl)]
  | .trait sp h vis u a ident supertraits items =>
    simp [SItem.cst, SItem.toks, cstsPrintS, SCst.print, cstsPrintS_append, hl _ _, traitItems_cstS items]
  | .impl sp h d u trait_ selfTy items =>
    simp [SItem.cst, SItem.toks, cstsPrintS, SCst.print, cstsPrintS_append, hl _ _, implItems_cstS items]
  | .mod sp attrs vis u ident none => simp [SItem.cst, SItem.toks, cstsPrintS, SCst.print, cstsPrintS_append, hl _ _]
  | .mod sp attrs vis u ident (some items) =>
    simp [SItem.cst, SItem.toks, cstsPrintS, SCst.print, cstsPrintS_append, hl _ _, items_cstS items]
  | .foreignMod sp attrs u abi items =>
    simp [SItem.cst, SItem.toks, cstsPrintS, SCst.print, flatMap_sitesS hl]
  | .other ts => simp [SItem.cst, SItem.toks, hl _ _]
theorem items_cstS (is : List (SItem σ)) : cstsPrintS (itemsCstS sites is) = itemsToksS is := by
  match is with
  | [] => simp [itemsCstS, itemsToksS, cstsPrintS]
  | i :: is => simp [itemsCstS, itemsToksS, cstsPrintS_append, item_cstS i, items_cstS is]
theorem traitItem_cstS (i : STraitItem σ) : cstsPrintS (i.cst sites) = i.toks := by
  match i with
  | .fn sp attrs sig none => simp [STraitItem.cst, STraitItem.toks, cstsPrintS, SCst.print, cstsPrintS_append, hl _ _]
  | .fn sp attrs sig (some block) =>
    simp [STraitItem.cst, STraitItem.toks, cstsPrintS, SCst.print, cstsPrintS_append, hl _ _, stmts_cstS block]
  | .other ts => simp [STraitItem.cst, STraitItem.toks, hl _ _]
theorem traitItems_cstS (is : List (STraitItem σ)) : cstsPrintS (traitItemsCstS sites is) = traitItemsToksS is := by
  match is with
  | [] => simp [traitItemsCstS, traitItemsToksS, cstsPrintS]
  | i :: is => simp [traitItemsCstS, traitItemsToksS, cstsPrintS_append, traitItem_cstS i, traitItems_cstS is]
theorem implItem_cstS (i : SImplItem σ) : cstsPrintS (i.cst sites) = i.toks := by
  match i with
  | .fn sp attrs vis d sig block =>
    simp [SImplItem.cst, SImplItem.toks, cstsPrintS, SCst.print, cstsPrintS_append, hl _ _, stmts_cstS block]
  | .other ts => simp [SImplItem.cst, SImplItem.toks, hl _ _]
theorem implItems_cstS (is : List (SImplItem σ)) : cstsPrintS (implItemsCstS sites is) = implItemsToksS is := by
  match is with
  | [] => simp [implItemsCstS, implItemsToksS, cstsPrintS]
  | i :: is => simp [implItemsCstS, implItemsToksS, cstsPrintS_append, implItem_cstS i, implItems_cstS is]
end
end

/-! ## The visit -/

mutual
theorem at_erase (sp : σ) (t : Tok) : (t.at_ sp).erase = t := by
  match t with
  | .ident s => rfl
  | .punct c j => rfl
  | .lit l => rfl
  | .group d ts => simp [Tok.at_, STok.erase, atL_erase sp ts]
theorem atL_erase (sp : σ) (ts : Toks) : STok.eraseL (Tok.atL sp ts) = ts := by
  match ts with
  | [] => rfl
  | t :: ts => simp [Tok.atL, STok.eraseL, at_erase sp t, atL_erase sp ts]
end

theorem toAttrS_erase (repr : Str → Str) (sp : σ) (w : Warning) : (w.toAttrS repr sp).erase = w.toAttr repr := by
  simp [Warning.toAttrS, SAttr.erase, atL_erase, Warning.toAttr]

theorem isDeprecated_erase (a : SAttr σ) : a.erase.isDeprecated = a.isDeprecated := by
  obtain ⟨inner, h, b, k, body⟩ := a
  unfold SAttr.isDeprecated Attr.isDeprecated SAttr.erase
  match body with
  | [] => rfl
  | .punct .. :: _ => rfl
  | .lit .. :: _ => rfl
  | .group .. :: _ => rfl
  | [.ident ..] => rfl
  | .ident .. :: .ident .. :: _ => rfl
  | .ident .. :: .lit .. :: _ => rfl
  | .ident .. :: .group .. :: _ => rfl
  | .ident .. :: .punct c .. :: _ =>
    simp only [STok.eraseL, STok.erase]
    by_cases hc : c = ':'
    · subst hc; rfl
    · split <;> split <;> simp_all

theorem any_isDeprecated_erase (as : List (SAttr σ)) : (as.map SAttr.erase).any Attr.isDeprecated = as.any SAttr.isDeprecated := by
  rw [List.any_map]
  congr 1
  exact funext isDeprecated_erase

theorem process_erase (repr : Str → Str) (sp : σ) (pre : Str) (as : List (SAttr σ)) (ws : List Warning) :
    processDeprecations repr pre (as.map SAttr.erase) ws =
      ((processDeprecationsS repr sp pre as ws).1.map SAttr.erase, (processDeprecationsS repr sp pre as ws).2) := by
  unfold processDeprecations processDeprecationsS
  rw [any_isDeprecated_erase]
  split
  · rfl
  · split
    · rfl
    · cases ws.getLast? <;> simp [toAttrS_erase]

mutual
theorem visit_erase (repr : Str → Str) (sp : σ) (pre : Str) (c : SCst σ) (ws : List Warning) :
    c.erase.visit repr pre ws = ((c.visit repr sp pre ws).1.erase, (c.visit repr sp pre ws).2) := by
  match c with
  | .toks ts => simp [SCst.visit, SCst.erase, Cst.visit]
  | .group d cs sg => simp [SCst.visit, SCst.erase, Cst.visit, visits_erase repr sp pre cs ws]
  | .node as cs => simp [SCst.visit, SCst.erase, Cst.visit, process_erase repr sp, visits_erase repr sp pre cs]
theorem visits_erase (repr : Str → Str) (sp : σ) (pre : Str) (cs : List (SCst σ)) (ws : List Warning) :
    cstsVisit repr pre (SCst.eraseL cs) ws = (SCst.eraseL (cstsVisitS repr sp pre cs ws).1, (cstsVisitS repr sp pre cs ws).2) := by
  match cs with
  | [] => simp [cstsVisitS, cstsVisit, SCst.eraseL]
  | c :: cs => simp [cstsVisitS, cstsVisit, SCst.eraseL, visit_erase repr sp pre c, visits_erase repr sp pre cs]
end

theorem Spec.InsertsS.refl (a : SToks σ) : InsertsS [] a a := by
  induction a with
  | nil => exact .nil
  | cons t ts ih => exact .keep t ih

theorem Spec.InsertsS.append {xs ys : List (SToks σ)} {a b c d : SToks σ} (h : InsertsS xs a b) (h' : InsertsS ys c d) :
    InsertsS (xs ++ ys) (a ++ c) (b ++ d) := by
  induction h with
  | nil => exact h'
  | keep t _ ih => exact .keep t ih
  | group dl sp hu _ _ ih =>
    have := InsertsS.group dl sp hu ih
    simpa [List.append_assoc] using this
  | insert x _ ih =>
    have := InsertsS.insert x ih
    simpa [List.append_assoc] using this

theorem outerToksS_append (as bs : List (SAttr σ)) : outerToksS (as ++ bs) = outerToksS as ++ outerToksS bs := by simp [outerToksS]

theorem outer_warning (repr : Str → Str) (sp : σ) (pre : Str) (w : Warning) :
    outerToksS [(w.withPrefix pre).toAttrS repr sp] = Tok.atL sp (warningToks repr pre w) := rfl

/-- With the warnings in order. -/
theorem processS_spec (repr : Str → Str) (sp : σ) (pre : Str) (attrs : List (SAttr σ)) (ws : List Warning) :
    (ws = [] ∧ processDeprecationsS repr sp pre attrs ws.reverse = (attrs, [])) ∨
    (¬ Fresh (attrs.map SAttr.erase) ∧ processDeprecationsS repr sp pre attrs ws.reverse = (attrs, ws.reverse)) ∨
    (∃ w rest, ws = w :: rest ∧ Fresh (attrs.map SAttr.erase) ∧
      processDeprecationsS repr sp pre attrs ws.reverse = (attrs ++ [(w.withPrefix pre).toAttrS repr sp], rest.reverse)) := by
  cases ws with
  | nil => exact .inl ⟨rfl, rfl⟩
  | cons w rest =>
    have he := any_isDeprecated_erase attrs
    by_cases h : attrs.any SAttr.isDeprecated = true
    · exact .inr (.inl ⟨(any_isDeprecated _).1 (he.trans h), by simp [processDeprecationsS, h]⟩)
    · refine .inr (.inr ⟨w, rest, rfl, ?_, ?_⟩)
      · exact Classical.not_not.1 (fun hn => h (he.symm.trans ((any_isDeprecated _).2 hn)))
      · simp [processDeprecationsS, h]

mutual
/-- What the visit of one piece does. -/
theorem visit1_specS (repr : Str → Str) (sp : σ) (pre : Str) (c : SCst σ) (ws : List Warning) :
    (c.visit repr sp pre ws.reverse).2 = (ws.drop (freshCount (nodeAttrs1 c.erase))).reverse ∧
    InsertsS ((ws.take (freshCount (nodeAttrs1 c.erase))).map fun w => Tok.atL sp (warningToks repr pre w)) c.print
      (c.visit repr sp pre ws.reverse).1.print := by
  match c with
  | .toks ts => exact ⟨by simp [SCst.visit, SCst.erase, nodeAttrs1, freshCount],
      by simpa [SCst.visit, SCst.erase, nodeAttrs1, freshCount] using InsertsS.refl _⟩
  | .group d cs sg =>
    obtain ⟨h1, h3⟩ := visits_specS repr sp pre cs ws
    refine ⟨by simpa [SCst.visit, SCst.erase, nodeAttrs1] using h1, ?_⟩
    have := InsertsS.group d sg h3 .nil
    simpa [SCst.visit, SCst.erase, nodeAttrs1, SCst.print] using this
  | .node attrs cs =>
    simp only [SCst.visit, SCst.erase, nodeAttrs1, freshCount, SCst.print]
    rcases processS_spec repr sp pre attrs ws with ⟨rfl, hp⟩ | ⟨hf, hp⟩ | ⟨w, rest, rfl, hf, hp⟩
    · obtain ⟨h1, h3⟩ := visits_specS repr sp pre cs []
      simp only [List.reverse_nil] at hp h1 h3 ⊢
      rw [hp]
      simp only at h1 h3 ⊢
      refine ⟨by simpa using h1, ?_⟩
      have := (InsertsS.refl (outerToksS attrs)).append h3
      simpa using this
    · obtain ⟨h1, h3⟩ := visits_specS repr sp pre cs ws
      rw [hp]
      simp only [hf, if_false, Nat.zero_add]
      exact ⟨h1, (InsertsS.refl (outerToksS attrs)).append h3⟩
    · obtain ⟨h1, h3⟩ := visits_specS repr sp pre cs rest
      rw [hp]
      simp only [hf, if_true, Nat.add_comm 1, List.drop_succ_cons, List.take_succ_cons]
      refine ⟨h1, ?_⟩
      have h4 : InsertsS [Tok.atL sp (warningToks repr pre w)] (outerToksS attrs)
          (outerToksS (attrs ++ [(w.withPrefix pre).toAttrS repr sp])) := by
        rw [outerToksS_append, outer_warning]
        have : InsertsS [Tok.atL sp (warningToks repr pre w)] [] (Tok.atL sp (warningToks repr pre w) ++ []) := .insert _ .nil
        simpa using (InsertsS.refl (outerToksS attrs)).append this
      simpa using h4.append h3
theorem visits_specS (repr : Str → Str) (sp : σ) (pre : Str) (cs : List (SCst σ)) (ws : List Warning) :
    (cstsVisitS repr sp pre cs ws.reverse).2 = (ws.drop (freshCount (nodeAttrs (SCst.eraseL cs)))).reverse ∧
    InsertsS ((ws.take (freshCount (nodeAttrs (SCst.eraseL cs)))).map fun w => Tok.atL sp (warningToks repr pre w)) (cstsPrintS cs)
      (cstsPrintS (cstsVisitS repr sp pre cs ws.reverse).1) := by
  match cs with
  | [] => exact ⟨by simp [cstsVisitS, SCst.eraseL, nodeAttrs, freshCount],
      by simpa [cstsVisitS, SCst.eraseL, nodeAttrs, freshCount] using InsertsS.refl _⟩
  | c :: cs =>
    obtain ⟨h1, h3⟩ := visit1_specS repr sp pre c ws
    obtain ⟨k1, k3⟩ := visits_specS repr sp pre cs (ws.drop (freshCount (nodeAttrs1 c.erase)))
    simp only [cstsVisitS, SCst.eraseL, nodeAttrs, h1, freshCount_append, k1, cstsPrintS, take_add_drop,
      List.map_append, List.drop_drop, true_and]
    exact h3.append k3
end

/-! ## Spans -/

theorem Spec.InsertsS.spans {xs : List (SToks σ)} {a b : SToks σ} (h : InsertsS xs a b) {sp : σ} (hs : sp ∈ spans b) :
    sp ∈ Spec.spans a ∨ ∃ x ∈ xs, sp ∈ Spec.spans x := by
  induction h with
  | nil => cases hs
  | keep t _ ih =>
    rcases List.mem_append.1 hs with hs | hs
    · exact .inl (List.mem_append_left _ hs)
    · exact (ih hs).imp (List.mem_append_right _) id
  | group d sg _ _ ih ih' =>
    simp only [Spec.spans, spansTok, List.cons_append, List.mem_cons, List.mem_append] at hs ⊢
    rcases hs with hs | hs | hs
    · exact .inl (.inl hs)
    · rcases ih hs with h | ⟨x, hx, h⟩
      · exact .inl (.inr (.inl h))
      · exact .inr ⟨x, .inl hx, h⟩
    · rcases ih' hs with h | ⟨x, hx, h⟩
      · exact .inl (.inr (.inr h))
      · exact .inr ⟨x, .inr hx, h⟩
  | insert x _ ih =>
    rw [spans_append, List.mem_append] at hs
    rcases hs with hs | hs
    · exact .inr ⟨x, List.mem_cons_self, hs⟩
    · rcases ih hs with h | ⟨x, hx, h⟩
      · exact .inl h
      · exact .inr ⟨x, List.mem_cons_of_mem _ hx, h⟩

end Verif
