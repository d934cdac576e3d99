import Verif.Spec.Deprecation
/-! # Lemmas about deprecation warnings -/

namespace Verif
open Spec

theorem isDeprecated_iff (a : Attr) : a.isDeprecated = true ↔ Deprecated a := by
  obtain ⟨inner, body⟩ := a
  unfold Attr.isDeprecated Deprecated
  simp only
  split
  · simp
  · rename_i s r h
    simp only [beq_iff_eq, List.cons.injEq, Tok.ident.injEq]
    constructor
    · rintro rfl
      exact ⟨r, ⟨rfl, rfl⟩, fun j r' hr => by grind⟩
    · rintro ⟨_, ⟨h, -⟩, -⟩; exact h
  · rename_i h1 h2
    simp only [Bool.false_eq_true, false_iff]
    rintro ⟨rest, h, -⟩
    exact h2 _ _ h

theorem any_isDeprecated (as : List Attr) : as.any Attr.isDeprecated = true ↔ ¬ Fresh as := by
  simp [Fresh, List.any_eq_true, isDeprecated_iff]

theorem toAttr_eq (repr : Str → Str) (pre : Str) (w : Warning) : (w.withPrefix pre).toAttr repr = warningAttr repr pre w := rfl

theorem warningAttr_toks (repr : Str → Str) (pre : Str) (w : Warning) : (warningAttr repr pre w).toks = warningToks repr pre w := rfl

/-- With the warnings in order (`ws` reversed is what the visitor keeps). -/
theorem process_spec (repr : Str → Str) (pre : Str) (attrs : List Attr) (ws : List Warning) :
    (ws = [] ∧ processDeprecations repr pre attrs ws.reverse = (attrs, [])) ∨
    (¬ Fresh attrs ∧ processDeprecations repr pre attrs ws.reverse = (attrs, ws.reverse)) ∨
    (∃ w rest, ws = w :: rest ∧ Fresh attrs ∧
      processDeprecations repr pre attrs ws.reverse = (attrs ++ [warningAttr repr pre w], rest.reverse)) := by
  cases ws with
  | nil => exact .inl ⟨rfl, rfl⟩
  | cons w rest =>
    by_cases h : attrs.any Attr.isDeprecated = true
    · exact .inr (.inl ⟨(any_isDeprecated _).1 h, by simp [processDeprecations, h]⟩)
    · refine .inr (.inr ⟨w, rest, rfl, ?_, ?_⟩)
      · exact Classical.not_not.1 (fun hn => h ((any_isDeprecated _).2 hn))
      · simp [processDeprecations, h, toAttr_eq]

theorem handOut_nil (repr pre) (ns : List (List Attr)) : handOut repr pre ns [] = ns := by cases ns <;> rfl

theorem handOut_append (repr pre) (as bs : List (List Attr)) (ws : List Warning) :
    handOut repr pre (as ++ bs) ws = handOut repr pre as ws ++ handOut repr pre bs (ws.drop (freshCount as)) := by
  induction as generalizing ws with
  | nil => simp [handOut, freshCount]
  | cons a as ih =>
    cases ws with
    | nil => simp [handOut, handOut_nil]
    | cons w ws =>
      by_cases h : Fresh a
      · simp [handOut, freshCount, h, ih, Nat.add_comm 1]
      · simp [handOut, freshCount, h, ih]

theorem freshCount_append (as bs : List (List Attr)) : freshCount (as ++ bs) = freshCount as + freshCount bs := by
  induction as with
  | nil => simp [freshCount]
  | cons a as ih => simp only [List.cons_append, freshCount, ih]; omega

theorem Spec.Inserts.refl (a : Toks) : Inserts [] a a := by
  induction a with
  | nil => exact .nil
  | cons t ts ih => exact .keep t ih

theorem Spec.Inserts.append {xs ys a b c d} (h : Inserts xs a b) (h' : Inserts ys c d) : Inserts (xs ++ ys) (a ++ c) (b ++ d) := by
  induction h with
  | nil => exact h'
  | keep t _ ih => exact .keep t ih
  | group dl hu _ _ ih =>
    have := Inserts.group dl hu ih
    simpa [List.append_assoc] using this
  | insert x _ ih =>
    have := Inserts.insert x ih
    simpa [List.append_assoc] using this

theorem outerToks_append (as bs : List Attr) : outerToks (as ++ bs) = outerToks as ++ outerToks bs := by simp [outerToks]

theorem take_add_drop {α} (ws : List α) (m n : Nat) : ws.take (m + n) = ws.take m ++ (ws.drop m).take n := by
  rw [List.take_add]

mutual
/-- What the visit of one piece does. -/
theorem visit1_spec (repr : Str → Str) (pre : Str) (c : Cst) (ws : List Warning) :
    (c.visit repr pre ws.reverse).2 = (ws.drop (freshCount (nodeAttrs1 c))).reverse ∧
    nodeAttrs1 (c.visit repr pre ws.reverse).1 = handOut repr pre (nodeAttrs1 c) ws ∧
    Inserts ((ws.take (freshCount (nodeAttrs1 c))).map (warningToks repr pre)) c.print (c.visit repr pre ws.reverse).1.print := by
  match c with
  | .toks ts => exact ⟨by simp [Cst.visit, nodeAttrs1, freshCount], by simp [Cst.visit, nodeAttrs1, handOut],
      by simpa [Cst.visit, nodeAttrs1, freshCount] using Inserts.refl _⟩
  | .group d cs =>
    obtain ⟨h1, h2, h3⟩ := visits_spec repr pre cs ws
    refine ⟨by simpa [Cst.visit, nodeAttrs1] using h1, by simpa [Cst.visit, nodeAttrs1] using h2, ?_⟩
    have := Inserts.group d h3 .nil
    simpa [Cst.visit, nodeAttrs1, Cst.print] using this
  | .node attrs cs =>
    simp only [Cst.visit, nodeAttrs1, freshCount, Cst.print]
    rcases process_spec repr pre attrs ws with ⟨rfl, hp⟩ | ⟨hf, hp⟩ | ⟨w, rest, rfl, hf, hp⟩
    · obtain ⟨h1, h2, h3⟩ := visits_spec repr pre cs []
      simp only [List.reverse_nil] at hp h1 h2 h3 ⊢
      rw [hp]
      simp only at h1 h2 h3 ⊢
      refine ⟨by simpa using h1, by simpa [handOut_nil] using h2, ?_⟩
      have := (Inserts.refl (outerToks attrs)).append h3
      simpa using this
    · obtain ⟨h1, h2, h3⟩ := visits_spec repr pre cs ws
      rw [hp]
      simp only [hf, if_false, Nat.zero_add]
      refine ⟨h1, ?_, (Inserts.refl (outerToks attrs)).append h3⟩
      cases ws with
      | nil => rw [handOut_nil] at h2 ⊢; rw [h2]
      | cons w ws => rw [h2]; simp [handOut, hf]
    · obtain ⟨h1, h2, h3⟩ := visits_spec repr pre cs rest
      rw [hp]
      simp only [hf, if_true, Nat.add_comm 1, List.drop_succ_cons, List.take_succ_cons]
      refine ⟨h1, by simp [handOut, hf, h2], ?_⟩
      have h4 : Inserts [warningToks repr pre w] (outerToks attrs) (outerToks (attrs ++ [warningAttr repr pre w])) := by
        rw [outerToks_append]
        have : Inserts [warningToks repr pre w] [] (warningToks repr pre w ++ []) := .insert _ .nil
        have := (Inserts.refl (outerToks attrs)).append this
        simpa [outerToks, warningAttr, ← warningAttr_toks] using this
      simpa using h4.append h3
theorem visits_spec (repr : Str → Str) (pre : Str) (cs : List Cst) (ws : List Warning) :
    (cstsVisit repr pre cs ws.reverse).2 = (ws.drop (freshCount (nodeAttrs cs))).reverse ∧
    nodeAttrs (cstsVisit repr pre cs ws.reverse).1 = handOut repr pre (nodeAttrs cs) ws ∧
    Inserts ((ws.take (freshCount (nodeAttrs cs))).map (warningToks repr pre)) (cstsPrint cs)
      (cstsPrint (cstsVisit repr pre cs ws.reverse).1) := by
  match cs with
  | [] => exact ⟨by simp [cstsVisit, nodeAttrs, freshCount], by simp [cstsVisit, nodeAttrs, handOut],
      by simpa [cstsVisit, nodeAttrs, freshCount] using Inserts.refl _⟩
  | c :: cs =>
    obtain ⟨h1, h2, h3⟩ := visit1_spec repr pre c ws
    obtain ⟨k1, k2, k3⟩ := visits_spec repr pre cs (ws.drop (freshCount (nodeAttrs1 c)))
    simp only [cstsVisit, nodeAttrs, h1, handOut_append, freshCount_append, h2, k2, k1, cstsPrint, take_add_drop,
      List.map_append, List.drop_drop, true_and]
    exact h3.append k3
end

/-! ## Printing and sites -/

/-- Splitting the opaque parts loses no tokens. -/
def Sites.Lawful (sites : Sites) : Prop := ∀ k ts, cstsPrint (sites k ts) = ts

theorem cstsPrint_append (as bs : List Cst) : cstsPrint (as ++ bs) = cstsPrint as ++ cstsPrint bs := by
  induction as with
  | nil => rfl
  | cons a as ih => simp [cstsPrint, ih]

section
variable {sites : Sites} (hl : sites.Lawful)
include hl

theorem field_cst (f : Field) : (f.cst sites).print = f.toks := by
  cases h : f.ident <;> simp [Field.cst, Field.toks, Cst.print, cstsPrint_append, hl _ _, h, cstsPrint]

omit hl in
theorem sepCst_print (c : Char) (tr : Bool) (cs : List Cst) : cstsPrint (sepCst c tr cs) = sepToks c tr (cs.map Cst.print) := by
  induction cs with
  | nil => rfl
  | cons a as ih =>
    cases as with
    | nil => cases tr <;> simp [sepCst, sepToks, cstsPrint, Cst.print]
    | cons b bs =>
      simp only [sepCst, List.map_cons, cstsPrint, sepToks, Cst.print]
      rw [ih]
      simp

omit hl in
theorem punct_cst {α} (f : α → Cst) (g : α → Toks) (h : ∀ a, (f a).print = g a) (c : Char) (p : Punctuated α) :
    cstsPrint (p.cst f c) = p.toks g c := by
  simp only [Punctuated.cst, Punctuated.toks, sepCst_print, List.map_map]
  congr 1
  apply List.map_congr_left
  intro a _
  exact h a

theorem fields_cst (w semi : Toks) (f : Fields) : cstsPrint (f.cst sites w semi) = f.toks w semi := by
  cases f <;> simp [Fields.cst, Fields.toks, cstsPrint, Cst.print, punct_cst _ _ (field_cst hl)]

theorem variant_cst (v : Variant) : (v.cst sites).print = v.toks := by
  cases h : v.discriminant <;>
    simp [Variant.cst, Variant.toks, Cst.print, cstsPrint_append, hl _ _, h, cstsPrint, fields_cst hl]

theorem flatMap_sites (k) (is : List Toks) : cstsPrint (is.flatMap (sites k)) = is.flatten := by
  induction is with
  | nil => rfl
  | cons i is ih => simp [cstsPrint_append, hl _ _, ih]

set_option linter.unusedSectionVars false

mutual
theorem stmt_cst (s : Stmt) : cstsPrint (s.cst sites) = s.toks := by
  match s with
  | .item i => simpa [Stmt.cst, Stmt.toks] using item_cst i
  | .other ts => simp [Stmt.cst, Stmt.toks, hl _ _]
theorem stmts_cst (ss : List Stmt) : cstsPrint (stmtsCst sites ss) = stmtsToks ss := by
  match ss with
  | [] => simp [stmtsCst, stmtsToks, cstsPrint]
  | s :: ss => simp [stmtsCst, stmtsToks, cstsPrint_append, stmt_cst s, stmts_cst ss]
theorem item_cst (i : Item) : cstsPrint (i.cst sites) = i.toks := by
  match i with
  | .fn attrs vis sig block =>
    simp [Item.cst, Item.toks, cstsPrint, Cst.print, cstsPrint_append, hl _ _, stmts_cst block]
  | .struct h vis ident fields =>
    simp [Item.cst, Item.toks, cstsPrint, Cst.print, cstsPrint_append, hl _ _, fields_cst hl]
  | .enum h vis ident variants =>
    simp [Item.cst, Item.toks, cstsPrint, Cst.print, cstsPrint_append, hl _ _, punct_cst _ _ (variant_cst hl)]
  | .union h vis ident fields =>
    simp [Item.cst, Item.toks, cstsPrint, Cst.print, cstsPrint_append, hl _ _, punct_cst _ _ (field_cst hl)]
  | .trait h vis u a ident supertraits items =>
    simp [Item.cst, Item.toks, cstsPrint, Cst.print, cstsPrint_append, hl _ _, traitItems_cst items]
  | .impl h d u trait_ selfTy items =>
    simp [Item.cst, Item.toks, cstsPrint, Cst.print, cstsPrint_append, hl _ _, implItems_cst items]
  | .mod attrs vis u ident none => simp [Item.cst, Item.toks, cstsPrint, Cst.print, cstsPrint_append, hl _ _]
  | .mod attrs vis u ident (some items) =>
    simp [Item.cst, Item.toks, cstsPrint, Cst.print, cstsPrint_append, hl _ _, items_cst items]
  | .foreignMod attrs u abi items =>
    simp [Item.cst, Item.toks, cstsPrint, Cst.print, flatMap_sites hl]
  | .other ts => simp [Item.cst, Item.toks, hl _ _]
theorem items_cst (is : List Item) : cstsPrint (itemsCst sites is) = itemsToks is := by
  match is with
  | [] => simp [itemsCst, itemsToks, cstsPrint]
  | i :: is => simp [itemsCst, itemsToks, cstsPrint_append, item_cst i, items_cst is]
theorem traitItem_cst (i : TraitItem) : cstsPrint (i.cst sites) = i.toks := by
  match i with
  | .fn attrs sig none => simp [TraitItem.cst, TraitItem.toks, cstsPrint, Cst.print, cstsPrint_append, hl _ _]
  | .fn attrs sig (some block) =>
    simp [TraitItem.cst, TraitItem.toks, cstsPrint, Cst.print, cstsPrint_append, hl _ _, stmts_cst block]
  | .other ts => simp [TraitItem.cst, TraitItem.toks, hl _ _]
theorem traitItems_cst (is : List TraitItem) : cstsPrint (traitItemsCst sites is) = traitItemsToks is := by
  match is with
  | [] => simp [traitItemsCst, traitItemsToks, cstsPrint]
  | i :: is => simp [traitItemsCst, traitItemsToks, cstsPrint_append, traitItem_cst i, traitItems_cst is]
theorem implItem_cst (i : ImplItem) : cstsPrint (i.cst sites) = i.toks := by
  match i with
  | .fn attrs vis d sig block =>
    simp [ImplItem.cst, ImplItem.toks, cstsPrint, Cst.print, cstsPrint_append, hl _ _, stmts_cst block]
  | .other ts => simp [ImplItem.cst, ImplItem.toks, hl _ _]
theorem implItems_cst (is : List ImplItem) : cstsPrint (implItemsCst sites is) = implItemsToks is := by
  match is with
  | [] => simp [implItemsCst, implItemsToks, cstsPrint]
  | i :: is => simp [implItemsCst, implItemsToks, cstsPrint_append, implItem_cst i, implItems_cst is]
end
end

end Verif
