import Verif.Spec.Text
import Verif.Spec.Subst
import Verif.Proofs.Subst
/-! # Printing gives back the text -/

namespace Verif
open Spec

theorem outer_printed {o : Toks} {as : List Attr} (h : OuterText o as) : outerToks as = o ∧ innerToks as = [] := by
  induction h with
  | nil => exact ⟨rfl, rfl⟩
  | cons body _ ih => exact ⟨by simpa [outerToks, Attr.toks] using ih.1, by simpa [innerToks] using ih.2⟩

theorem inner_printed {o : Toks} {as : List Attr} (h : InnerText o as) : innerToks as = o ∧ outerToks as = [] := by
  induction h with
  | nil => exact ⟨rfl, rfl⟩
  | cons body _ ih => exact ⟨by simpa [innerToks, Attr.toks] using ih.1, by simpa [outerToks] using ih.2⟩

theorem both_printed {o i : Toks} {as bs : List Attr} (h : OuterText o as) (h' : InnerText i bs) :
    outerToks (as ++ bs) = o ∧ innerToks (as ++ bs) = i := by
  have h1 := outer_printed h
  have h2 := inner_printed h'
  simp only [outerToks, innerToks, List.filter_append, List.flatMap_append] at *
  simp [h1, h2]

theorem list_printed {α : Type} {R : Toks → α → Prop} {f : α → Toks} (hf : ∀ ts x, R ts x → f x = ts) {c : Char} {ts : Toks}
    {p : Punctuated α} (h : ListText R c ts p) : p.toks f c = ts := by
  induction h with
  | nil => rfl
  | last h => simp [Punctuated.toks, sepToks, hf _ _ h]
  | trailing h => simp [Punctuated.toks, sepToks, hf _ _ h]
  | cons h _ ih =>
    simp only [Punctuated.toks, List.map_cons, sepToks] at ih ⊢
    rw [ih, hf _ _ h]

theorem maybe_printed {s : String} {ts : Toks} {b : Bool} (h : MaybeWord (S s) ts b) : kwIf b s = ts := by
  cases h <;> rfl

theorem namedField_printed (ts : Toks) (f : Field) (h : NamedFieldText ts f) : f.toks = ts := by
  cases h with
  | mk n ty h1 h2 => simp [Field.toks, outer_printed h1]

theorem tupleField_printed (ts : Toks) (f : Field) (h : TupleFieldText ts f) : f.toks = ts := by
  cases h with
  | mk ty h1 h2 => simp [Field.toks, outer_printed h1]

theorem struct_printed {ts w : Toks} {f : Fields} (h : StructText ts w f) : f.toks w [.punct ';' false] = ts := by
  cases h with
  | named _ h => simp [Fields.toks, list_printed namedField_printed h]
  | tuple _ h => simp [Fields.toks, list_printed tupleField_printed h]
  | unit _ => rfl

theorem variantFields_printed {ts : Toks} {f : Fields} (h : VariantFieldsText ts f) : f.toks [] [] = ts := by
  cases h with
  | named h => simp [Fields.toks, list_printed namedField_printed h]
  | tuple h => simp [Fields.toks, list_printed tupleField_printed h]
  | unit => rfl

theorem variant_printed (ts : Toks) (v : Variant) (h : VariantText ts v) : v.toks = ts := by
  cases h with
  | mk n h1 h2 h3 => cases h3 <;> simp [Variant.toks, outer_printed h1, variantFields_printed h2]

theorem super_printed {ts : Toks} {p : Punctuated Toks} (h : SuperText ts p) : superToks p = ts := by
  cases h with
  | none => rfl
  | some h =>
    have := list_printed (f := id) (fun ts x h => by cases h; rfl) h
    simp [superToks, this]

theorem ofTrait_printed {ts : Toks} {o : Option (Bool × Toks)} (h : OfTraitText ts o) : implTraitToks o = ts := by
  cases h <;> simp [implTraitToks, kw]

theorem abi_printed {ts : Toks} {o : Option Toks} (h : AbiText ts o) : o.getD [] = ts := by
  cases h <;> rfl

mutual
theorem stmt_printed {ts : Toks} {s : Stmt} (h : StmtText ts s) : s.toks = ts := by
  match h with
  | .item h => simpa [Stmt.toks] using item_printed h
  | .other ts => simp [Stmt.toks]
theorem block_printed {ts : Toks} {ss : List Stmt} (h : BlockText ts ss) : stmtsToks ss = ts := by
  match h with
  | .nil => simp [stmtsToks]
  | .cons h1 h2 => simp [stmtsToks, stmt_printed h1, block_printed h2]
theorem item_printed {ts : Toks} {i : Item} (h : ItemText ts i) : i.toks = ts := by
  match h with
  | .fn h1 h2 h3 h4 h5 => simp [Item.toks, both_printed h1 h4, block_printed h5]
  | .struct n h1 h2 h3 h4 => simp [Item.toks, outer_printed h1, struct_printed h4, kw]
  | .enum n h1 h2 h3 h4 h5 => simp [Item.toks, outer_printed h1, list_printed variant_printed h5, kw]
  | .union n h1 h2 h3 h4 h5 => simp [Item.toks, outer_printed h1, list_printed namedField_printed h5, kw]
  | .trait n h1 h2 h3 h4 h5 h6 h7 h8 h9 =>
    simp [Item.toks, both_printed h1 h8, maybe_printed h3, maybe_printed h4, super_printed h6, traitItems_printed h9, kw]
  | .impl ty h1 h2 h3 h4 h5 h6 h7 h8 =>
    simp [Item.toks, both_printed h1 h7, maybe_printed h2, maybe_printed h3, ofTrait_printed h5, implItems_printed h8, kw]
  | .modFile n h1 h2 h3 => simp [Item.toks, outer_printed h1, maybe_printed h3, kw]
  | .mod n h1 h2 h3 h4 h5 => simp [Item.toks, both_printed h1 h4, maybe_printed h3, items_printed h5, kw]
  | .foreignMod items h1 h2 h3 h4 => simp [Item.toks, both_printed h1 h4, maybe_printed h2, abi_printed h3, kw]
  | .other ts => simp [Item.toks]
theorem items_printed {ts : Toks} {ss : List Item} (h : ItemsText ts ss) : itemsToks ss = ts := by
  match h with
  | .nil => simp [itemsToks]
  | .cons h1 h2 => simp [itemsToks, item_printed h1, items_printed h2]
theorem traitItem_printed {ts : Toks} {i : TraitItem} (h : TraitItemText ts i) : i.toks = ts := by
  match h with
  | .required h1 h2 => simp [TraitItem.toks, outer_printed h1]
  | .provided h1 h2 h3 h4 => simp [TraitItem.toks, both_printed h1 h3, block_printed h4]
  | .other ts => simp [TraitItem.toks]
theorem traitItems_printed {ts : Toks} {ss : List TraitItem} (h : TraitItemsText ts ss) : traitItemsToks ss = ts := by
  match h with
  | .nil => simp [traitItemsToks]
  | .cons h1 h2 => simp [traitItemsToks, traitItem_printed h1, traitItems_printed h2]
theorem implItem_printed {ts : Toks} {i : ImplItem} (h : ImplItemText ts i) : i.toks = ts := by
  match h with
  | .fn h1 h2 h3 h4 h5 h6 => simp [ImplItem.toks, both_printed h1 h5, maybe_printed h3, block_printed h6]
  | .other ts => simp [ImplItem.toks]
theorem implItems_printed {ts : Toks} {ss : List ImplItem} (h : ImplItemsText ts ss) : implItemsToks ss = ts := by
  match h with
  | .nil => simp [implItemsToks]
  | .cons h1 h2 => simp [implItemsToks, implItem_printed h1, implItems_printed h2]
end

/-! ## Spacing -/

theorem unspaced_append (a b : Toks) : unspaced (a ++ b) = unspaced a ++ unspaced b := by
  induction a with
  | nil => simp [unspaced]
  | cons t ts ih => simp [unspaced, ih]

theorem unspaced_coarse : Coarse unspaced :=
  ⟨by simp [unspaced], unspaced_append, fun d us ts => by simp [unspaced, unspacedTok]⟩

mutual
theorem unspaced_substTok (look : Str → Option Toks) (str : Str → Lit) (t : Tok) :
    unspaced (substTok look str (unspacedTok t)) = unspaced (substTok look str t) := by
  match t with
  | .punct c j => simp [unspacedTok, substTok, unspaced]
  | .ident n => simp [unspacedTok]
  | .lit l => simp [unspacedTok]
  | .group d ts => simp [unspacedTok, substTok, unspaced, unspaced_substAll look str ts]
theorem unspaced_substAll (look : Str → Option Toks) (str : Str → Lit) (ts : Toks) :
    unspaced (substAll look str (unspaced ts)) = unspaced (substAll look str ts) := by
  match ts with
  | [] => simp [unspaced, substAll]
  | t :: ts =>
    simp [unspaced, substAll, unspaced_append, unspaced_substTok look str t, unspaced_substAll look str ts]
end

end Verif
