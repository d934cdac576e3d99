import Verif.Lite.Applied
import Verif.Props.Text
import Verif.Props.RenameText
/-!
# Blocks are taken apart as the grammar of items says

`C66` and the claims built on it assume of `syn` that the parts of a block are those that the Rust reference gives (`TextSyntax`). Here this is proved of the grammar
of `Verif/Lite/Rust.lean`.
-/

namespace Verif.Lite
open Verif Spec Verif.Props

theorem outer_text : ∀ {as : List Attr}, outerOnly as = true → OuterText (outerToks as) as
  | [], _ => .nil
  | a :: as, h => by
    obtain ⟨i, b⟩ := a
    simp only [outerOnly, List.all_cons, Bool.and_eq_true, Bool.not_eq_true'] at h
    obtain ⟨rfl, h⟩ := h
    have ih := outer_text (as := as) h
    simp only [outerToks] at ih
    simpa [outerToks, Attr.toks] using ih.cons b

theorem outer_noInner : ∀ {as : List Attr}, outerOnly as = true → innerToks as = []
  | [], _ => rfl
  | a :: as, h => by
    simp only [outerOnly, List.all_cons, Bool.and_eq_true, Bool.not_eq_true'] at h
    have ih := outer_noInner (as := as) h.2
    simpa [innerToks, h.1] using ih

theorem inner_text : ∀ {as : List Attr}, as.all (·.inner) = true → InnerText (innerToks as) as ∧ outerToks as = []
  | [], _ => ⟨.nil, rfl⟩
  | a :: as, h => by
    obtain ⟨i, b⟩ := a
    simp only [List.all_cons, Bool.and_eq_true] at h
    obtain ⟨rfl, h⟩ := h
    have ih := inner_text (as := as) h
    simp only [innerToks, outerToks] at ih
    exact ⟨by simpa [innerToks, Attr.toks] using ih.1.cons b, by simpa [outerToks] using ih.2⟩

theorem outerThenInner_text : ∀ {as : List Attr}, outerThenInner as = true →
    ∃ bs cs, as = bs ++ cs ∧ OuterText (outerToks as) bs ∧ InnerText (innerToks as) cs
  | [], _ => ⟨[], [], rfl, .nil, .nil⟩
  | a :: as, h => by
    have ih := outerThenInner_text (as := as)
    obtain ⟨i, b⟩ := a
    cases i with
    | true =>
      have h : (⟨true, b⟩ :: as : List Attr).all (·.inner) = true := by simpa [outerThenInner] using h
      obtain ⟨h1, h2⟩ := inner_text h
      exact ⟨[], _, rfl, h2 ▸ .nil, h1⟩
    | false =>
      obtain ⟨bs, cs, rfl, h1, h2⟩ := ih (by simpa [outerThenInner] using h)
      refine ⟨⟨false, b⟩ :: bs, cs, rfl, ?_, ?_⟩
      · have := h1.cons b
        simpa [outerToks, Attr.toks] using this
      · simpa [innerToks] using h2

theorem vis_text {ts : Toks} (h : visOk ts = true) : VisText ts := by
  unfold visOk at h
  split at h
  · exact .inherited
  · rw [eq_of_beq h]; exact .pub
  · rw [eq_of_beq h]; exact .restricted _
  · cases h

theorem oneIdent_eq {ts : Toks} (h : oneIdent ts = true) : ∃ n, ts = [.ident n] := by
  unfold oneIdent at h
  split at h
  · exact ⟨_, rfl⟩
  · cases h

theorem generics_text {ts : Toks} (h : genericsOk ts = true) : GenericsText ts := by
  unfold genericsOk at h
  split at h
  · exact .none
  · next c i ts =>
    simp only [Bool.and_eq_true] at h
    obtain ⟨h1, h2⟩ := h
    split at h2
    · next d j hl =>
      obtain ⟨us, rfl⟩ := List.getLast?_eq_some_iff.1 hl
      rw [eq_of_beq h1, eq_of_beq h2]
      exact .some us i j
    · cases h2
  · cases h

theorem where_text {ts : Toks} (h : whereOk ts = true) : WhereText ts := by
  unfold whereOk at h
  split at h
  · exact .none
  · rw [eq_of_beq h]; exact .some _
  · cases h

theorem SigText.cons {ts : Toks} (t : Tok) (h : SigText ts) : SigText (t :: ts) := by
  cases h with
  | mk q n r => exact .mk (t :: q) n r

theorem sig_text : ∀ {ts : Toks}, sigOk ts = true → SigText ts := by
  intro ts h
  fun_induction sigOk ts with
  | case1 a b ts ih =>
    simp only [Bool.or_eq_true] at h
    rcases h with h | h
    · rw [eq_of_beq h]; exact .mk [] b ts
    · exact SigText.cons _ (ih h)
  | case2 t ts _ ih =>
    exact SigText.cons _ (ih h)
  | case3 => cases h

theorem list_text {α : Type} {R : Toks → α → Prop} {f : α → Toks} {ok : α → Bool} (hf : ∀ x, ok x = true → R (f x) x) (c : Char) :
    ∀ {p : Punctuated α}, listOk ok p = true → ListText R c (p.toks f c) p
  | ⟨[], t⟩, h => by
    simp [listOk] at h
    subst h; exact .nil
  | ⟨[x], t⟩, h => by
    simp [listOk] at h
    cases t with
    | true => exact .trailing (hf x h)
    | false => simpa [Punctuated.toks, sepToks] using ListText.last (c := c) (hf x h)
  | ⟨x :: y :: xs, t⟩, h => by
    have ih := @list_text _ R f ok hf c ⟨y :: xs, t⟩
    simp [listOk] at h ih
    exact .cons (hf x h.1) (ih h.2.1 h.2.2)

theorem namedField_text (x : Field) (h : fieldOk true x = true) : NamedFieldText x.toks x := by
  obtain ⟨as, vis, i, ty⟩ := x
  cases i with
  | none => simp [fieldOk] at h
  | some i =>
    simp only [fieldOk, Bool.and_eq_true, true_and] at h
    obtain ⟨⟨h1, h2⟩, h3⟩ := h
    obtain ⟨n, rfl⟩ := oneIdent_eq h3
    simpa [Field.toks] using NamedFieldText.mk n ty (outer_text h1) (vis_text h2)

theorem tupleField_text (x : Field) (h : fieldOk false x = true) : TupleFieldText x.toks x := by
  obtain ⟨as, vis, i, ty⟩ := x
  cases i with
  | none =>
    simp only [fieldOk, Bool.and_eq_true] at h
    simpa [Field.toks] using TupleFieldText.mk ty (outer_text h.1.1) (vis_text h.1.2)
  | some i => simp [fieldOk] at h

theorem struct_text {fs : Fields} {w : Toks} (hw : whereOk w = true) (h : fieldsOk fs = true) : StructText (fs.toks w [.punct ';' false]) w fs := by
  cases fs with
  | named fs => exact .named (where_text hw) (list_text namedField_text ',' h)
  | unnamed fs => exact .tuple (where_text hw) (list_text tupleField_text ',' h)
  | unit => exact .unit (where_text hw)

theorem variantFields_text {fs : Fields} (h : fieldsOk fs = true) : VariantFieldsText (fs.toks [] []) fs := by
  cases fs with
  | named fs => exact .named (list_text namedField_text ',' h)
  | unnamed fs => exact .tuple (list_text tupleField_text ',' h)
  | unit => exact .unit

theorem variant_text (x : Variant) (h : variantOk x = true) : VariantText x.toks x := by
  obtain ⟨as, i, fs, d⟩ := x
  simp only [variantOk, Bool.and_eq_true] at h
  obtain ⟨n, rfl⟩ := oneIdent_eq h.1.2
  unfold Variant.toks
  refine VariantText.mk n (outer_text h.1.1) (variantFields_text h.2) ?_
  cases d with
  | none => exact .none
  | some e => exact .some e

theorem maybe_text (b : Bool) (s : String) : MaybeWord (S s) (kwIf b s) b := by
  cases b
  · exact .absent
  · exact .present

theorem super_text {p : Punctuated Toks} (h : listOk (fun _ => true) p = true) : SuperText (superToks p) p := by
  have ht := list_text (R := BoundText) (f := id) (fun x _ => .mk x) '+' h
  obtain ⟨xs, t⟩ := p
  cases xs with
  | nil => simp [listOk] at h; subst h; exact .none
  | cons x xs => exact .some ht

theorem ofTrait_text (x : Option (Bool × Toks)) : OfTraitText (implTraitToks x) x := by
  match x with
  | none => exact .none
  | some (false, p) => exact .positive p
  | some (true, p) => exact .negative p

theorem abi_text {x : Option Toks} (h : abiOk x = true) : AbiText (x.getD []) x := by
  unfold abiOk at h
  split at h
  · exact .none
  · exact .some _ _
  · cases h

mutual
theorem stmt_text {f : Toks → Bool} : (s : Stmt) → stmtOk f s = true → StmtText s.toks s
  | .item i, h => .item (item_text i h)
  | .other ts, _ => .other ts
theorem stmts_text {f : Toks → Bool} : (ss : List Stmt) → stmtsOk f ss = true → BlockText (stmtsToks ss) ss
  | [], _ => .nil
  | s :: ss, h => by
    simp only [stmtsOk, Bool.and_eq_true] at h
    exact .cons (stmt_text s h.1) (stmts_text ss h.2)
theorem item_text {f : Toks → Bool} : (i : Item) → itemOk f i = true → ItemText i.toks i
  | .fn attrs vis sig b, h => by
    simp only [itemOk, Bool.and_eq_true] at h
    have ih := stmts_text b h.2
    obtain ⟨bs, cs, e, h1, h2⟩ := outerThenInner_text h.1.1.1
    have := ItemText.fn h1 (vis_text h.1.1.2) (sig_text h.1.2) h2 ih
    rw [← e] at this
    exact this
  | .struct ⟨as, g, w⟩ vis ident fields, h => by
    simp only [itemOk, headOk, Bool.and_eq_true] at h
    obtain ⟨⟨⟨⟨h1, h2, h3⟩, h4⟩, h5⟩, h6⟩ := h
    obtain ⟨n, rfl⟩ := oneIdent_eq h5
    simpa [Item.toks, kw] using ItemText.struct n (outer_text h1) (vis_text h4) (generics_text h2) (struct_text h3 h6)
  | .enum ⟨as, g, w⟩ vis ident vs, h => by
    simp only [itemOk, headOk, Bool.and_eq_true] at h
    obtain ⟨⟨⟨⟨h1, h2, h3⟩, h4⟩, h5⟩, h6⟩ := h
    obtain ⟨n, rfl⟩ := oneIdent_eq h5
    simpa [Item.toks, kw] using
      ItemText.enum n (outer_text h1) (vis_text h4) (generics_text h2) (where_text h3) (list_text variant_text ',' h6)
  | .union ⟨as, g, w⟩ vis ident fs, h => by
    simp only [itemOk, headOk, Bool.and_eq_true] at h
    obtain ⟨⟨⟨⟨h1, h2, h3⟩, h4⟩, h5⟩, h6⟩ := h
    obtain ⟨n, rfl⟩ := oneIdent_eq h5
    simpa [Item.toks, kw] using
      ItemText.union n (outer_text h1) (vis_text h4) (generics_text h2) (where_text h3) (list_text namedField_text ',' h6)
  | .trait ⟨as, g, w⟩ vis u a ident sups items, h => by
    simp only [itemOk, headOk, Bool.and_eq_true] at h
    obtain ⟨⟨⟨⟨⟨h1, h2, h3⟩, h4⟩, h5⟩, h6⟩, h7⟩ := h
    have ih := traitItems_text items h7
    obtain ⟨n, rfl⟩ := oneIdent_eq h5
    obtain ⟨bs, cs, e, k1, k2⟩ := outerThenInner_text h1
    have := ItemText.trait n k1 (vis_text h4) (maybe_text u "unsafe") (maybe_text a "auto") (generics_text h2) (super_text h6) (where_text h3) k2 ih
    rw [← e] at this
    simpa [Item.toks, kw] using this
  | .impl ⟨as, g, w⟩ d u tr ty items, h => by
    simp only [itemOk, headOk, Bool.and_eq_true] at h
    obtain ⟨⟨h1, h2, h3⟩, h4⟩ := h
    have ih := implItems_text items h4
    obtain ⟨bs, cs, e, k1, k2⟩ := outerThenInner_text h1
    have := ItemText.impl ty k1 (maybe_text d "default") (maybe_text u "unsafe") (generics_text h2) (ofTrait_text tr) (where_text h3) k2 ih
    rw [← e] at this
    simpa [Item.toks, kw] using this
  | .mod as vis u ident none, h => by
    simp only [itemOk, Bool.and_eq_true] at h
    obtain ⟨n, rfl⟩ := oneIdent_eq h.2
    simpa [Item.toks, kw] using ItemText.modFile n (outer_text h.1.1) (vis_text h.1.2) (maybe_text u "unsafe")
  | .mod as vis u ident (some items), h => by
    simp only [itemOk, Bool.and_eq_true] at h
    have ih := items_text items h.2
    obtain ⟨n, rfl⟩ := oneIdent_eq h.1.2
    obtain ⟨bs, cs, e, k1, k2⟩ := outerThenInner_text h.1.1.1
    have := ItemText.mod n k1 (vis_text h.1.1.2) (maybe_text u "unsafe") k2 ih
    rw [← e] at this
    simpa [Item.toks, kw] using this
  | .foreignMod as u abi items, h => by
    simp only [itemOk, Bool.and_eq_true] at h
    obtain ⟨bs, cs, e, k1, k2⟩ := outerThenInner_text h.1
    have := ItemText.foreignMod items k1 (maybe_text u "unsafe") (abi_text h.2) k2
    rw [← e] at this
    simpa [Item.toks, kw] using this
  | .other ts, _ => .other ts
theorem items_text {f : Toks → Bool} : (is : List Item) → itemsOk f is = true → ItemsText (itemsToks is) is
  | [], _ => .nil
  | i :: is, h => by
    simp only [itemsOk, Bool.and_eq_true] at h
    exact .cons (item_text i h.1) (items_text is h.2)
theorem traitItem_text {f : Toks → Bool} : (i : TraitItem) → traitItemOk f i = true → TraitItemText i.toks i
  | .fn as sig none, h => by
    simp only [traitItemOk, Bool.and_eq_true] at h
    simpa [TraitItem.toks] using TraitItemText.required (outer_text h.1) (sig_text h.2)
  | .fn as sig (some b), h => by
    simp only [traitItemOk, Bool.and_eq_true] at h
    have ih := stmts_text b h.2
    obtain ⟨bs, cs, e, k1, k2⟩ := outerThenInner_text h.1.1
    have := TraitItemText.provided k1 (sig_text h.1.2) k2 ih
    rw [← e] at this
    simpa [TraitItem.toks] using this
  | .other ts, _ => .other ts
theorem traitItems_text {f : Toks → Bool} : (is : List TraitItem) → traitItemsOk f is = true → TraitItemsText (traitItemsToks is) is
  | [], _ => .nil
  | i :: is, h => by
    simp only [traitItemsOk, Bool.and_eq_true] at h
    exact .cons (traitItem_text i h.1) (traitItems_text is h.2)
theorem implItem_text {f : Toks → Bool} : (i : ImplItem) → implItemOk f i = true → ImplItemText i.toks i
  | .fn as vis d sig b, h => by
    simp only [implItemOk, Bool.and_eq_true] at h
    have ih := stmts_text b h.2
    obtain ⟨bs, cs, e, k1, k2⟩ := outerThenInner_text h.1.1.1
    have := ImplItemText.fn k1 (vis_text h.1.1.2) (maybe_text d "default") (sig_text h.1.2) k2 ih
    rw [← e] at this
    simpa [ImplItem.toks] using this
  | .other ts, _ => .other ts
theorem implItems_text {f : Toks → Bool} : (is : List ImplItem) → implItemsOk f is = true → ImplItemsText (implItemsToks is) is
  | [], _ => .nil
  | i :: is, h => by
    simp only [implItemsOk, Bool.and_eq_true] at h
    exact .cons (implItem_text i h.1) (implItems_text is h.2)
end

/-! ## Statements that are not taken apart -/

/-- The blocks among the parts. -/
abbrev BlocksGood (f : Toks → Bool) (ps : Parts) : Prop := ∀ ts, (PartKind.block, ts) ∈ ps → ∃ c, ts = [.group .brace c] ∧ f c = true

theorem BlocksGood.none {f : Toks → Bool} {ps : Parts} (h : ∀ p ∈ ps, p.1 ≠ .block) : BlocksGood f ps := fun _ hp => absurd rfl (h _ hp)

theorem BlocksGood.append {f : Toks → Bool} {ps qs : Parts} (h : BlocksGood f ps) (h' : BlocksGood f qs) : BlocksGood f (ps ++ qs) :=
  fun ts hp => (List.mem_append.1 hp).elim (h ts) (h' ts)

theorem optPart_noBlock (k : NodeKind) (o : Option Toks) : ∀ p ∈ optPart k o, p.1 ≠ .block := by
  cases o <;> simp [optPart]

theorem field_noBlock (f : Field) : ∀ p ∈ fieldParts f, p.1 ≠ .block := by
  have := optPart_noBlock .ident f.ident
  simp only [fieldParts, attrParts, List.mem_append, List.mem_cons, List.not_mem_nil, or_false]
  rintro p (((rfl | rfl) | hp) | rfl)
  · simp
  · simp
  · exact this p hp
  · simp

theorem fields_noBlock (fs : Fields) : ∀ p ∈ fieldsParts fs, p.1 ≠ .block := by
  intro p hp
  cases fs with
  | named fs => obtain ⟨f, _, h⟩ := List.mem_flatMap.1 hp; exact field_noBlock f p h
  | unnamed fs => obtain ⟨f, _, h⟩ := List.mem_flatMap.1 hp; exact field_noBlock f p h
  | unit => cases hp

theorem variant_noBlock (v : Variant) : ∀ p ∈ variantParts v, p.1 ≠ .block := by
  have h1 := fields_noBlock v.fields
  have h2 := optPart_noBlock .expr v.discriminant
  simp only [variantParts, attrParts, List.mem_append, List.mem_cons, List.not_mem_nil, or_false]
  rintro p (((rfl | rfl) | hp) | hp)
  · simp
  · simp
  · exact h1 p hp
  · exact h2 p hp

theorem head_noBlock (h : Head) (vis ident : Toks) : ∀ p ∈ headParts h vis ident, p.1 ≠ .block := by
  simp only [headParts, attrParts, List.mem_append, List.mem_cons, List.not_mem_nil, or_false]
  rintro p (rfl | rfl | rfl | rfl) <;> simp

mutual
theorem stmt_blocks {f : Toks → Bool} : (s : Stmt) → stmtOk f s = true → BlocksGood f (stmtParts s)
  | .item i, h => item_blocks i h
  | .other ts, h => fun us hp => by
    simp only [stmtParts, List.mem_cons, List.not_mem_nil, or_false, Prod.mk.injEq, true_and] at hp
    exact ⟨ts, hp, h⟩
theorem stmts_blocks {f : Toks → Bool} : (ss : List Stmt) → stmtsOk f ss = true → BlocksGood f (stmtsParts ss)
  | [], _ => .none (by simp [stmtsParts])
  | s :: ss, h => by
    simp only [stmtsOk, Bool.and_eq_true] at h
    exact (stmt_blocks s h.1).append (stmts_blocks ss h.2)
theorem item_blocks {f : Toks → Bool} : (i : Item) → itemOk f i = true → BlocksGood f (itemParts i)
  | .fn attrs vis sig b, h => by
    simp only [itemOk, Bool.and_eq_true] at h
    exact (BlocksGood.none (by simp [attrParts])).append (stmts_blocks b h.2)
  | .struct hd vis ident fields, _ => (BlocksGood.none (head_noBlock _ _ _)).append (.none (fields_noBlock _))
  | .enum hd vis ident vs, _ => (BlocksGood.none (head_noBlock _ _ _)).append (.none fun p hp => by
      obtain ⟨v, _, h⟩ := List.mem_flatMap.1 hp; exact variant_noBlock v p h)
  | .union hd vis ident fs, _ => (BlocksGood.none (head_noBlock _ _ _)).append (.none fun p hp => by
      obtain ⟨v, _, h⟩ := List.mem_flatMap.1 hp; exact field_noBlock v p h)
  | .trait hd vis u a ident sups items, h => by
    simp only [itemOk, Bool.and_eq_true] at h
    exact ((BlocksGood.none (head_noBlock _ _ _)).append (.none (by simp))).append (traitItems_blocks items h.2)
  | .impl hd d u tr ty items, h => by
    simp only [itemOk, Bool.and_eq_true] at h
    refine (((BlocksGood.none (by simp [attrParts])).append (.none (optPart_noBlock _ _))).append (.none (by simp))).append (implItems_blocks items h.2)
  | .mod as vis u ident none, _ => .none (by simp [itemParts, attrParts])
  | .mod as vis u ident (some items), h => by
    simp only [itemOk, Bool.and_eq_true] at h
    exact (BlocksGood.none (by simp [attrParts])).append (items_blocks items h.2)
  | .foreignMod as u abi items, _ =>
    ((BlocksGood.none (by simp [attrParts])).append (.none (optPart_noBlock _ _))).append (.none (by simp))
  | .other ts, _ => .none (by simp [itemParts])
theorem items_blocks {f : Toks → Bool} : (is : List Item) → itemsOk f is = true → BlocksGood f (itemsParts is)
  | [], _ => .none (by simp [itemsParts])
  | i :: is, h => by
    simp only [itemsOk, Bool.and_eq_true] at h
    exact (item_blocks i h.1).append (items_blocks is h.2)
theorem traitItem_blocks {f : Toks → Bool} : (i : TraitItem) → traitItemOk f i = true → BlocksGood f (traitItemParts i)
  | .fn as sig none, _ => .none (by simp [traitItemParts, attrParts])
  | .fn as sig (some b), h => by
    simp only [traitItemOk, Bool.and_eq_true] at h
    exact (BlocksGood.none (by simp [attrParts])).append (stmts_blocks b h.2)
  | .other ts, _ => .none (by simp [traitItemParts])
theorem traitItems_blocks {f : Toks → Bool} : (is : List TraitItem) → traitItemsOk f is = true → BlocksGood f (traitItemsParts is)
  | [], _ => .none (by simp [traitItemsParts])
  | i :: is, h => by
    simp only [traitItemsOk, Bool.and_eq_true] at h
    exact (traitItem_blocks i h.1).append (traitItems_blocks is h.2)
theorem implItem_blocks {f : Toks → Bool} : (i : ImplItem) → implItemOk f i = true → BlocksGood f (implItemParts i)
  | .fn as vis d sig b, h => by
    simp only [implItemOk, Bool.and_eq_true] at h
    exact (BlocksGood.none (by simp [attrParts])).append (stmts_blocks b h.2)
  | .other ts, _ => .none (by simp [implItemParts])
theorem implItems_blocks {f : Toks → Bool} : (is : List ImplItem) → implItemsOk f is = true → BlocksGood f (implItemsParts is)
  | [], _ => .none (by simp [implItemsParts])
  | i :: is, h => by
    simp only [implItemsOk, Bool.and_eq_true] at h
    exact (implItem_blocks i h.1).append (implItems_blocks is h.2)
end

/-- What the theorems about the text assume of external code. -/
theorem lite_text : TextSyntax world where
  text c ss h := by
    have h : parseBlock c = some ss := h
    simp only [parseBlock] at h
    split at h
    · simp only [Option.some.injEq] at h
      split at h
      · next hc =>
        subst h
        simp only [takenApart, Bool.and_eq_true] at hc
        exact ⟨_, eq_of_beq hc.1, stmts_text _ hc.2⟩
      · subst h
        exact ⟨c, rfl, by simpa using BlockText.cons (.other c) .nil⟩
    · cases h
  statements c ss h := by
    have h : parseBlock c = some ss := h
    have key : BlocksGood goodBlock (stmtsParts ss) := by
      simp only [parseBlock] at h
      split at h
      · next hg =>
        simp only [Option.some.injEq] at h
        split at h
        · next hc =>
          subst h
          simp only [takenApart, Bool.and_eq_true] at hc
          exact stmts_blocks _ hc.2
        · subst h
          exact stmts_blocks _ (by simp [stmtsOk, stmtOk, hg])
      · cases h
    intro ts hp
    obtain ⟨c', rfl, hc⟩ := key ts hp
    simp [Grammar.validBlock, world, syn, parseBlock, hc]
  sites _ _ := by simp [world, cstsPrint, Cst.print]

/-! ## Some of the properties -/

/-- **C66** here: the output is the code with the values of the aliases in it, once for each iteration. -/
theorem lite_meaning {hist : List (Invocation × Luck)} {inv : Invocation} {l : Luck} (hs : Scheduled world hist inv l) {a : PAst}
    (ha : Reads world inv a) (hn : withSemicolons a.spec = false) (hw : stmtsNoWhere a.block = a.block) {body : Toks} (hc : Code inv body) {ts : Toks}
    (hk : ∀ its, InForce a its → ∀ defs ∈ its, ∀ s ∈ itemKeywords, s ∉ defs.map (·.1)) (h : output world hist inv l = .tokens ts) :
    ∃ (its : List (List (Str × Expr))) (cs : List Toks), InForce a its ∧ ts = cs.flatten ∧ cs.length = its.length ∧
      ∀ (i : Nat) (defs : List (Str × Expr)), its[i]? = some defs →
        ∃ vs, outcome ext (Env.builtin (l.ids 0)) defs = .ok vs ∧ ∀ fmt, FormatsAll ext vs fmt →
          ∃ c, cs[i]? = some c ∧ unspaced c = unspaced (substAll (valueToks vs) (litWith ext fmt) body) :=
  C66_text lite_text hs ha hn hw hc hk h

/-- Keywords and functions are reserved. -/
theorem reserved_keyword : ∀ n ∈ Verif.keywords, Reserved n := fun n hn => .inl (by simp [Special, hn])

/-- **C64** here: renaming an alias everywhere in the input does not change the output. -/
theorem lite_renamed {m : Leafmap} {x y : Str} (hm : m.name = newName x y) (hx : ¬ Reserved x) (hy : ¬ Reserved y)
    {hist hist' : List (Invocation × Luck)} {inv : Invocation} {l l' : Luck} {a : PAst} (hs : Scheduled world hist inv l) (ha : Reads world inv a)
    (hs' : Scheduled world hist' (replacedIn m inv) l') (hseed : l.ids 0 = l'.ids 0 ∨ NoHash a) (hn : withSemicolons a.spec = false)
    (hw : stmtsNoWhere a.block = a.block) (hw' : ∀ a', Reads world (replacedIn m inv) a' → stmtsNoWhere a'.block = a'.block)
    {body : Toks} (hc : Code inv body) {its : List (List (Str × Expr))} (hi : InForce a its) (hr : ∀ d ∈ its, Renamable m x y d)
    (hkw : ∀ s ∈ itemKeywords, s ≠ y ∧ ∀ d ∈ its, s ∉ d.map (·.1))
    (hp : strLits (fun r v => RenStr CharClass.ascii x y v (m.text r v).2) body) (hu : ¬ uses CharClass.ascii y body) {ts ts' : Toks}
    (h : output world hist inv l = .tokens ts) (h' : output world hist' (replacedIn m inv) l' = .tokens ts') : unspaced ts' = unspaced ts :=
  C64_text lite_text reserved_keyword (fun _ => .inr) lite_blindSyn hm hx hy hs ha hs' hseed hn hw hw' hc hi hr hkw hp hu h h'

end Verif.Lite
