import Verif.Spec.Items
import Verif.Model.Visitor
import Verif.Proofs.Subst
/-! # The block visitor substitutes the pieces of the block one after the other -/

namespace Verif
open Spec VisitM

variable {E : Ext} {G : Grammar} {subs : Subs} {q : Toks → Toks}

theorem Spec.Coarse.flatten {q : Toks → Toks} (h : Coarse q) (xs : List Toks) : q xs.flatten = (xs.map q).flatten := by
  induction xs with
  | nil => exact h.nil
  | cons x xs ih => simp [h.append, ih]

/-- The pieces substituted in order, up to the first failure. -/
def runParts (E : Ext) (G : Grammar) (subs : Subs) : Parts → Res Unit
  | [] => .ok ()
  | p :: ps => (substituteIdents E (validPart G p.1) subs p.2).bind fun _ => runParts E G subs ps

theorem runParts_append (ps qs : Parts) :
    runParts E G subs (ps ++ qs) = (runParts E G subs ps).bind fun _ => runParts E G subs qs := by
  induction ps with
  | nil => rfl
  | cons p ps ih =>
    simp only [List.cons_append, runParts, ih]
    cases substituteIdents E (validPart G p.1) subs p.2 <;> simp

/-- What a run of a visitor method amounts to: `m` substitutes the pieces `ps` and, if that succeeds, returns something
satisfying `R`. -/
def Does (E : Ext) (G : Grammar) (subs : Subs) {α : Type} (m : VisitM α) (ps : Parts) (R : α → Prop) : Prop :=
  (∀ p ∈ ps, p.1 = .block → validPart G p.1 p.2 = true) →
  match runParts E G subs ps with
  | .ok () => ∃ y, m none = .ok (y, none) ∧ R y
  | .err e => ∃ y, m none = .ok (y, some e)
  | .panic => m none = .panic

theorem Does.imp {α} {m : VisitM α} {ps} {R R' : α → Prop} (h : Does E G subs m ps R) (hr : ∀ y, R y → R' y) :
    Does E G subs m ps R' := by
  intro hb
  have := h hb
  revert this
  cases runParts E G subs ps with
  | ok a => rintro ⟨y, h1, h2⟩; exact ⟨y, h1, hr y h2⟩
  | err e => exact id
  | panic => exact id

theorem Does.ret {α} {y : α} {R : α → Prop} (h : R y) : Does E G subs (pure y) [] R := fun _ => ⟨y, rfl, h⟩

/-- Last step of a method: the result is packed up. -/
theorem Does.last {α β} {m : VisitM α} {ps} {R : α → Prop} {R' : β → Prop} {f : α → β} (h : Does E G subs m ps R)
    (hr : ∀ y, R y → R' (f y)) : Does E G subs (m >>= fun y => pure (f y)) ps R' := by
  intro hb
  have := h hb
  simp only [bind, StateT.bind, Res.bind] at *
  revert this
  cases runParts E G subs ps with
  | ok a => rintro ⟨y, h1, h2⟩; exact ⟨f y, by rw [h1]; rfl, hr y h2⟩
  | err e => rintro ⟨y, h1⟩; exact ⟨f y, by rw [h1]; rfl⟩
  | panic => intro h1; simp [h1]

/-- A step of a method followed by `check_error!`. -/
theorem Does.step {α β} {m : VisitM α} {k : α → VisitM β} {f : α → β} {ps qs} {R : α → Prop} {R' : β → Prop}
    (h : Does E G subs m ps R) (hk : ∀ y, R y → Does E G subs (k y) qs R') :
    Does E G subs (m >>= fun y => failed >>= fun b => if b = true then pure (f y) else k y) (ps ++ qs) R' := by
  intro hb
  have h1 := h (fun p hp => hb p (by simp [hp]))
  rw [runParts_append]
  simp only [bind, StateT.bind, Res.bind, failed] at *
  revert h1
  cases runParts E G subs ps with
  | ok a =>
    rintro ⟨y, h1, h2⟩
    have h3 := hk y h2 (fun p hp => hb p (by simp [hp]))
    simp only [h1]
    revert h3
    simp
  | err e =>
    rintro ⟨y, h1⟩
    simp only [h1]
    exact ⟨f y, by simp; rfl⟩
  | panic => intro h1; simp [h1]

/-- The `check_error!` at the beginning of a method. -/
theorem Does.check {β} {k : VisitM β} {y : β} {ps} {R : β → Prop} (hk : Does E G subs k ps R) :
    Does E G subs (failed >>= fun b => if b = true then pure y else k) ps R := by
  intro hb
  have h3 := hk hb
  revert h3
  simp [bind, StateT.bind, Res.bind, failed]

abbrev sub (E : Ext) (subs : Subs) : Toks → Toks := substAll (lookToks subs) (strLit E subs)

theorem does_node {α} {valid : Toks → Bool} {parse : Toks → Option α} {toks : Toks} {node : α} (pk : PartKind)
    (hv : validPart G pk = valid) (hp : ∀ ts, valid ts = true → (parse ts).isSome) :
    Does E G subs (visitNode E subs valid parse toks node) [(pk, toks)]
      (fun y => parse (sub E subs toks) = some y ∧ valid (sub E subs toks) = true) := by
  unfold visitNode
  apply Does.check
  intro _
  simp only [runParts, hv]
  cases h : substituteIdents E valid subs toks with
  | ok ts =>
    obtain ⟨h1, h2⟩ := substituteIdents_ok h
    have := hp ts h2
    obtain ⟨y, hy⟩ := Option.isSome_iff_exists.1 this
    refine ⟨y, by simp [hy]; rfl, ?_⟩
    rw [sub, ← h1]; exact ⟨hy, h2⟩
  | err e => exact ⟨node, by simp [fail, bind, StateT.bind, Res.bind]; rfl⟩
  | panic => rfl

theorem does_mut (k : NodeKind) (ts : Toks) :
    Does E G subs (visitMut E G subs k ts) [(.node k, ts)] (fun y => y = sub E subs ts) :=
  (does_node (.node k) rfl (by simp)).imp (by simp +contextual)

theorem does_opt (k : NodeKind) (o : Option Toks) :
    Does E G subs (visitOpt E G subs k o) (optPart k o) (fun y => y = o.map (sub E subs)) := by
  cases o with
  | none => exact Does.ret rfl
  | some ts => exact (does_mut k ts).last (by simp)

/-! ## Attributes -/

theorem sub_cons (t : Tok) (ts : Toks) : sub E subs (t :: ts) = substTok (lookToks subs) (strLit E subs) t ++ sub E subs ts := by
  simp [sub, substAll]

theorem sub_append (a b : Toks) : sub E subs (a ++ b) = sub E subs a ++ sub E subs b := substAll_append ..

@[simp] theorem sub_nil : sub E subs [] = [] := by simp [sub, substAll]

theorem sub_punct (c : Char) (j : Bool) (ts : Toks) : sub E subs (.punct c j :: ts) = .punct c j :: sub E subs ts := by
  simp [sub, substAll, substTok]

theorem sub_group (d : Delim) (us ts : Toks) :
    sub E subs (.group d us :: ts) = .group d (sub E subs us) :: sub E subs ts := by
  simp [sub, substAll, substTok]

theorem parseOuter_none {ok : Toks → Bool} {ts : Toks} (h1 : ts ≠ []) (h2 : ∀ j body us, ts ≠ .punct '#' j :: .group .bracket body :: us) :
    Attr.parseOuter ok ts = none := by
  fun_cases Attr.parseOuter ok ts with
  | case1 => exact absurd rfl h1
  | case2 j body us hk => exact absurd rfl (h2 _ _ _)
  | case3 j body us hk => rfl
  | case4 ts _ _ => rfl

theorem parseOuter_toks {ok : Toks → Bool} {as as' : List Attr}
    (h : Attr.parseOuter ok (sub E subs (as.flatMap Attr.toks)) = some as') :
    as.filter (fun a => !a.inner) = as ∧ as.filter (fun a => a.inner) = [] ∧
    as'.filter (fun a => !a.inner) = as' ∧ as'.filter (fun a => a.inner) = [] ∧
    as'.flatMap Attr.toks = sub E subs (as.flatMap Attr.toks) := by
  induction as generalizing as' with
  | nil => simp [Attr.parseOuter] at h; subst h; simp
  | cons a as ih =>
    obtain ⟨inner, body⟩ := a
    cases inner with
    | true => simp [Attr.toks, sub_punct, sub_group, Attr.parseOuter] at h
    | false =>
      simp only [List.flatMap_cons, Attr.toks, Bool.false_eq_true, if_false, List.nil_append, List.cons_append,
        sub_punct, sub_group, Attr.parseOuter] at h
      split at h
      · obtain ⟨as2, h2, rfl⟩ := Option.map_eq_some_iff.1 h
        obtain ⟨i1, i2, i3, i4, i5⟩ := ih h2
        refine ⟨by simp [i1], by simpa using i2, by simp [i3], by simpa using i4, ?_⟩
        simp [Attr.toks, sub_punct, sub_group, i5]
      · cases h

/-- Attributes before and after. -/
def AttrsSub (E : Ext) (subs : Subs) (as as' : List Attr) : Prop :=
  outerToks as' = sub E subs (outerToks as) ∧ innerToks as' = [] ∧ innerToks as = []

theorem does_attrs (as : List Attr) :
    Does E G subs (visitAttrs E G subs as) (attrParts as) (AttrsSub E subs as) := by
  unfold visitAttrs
  apply Does.check
  refine (does_node .attrs rfl (fun ts h => h)).imp ?_
  rintro y ⟨h1, -⟩
  obtain ⟨i1, i2, i3, i4, i5⟩ := parseOuter_toks h1
  exact ⟨by simp [outerToks, i1, i3, i5], by simp [innerToks, i4], by simp [innerToks, i2]⟩

/-! ## Fields and variants -/

theorem does_each {α} {visit : α → VisitM α} {parts : α → Parts} {toks : α → Toks}
    (h : ∀ x, Does E G subs (visit x) (parts x) (fun y => toks y = sub E subs (toks x))) (xs : List α) :
    Does E G subs (visitEach visit xs) (xs.flatMap parts) (fun ys => ys.map toks = xs.map (fun x => sub E subs (toks x))) := by
  induction xs with
  | nil => exact Does.ret rfl
  | cons x xs ih =>
    rw [List.flatMap_cons]
    refine (h x).step (fun y hy => ?_)
    exact ih.last (by intro ys hys; simp [hy, hys])

theorem sub_sepToks (c : Char) (t : Bool) (xs : List Toks) :
    sub E subs (sepToks c t xs) = sepToks c t (xs.map (sub E subs)) := by
  fun_induction sepToks c t xs with
  | case1 => simp [sepToks]
  | case2 x => cases t <;> simp [sepToks, sub_append, sub_punct]
  | case3 x xs hx ih =>
    rw [sub_append, sub_punct, ih]
    cases xs with
    | nil => simp at hx
    | cons y ys => simp [sepToks]

theorem does_punct {α} {visit : α → VisitM α} {parts : α → Parts} {toks : α → Toks}
    (h : ∀ x, Does E G subs (visit x) (parts x) (fun y => toks y = sub E subs (toks x))) (c : Char) (p : Punctuated α) :
    Does E G subs (visitPunct visit p) (p.items.flatMap parts)
      (fun q => q.toks toks c = sub E subs (p.toks toks c) ∧ q.items.isEmpty = p.items.isEmpty) := by
  refine (does_each h p.items).last ?_
  intro ys hys
  refine ⟨?_, ?_⟩
  · simp only [Punctuated.toks, hys, sub_sepToks, List.map_map]
    rfl
  · have := congrArg List.length hys
    simp only [List.length_map] at this
    cases ys <;> cases hp : p.items <;> simp_all

theorem does_field (f : Field) :
    Does E G subs (visitField E G subs f) (fieldParts f) (fun y => y.toks = sub E subs f.toks) := by
  unfold visitField
  apply Does.check
  simp only [fieldParts, List.append_assoc]
  refine (does_attrs f.attrs).step (fun as has => ?_)
  refine (does_mut .vis f.vis).step (fun vis hvis => ?_)
  refine (does_opt .ident f.ident).step (fun i hi => ?_)
  refine (does_mut .type f.ty).last (fun ty hty => ?_)
  subst hvis hi hty
  simp only [Field.toks, has.1, sub_append]
  cases f.ident <;> simp [sub_append, sub_punct]

theorem does_fields (f : Fields) :
    Does E G subs (visitFields E G subs f) (fieldsParts f) (fun y => ∀ semi,
      (∀ w, sub E subs w = w → sub E subs semi = semi → y.toks w semi = sub E subs (f.toks w semi))) := by
  unfold visitFields
  apply Does.check
  cases f with
  | named fs =>
    refine (does_punct does_field ',' fs).last ?_
    rintro y ⟨h, -⟩ semi w hw hs
    simp only [Fields.toks, h, sub_append, sub_group, hw, sub_nil]
  | unnamed fs =>
    refine (does_punct does_field ',' fs).last ?_
    rintro y ⟨h, -⟩ semi w hw hs
    simp only [Fields.toks, h, sub_append, sub_group, hw, hs, List.cons_append]
  | unit => exact Does.ret (by intro semi w hw hs; simp [Fields.toks, sub_append, hw, hs])

theorem does_variant (v : Variant) :
    Does E G subs (visitVariant E G subs v) (variantParts v) (fun y => y.toks = sub E subs v.toks) := by
  unfold visitVariant
  simp only [variantParts, List.append_assoc]
  refine (does_attrs v.attrs).step (fun as has => ?_)
  refine (does_mut .ident v.ident).step (fun vis hvis => ?_)
  refine (does_fields v.fields).step (fun i hi => ?_)
  refine (does_opt .expr v.discriminant).last (fun ty hty => ?_)
  subst hvis hty
  simp only [Variant.toks, has.1, sub_append, hi [] [] (by simp) (by simp)]
  cases v.discriminant <;> simp [sub_punct]

/-! ## Items -/

theorem does_generics (h : Head) :
    Does E G subs (visitGenerics E G subs h) [(.node .generics, h.generics)]
      (fun y => y = ⟨h.attrs, sub E subs h.generics, []⟩) := by
  unfold visitGenerics
  apply Does.check
  intro _
  simp only [runParts, validPart]
  cases hs : substituteIdents E (G.valid .generics) subs h.generics with
  | ok ts =>
    obtain ⟨h1, h2⟩ := substituteIdents_ok hs
    exact ⟨_, rfl, by rw [h1]⟩
  | err e => exact ⟨h, by simp [fail, bind, StateT.bind, Res.bind]; rfl⟩
  | panic => rfl

/-- The beginning of an item before and after. -/
def HeadSub (E : Ext) (subs : Subs) (h : Head) (vis ident : Toks) (y : Head × Toks × Toks) : Prop :=
  AttrsSub E subs h.attrs y.1.attrs ∧ y.2.1 = sub E subs vis ∧ y.2.2 = sub E subs ident ∧
    y.1.generics = sub E subs h.generics ∧ y.1.whereClause = []

theorem does_head (h : Head) (vis ident : Toks) :
    Does E G subs (visitHead E G subs h vis ident) (headParts h vis ident) (HeadSub E subs h vis ident) := by
  unfold visitHead
  apply Does.check
  show Does _ _ _ _ (attrParts h.attrs ++ ([(PartKind.node .vis, vis)] ++ ([(PartKind.node .ident, ident)] ++
    [(PartKind.node .generics, h.generics)]))) _
  refine (does_attrs h.attrs).step (fun as has => ?_)
  refine (does_mut .vis vis).step (fun v hv => ?_)
  refine (does_mut .ident ident).step (fun i hi => ?_)
  refine (does_generics { h with attrs := as }).last (fun g hg => ?_)
  subst hg
  exact ⟨has, hv, hi, rfl, rfl⟩

theorem does_implTrait (o : Option (Bool × Toks)) :
    Does E G subs (visitImplTrait E G subs o) (optPart .path (o.map (·.2)))
      (fun y => y = o.map (fun p => (p.1, sub E subs p.2))) := by
  cases o with
  | none => exact Does.ret rfl
  | some p => exact (does_mut .path p.2).last (by simp)

/-- Parsing the statements of a block and printing them gives the same tokens, as far as `q` tells. -/
def Lossless (q : Toks → Toks) (G : Grammar) : Prop := ∀ c ss, G.parseBlock c = some ss → q (stmtsToks ss) = q c

/-- Keywords of items are not aliases. -/
def NoKeywords (subs : Subs) : Prop := ∀ s ∈ itemKeywords, lookToks subs s = none

theorem sub_kw {s : String} (hk : NoKeywords subs) (hs : S s ∈ itemKeywords) : sub E subs (kw s) = kw s := by
  simp [kw, sub, substAll, substTok, hk _ hs]

theorem sub_kwIf {s : String} (hk : NoKeywords subs) (hs : S s ∈ itemKeywords) (b : Bool) :
    sub E subs (kwIf b s) = kwIf b s := by
  cases b <;> simp [kwIf, sub_kw hk hs]

theorem does_other (ts : Toks) :
    Does E G subs (visitOther E G subs ts) [(.block, [.group .brace ts])]
      (fun y => Lossless q G → q (stmtsToks y) = q (sub E subs ts)) := by
  intro hb
  have hv := hb (.block, [.group .brace ts]) (by simp) rfl
  simp only [validPart, Grammar.validBlock] at hv
  obtain ⟨ss, hss⟩ := Option.isSome_iff_exists.1 hv
  unfold visitOther
  simp only [hss]
  refine (does_node (α := List Stmt) .block rfl ?_).imp ?_ hb
  · intro c hc
    simp only [validPart, Grammar.validBlock] at hc
    split at hc
    · exact hc
    · cases hc
  · rintro y ⟨h, -⟩ hG
    simp only [sub_group, sub_nil] at h
    exact hG _ _ h

theorem stmtsToks_append (a b : List Stmt) : stmtsToks (a ++ b) = stmtsToks a ++ stmtsToks b := by
  induction a with
  | nil => rfl
  | cons s a ih => simp [stmtsToks, ih]

theorem sub_flatten (xs : List Toks) : sub E subs xs.flatten = (xs.map (sub E subs)).flatten := by
  induction xs with
  | nil => simp
  | cons x xs ih => simp [sub_append, ih]

theorem sub_implTrait (hk : NoKeywords subs) (o : Option (Bool × Toks)) :
    sub E subs (implTraitToks o) = implTraitToks (o.map (fun p => (p.1, sub E subs p.2))) := by
  rcases o with - | ⟨b, p⟩
  · simp [implTraitToks]
  · cases b <;> simp [implTraitToks, sub_append, sub_punct, sub_kw hk (s := "for") (by decide)]

/-- What the result depends on. -/
structure Cond (q : Toks → Toks) (G : Grammar) (subs : Subs) : Prop where
  noKeywords : NoKeywords subs
  lossless : Lossless q G
  coarse : Coarse q

mutual
theorem does_stmt (s : Stmt) :
    Does E G subs (visitStmt E G subs s) (stmtParts s) (fun y => Cond q G subs → q (stmtsToks y) = q (sub E subs (stmtNoWhere s).toks)) := by
  match s with
  | .item i =>
    unfold visitStmt
    simp only [stmtParts, stmtNoWhere, Stmt.toks]
    exact (does_item i).last (fun y hy hc => by simp [stmtsToks, Stmt.toks, hy hc])
  | .other ts =>
    unfold visitStmt
    simp only [stmtParts, stmtNoWhere, Stmt.toks]
    exact (does_other ts).imp (fun y hy hc => hy hc.lossless)
theorem does_stmts (ss : List Stmt) :
    Does E G subs (visitStmts E G subs ss) (stmtsParts ss) (fun y => Cond q G subs → q (stmtsToks y) = q (sub E subs (stmtsToks (stmtsNoWhere ss)))) := by
  match ss with
  | [] => unfold visitStmts; exact Does.ret (by simp [stmtsNoWhere, stmtsToks])
  | s :: ss =>
    unfold visitStmts
    simp only [stmtsParts, stmtsNoWhere, stmtsToks]
    refine (does_stmt s).step (fun y hy => ?_)
    exact (does_stmts ss).last (fun z hz hc => by rw [stmtsToks_append, sub_append, hc.coarse.append, hc.coarse.append, hy hc, hz hc])
theorem does_item (i : Item) :
    Does E G subs (visitItem E G subs i) (itemParts i) (fun y => Cond q G subs → q y.toks = q (sub E subs (itemNoWhere i).toks)) := by
  match i with
  | .fn attrs vis sig block =>
    unfold visitItem
    simp only [itemParts, itemNoWhere, Item.toks]
    apply Does.check
    show Does _ _ _ _ (attrParts attrs ++ ([(PartKind.node .vis, vis)] ++ ([(PartKind.node .sig, sig)] ++ stmtsParts block))) _
    refine (does_attrs attrs).step (fun as has => ?_)
    refine (does_mut .vis vis).step (fun v hv => ?_)
    refine (does_mut .sig sig).step (fun g hg => ?_)
    refine (does_stmts block).last (fun b hb hc => ?_)
    subst hv hg
    simp [Item.toks, hc.coarse.append, hc.coarse.group, hc.coarse.nil, sub_append, sub_group, has.1, has.2.1, has.2.2, hb hc]
  | .struct h vis ident fields =>
    unfold visitItem
    simp only [itemParts, itemNoWhere, Item.toks, headNoWhere]
    refine (does_head h vis ident).step (fun y hy => ?_)
    obtain ⟨h', vis', ident'⟩ := y
    obtain ⟨h1, h2, h3, h4, h5⟩ := hy
    simp only at h1 h2 h3 h4 h5
    refine (does_fields fields).last (fun f hf hc => ?_)
    simp only [Item.toks, sub_append, h1.1, h2, h3, h4, h5, sub_kw hc.noKeywords (s := "struct") (by decide)]
    rw [hf [.punct ';' false] [] (by simp) (by simp [sub_punct])]
  | .enum h vis ident variants =>
    unfold visitItem
    simp only [itemParts, itemNoWhere, Item.toks, headNoWhere]
    refine (does_head h vis ident).step (fun y hy => ?_)
    obtain ⟨h', vis', ident'⟩ := y
    obtain ⟨h1, h2, h3, h4, h5⟩ := hy
    simp only at h1 h2 h3 h4 h5
    refine (does_punct does_variant ',' variants).last (fun f hf hc => ?_)
    simp [Item.toks, hc.coarse.append, hc.coarse.group, hc.coarse.nil, sub_append, sub_group, h1.1, h2, h3, h4, h5, sub_kw hc.noKeywords (s := "enum") (by decide), hf.1]
  | .union h vis ident fields =>
    unfold visitItem
    simp only [itemParts, itemNoWhere, Item.toks, headNoWhere]
    refine (does_head h vis ident).step (fun y hy => ?_)
    obtain ⟨h', vis', ident'⟩ := y
    obtain ⟨h1, h2, h3, h4, h5⟩ := hy
    simp only at h1 h2 h3 h4 h5
    refine (does_punct does_field ',' fields).last (fun f hf hc => ?_)
    simp [Item.toks, hc.coarse.append, hc.coarse.group, hc.coarse.nil, sub_append, sub_group, h1.1, h2, h3, h4, h5, sub_kw hc.noKeywords (s := "union") (by decide), hf.1]
  | .trait h vis u a ident supertraits items =>
    unfold visitItem
    simp only [itemParts, itemNoWhere, Item.toks, headNoWhere, List.append_assoc]
    refine (does_head h vis ident).step (fun y hy => ?_)
    obtain ⟨h', vis', ident'⟩ := y
    obtain ⟨h1, h2, h3, h4, h5⟩ := hy
    simp only at h1 h2 h3 h4 h5
    have hb : supertraits.items.map (PartKind.node .bound, ·) =
        supertraits.items.flatMap (fun t => [(PartKind.node .bound, t)]) := by
      induction supertraits.items with
      | nil => rfl
      | cons t ts ih => simp [ih]
    rw [hb]
    refine (does_punct (toks := id) (does_mut .bound) '+' supertraits).step (fun sp hsp => ?_)
    refine (does_traitItems items).last (fun f hf hc => ?_)
    have hs : superToks sp = sub E subs (superToks supertraits) := by
      simp only [superToks, hsp.2]
      split
      · simp
      · rw [sub_punct, hsp.1]
    simp [Item.toks, hc.coarse.append, hc.coarse.group, hc.coarse.nil, sub_append, sub_group, h1.1, h1.2.1, h1.2.2, h2, h3, h4, h5, sub_kw hc.noKeywords (s := "trait") (by decide),
      sub_kwIf hc.noKeywords (s := "unsafe") (by decide), sub_kwIf hc.noKeywords (s := "auto") (by decide), hf hc, hs]
  | .impl h d u trait_ selfTy items =>
    unfold visitItem
    simp only [itemParts, itemNoWhere, Item.toks, headNoWhere, List.append_assoc]
    apply Does.check
    refine (does_attrs h.attrs).step (fun as has => ?_)
    refine (does_generics { h with attrs := as }).step (fun g hg => ?_)
    refine (does_implTrait trait_).step (fun t ht => ?_)
    refine (does_mut .type selfTy).step (fun ty hty => ?_)
    refine (does_implItems items).last (fun f hf hc => ?_)
    subst hg ht hty
    simp [Item.toks, hc.coarse.append, hc.coarse.group, hc.coarse.nil, sub_append, sub_group, has.1, has.2.1, has.2.2, sub_kw hc.noKeywords (s := "impl") (by decide),
      sub_kwIf hc.noKeywords (s := "unsafe") (by decide), sub_kwIf hc.noKeywords (s := "default") (by decide), hf hc, sub_implTrait hc.noKeywords]
  | .mod attrs vis u ident none =>
    unfold visitItem
    simp only [itemParts, itemNoWhere, List.append_assoc]
    apply Does.check
    refine (does_attrs attrs).step (fun as has => ?_)
    show Does _ _ _ _ ([(PartKind.node .vis, vis)] ++ ([(PartKind.node .ident, ident)] ++ _)) _
    refine (does_mut .vis vis).step (fun v hv => ?_)
    refine (does_mut .ident ident).step (fun g hg => ?_)
    subst hv hg
    refine Does.ret (fun hc => ?_)
    simp [Item.toks, hc.coarse.append, sub_append, sub_punct, has.1, sub_kw hc.noKeywords (s := "mod") (by decide),
      sub_kwIf hc.noKeywords (s := "unsafe") (by decide)]
  | .mod attrs vis u ident (some items) =>
    unfold visitItem
    simp only [itemParts, itemNoWhere, List.append_assoc]
    apply Does.check
    refine (does_attrs attrs).step (fun as has => ?_)
    show Does _ _ _ _ ([(PartKind.node .vis, vis)] ++ ([(PartKind.node .ident, ident)] ++ _)) _
    refine (does_mut .vis vis).step (fun v hv => ?_)
    refine (does_mut .ident ident).step (fun g hg => ?_)
    subst hv hg
    refine (does_items items).last (fun b hb hc => ?_)
    simp [Item.toks, hc.coarse.append, hc.coarse.group, hc.coarse.nil, sub_append, sub_group, has.1, has.2.1, has.2.2, sub_kw hc.noKeywords (s := "mod") (by decide),
      sub_kwIf hc.noKeywords (s := "unsafe") (by decide), hb hc]
  | .foreignMod attrs u abi items =>
    unfold visitItem
    simp only [itemParts, itemNoWhere, Item.toks, List.append_assoc]
    apply Does.check
    refine (does_attrs attrs).step (fun as has => ?_)
    refine (does_opt .litStr abi).step (fun v hv => ?_)
    have hb : items.map (PartKind.node .foreignItem, ·) = items.flatMap (fun t => [(PartKind.node .foreignItem, t)]) := by
      induction items with
      | nil => rfl
      | cons t ts ih => simp [ih]
    rw [hb]
    refine (does_each (toks := id) (does_mut .foreignItem) items).last (fun f hf hc => ?_)
    subst hv
    simp only [List.map_id, id] at hf
    subst hf
    cases abi <;> simp [Item.toks, hc.coarse.append, hc.coarse.group, hc.coarse.nil, sub_append, sub_group, has.1, has.2.1, has.2.2, sub_kw hc.noKeywords (s := "extern") (by decide),
      sub_kwIf hc.noKeywords (s := "unsafe") (by decide), sub_flatten]
  | .other ts =>
    unfold visitItem
    simp only [itemParts, itemNoWhere, Item.toks]
    exact (does_mut .item ts).last (by simp +contextual [Item.toks])
theorem does_items (is : List Item) :
    Does E G subs (visitItems E G subs is) (itemsParts is) (fun y => Cond q G subs → q (itemsToks y) = q (sub E subs (itemsToks (itemsNoWhere is)))) := by
  match is with
  | [] => unfold visitItems; exact Does.ret (by simp [itemsNoWhere, itemsToks])
  | s :: ss =>
    unfold visitItems
    simp only [itemsParts, itemsNoWhere, itemsToks]
    refine (does_item s).step (fun y hy => ?_)
    exact (does_items ss).last (fun z hz hc => by rw [itemsToks, sub_append, hc.coarse.append, hc.coarse.append, hy hc, hz hc])
theorem does_traitItem (i : TraitItem) :
    Does E G subs (visitTraitItem E G subs i) (traitItemParts i) (fun y => Cond q G subs → q y.toks = q (sub E subs (traitItemNoWhere i).toks)) := by
  match i with
  | .fn attrs sig none =>
    unfold visitTraitItem
    simp only [traitItemParts, traitItemNoWhere, List.append_assoc]
    apply Does.check
    refine (does_attrs attrs).step (fun as has => ?_)
    refine (does_mut .sig sig).step (fun g hg => ?_)
    subst hg
    exact Does.ret (fun hc => by simp [TraitItem.toks, hc.coarse.append, sub_append, sub_punct, has.1])
  | .fn attrs sig (some block) =>
    unfold visitTraitItem
    simp only [traitItemParts, traitItemNoWhere, List.append_assoc]
    apply Does.check
    refine (does_attrs attrs).step (fun as has => ?_)
    refine (does_mut .sig sig).step (fun g hg => ?_)
    subst hg
    refine (does_stmts block).last (fun b hb hc => ?_)
    simp [TraitItem.toks, hc.coarse.append, hc.coarse.group, hc.coarse.nil, sub_append, sub_group, has.1, has.2.1, has.2.2, hb hc]
  | .other ts =>
    unfold visitTraitItem
    simp only [traitItemParts, traitItemNoWhere, TraitItem.toks]
    exact (does_mut .traitItem ts).last (by simp +contextual [TraitItem.toks])
theorem does_traitItems (is : List TraitItem) :
    Does E G subs (visitTraitItems E G subs is) (traitItemsParts is)
      (fun y => Cond q G subs → q (traitItemsToks y) = q (sub E subs (traitItemsToks (traitItemsNoWhere is)))) := by
  match is with
  | [] => unfold visitTraitItems; exact Does.ret (by simp [traitItemsNoWhere, traitItemsToks])
  | s :: ss =>
    unfold visitTraitItems
    simp only [traitItemsParts, traitItemsNoWhere, traitItemsToks]
    refine (does_traitItem s).step (fun y hy => ?_)
    exact (does_traitItems ss).last (fun z hz hc => by rw [traitItemsToks, sub_append, hc.coarse.append, hc.coarse.append, hy hc, hz hc])
theorem does_implItem (i : ImplItem) :
    Does E G subs (visitImplItem E G subs i) (implItemParts i) (fun y => Cond q G subs → q y.toks = q (sub E subs (implItemNoWhere i).toks)) := by
  match i with
  | .fn attrs vis d sig block =>
    unfold visitImplItem
    simp only [implItemParts, implItemNoWhere, ImplItem.toks]
    apply Does.check
    show Does _ _ _ _ (attrParts attrs ++ ([(PartKind.node .vis, vis)] ++ ([(PartKind.node .sig, sig)] ++ stmtsParts block))) _
    refine (does_attrs attrs).step (fun as has => ?_)
    refine (does_mut .vis vis).step (fun v hv => ?_)
    refine (does_mut .sig sig).step (fun g hg => ?_)
    refine (does_stmts block).last (fun b hb hc => ?_)
    subst hv hg
    simp [ImplItem.toks, hc.coarse.append, hc.coarse.group, hc.coarse.nil, sub_append, sub_group, has.1, has.2.1, has.2.2, hb hc, sub_kwIf hc.noKeywords (s := "default") (by decide)]
  | .other ts =>
    unfold visitImplItem
    simp only [implItemParts, implItemNoWhere, ImplItem.toks]
    exact (does_mut .implItem ts).last (by simp +contextual [ImplItem.toks])
theorem does_implItems (is : List ImplItem) :
    Does E G subs (visitImplItems E G subs is) (implItemsParts is)
      (fun y => Cond q G subs → q (implItemsToks y) = q (sub E subs (implItemsToks (implItemsNoWhere is)))) := by
  match is with
  | [] => unfold visitImplItems; exact Does.ret (by simp [implItemsNoWhere, implItemsToks])
  | s :: ss =>
    unfold visitImplItems
    simp only [implItemsParts, implItemsNoWhere, implItemsToks]
    refine (does_implItem s).step (fun y hy => ?_)
    exact (does_implItems ss).last (fun z hz hc => by rw [implItemsToks, sub_append, hc.coarse.append, hc.coarse.append, hy hc, hz hc])
end

/-- The whole visit of a block. -/
theorem visitBlock_spec (q : Toks → Toks) (b : List Stmt)
    (hb : ∀ p ∈ stmtsParts b, p.1 = .block → validPart G p.1 p.2 = true) :
    match runParts E G subs (stmtsParts b) with
    | .ok () => ∃ b', visitBlock E G subs b = .ok b' ∧ (Cond q G subs → q (stmtsToks b') = q (sub E subs (stmtsToks (stmtsNoWhere b))))
    | .err e => visitBlock E G subs b = .err e
    | .panic => visitBlock E G subs b = .panic := by
  have h := does_stmts (E := E) (subs := subs) (q := q) b hb
  unfold visitBlock
  revert h
  cases runParts E G subs (stmtsParts b) with
  | ok a => rintro ⟨y, h1, h2⟩; exact ⟨y, by simp [h1], h2⟩
  | err e => rintro ⟨y, h1⟩; simp [h1]
  | panic => intro h1; simp [h1]

end Verif
