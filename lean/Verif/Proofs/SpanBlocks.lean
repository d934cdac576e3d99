import Verif.Proofs.SpanVisitor
/-! # The block visitor with spans is the block visitor -/

namespace Verif
open Spec

variable {σ : Type} {E : Ext} {P : SpanOps σ} {G : GrammarS σ} {subs : SubsS σ}

/-- Whether a block can be parsed, and as what, does not depend on spans. -/
def SameTrees (G : GrammarS σ) : Prop := ∀ ts, (G.parseBlockS ts).map SStmt.eraseL = G.parseBlock (STok.eraseL ts)

theorem SameTrees.blocks (h : SameTrees G) : SameBlocks G := fun ts => by rw [← h ts, Option.isSome_map]

/-- The method `m` does what `m'` does, apart from spans. -/
def Sims {α β : Type} (er : α → β) (m : VisitMS σ α) (m' : VisitM β) : Prop :=
  ∀ st : Option (Err × σ), (m st).map (fun p => (er p.1, p.2.map (·.1))) = m' (st.map (·.1)) ∧ ∀ e, m st ≠ .err e

section
variable {α β γ δ : Type} {er : α → β} {er' : γ → δ}

theorem Sims.pure (a : α) : Sims er (Pure.pure a : VisitMS σ α) (Pure.pure (er a)) := fun _ => ⟨rfl, nofun⟩

theorem Sims.pure' {a : α} {b : β} (h : er a = b) : Sims er (Pure.pure a : VisitMS σ α) (Pure.pure b) := by
  subst h; exact Sims.pure a

theorem Sims.bind {m : VisitMS σ α} {m' : VisitM β} {k : α → VisitMS σ γ} {k' : β → VisitM δ} (h : Sims er m m')
    (hk : ∀ a, Sims er' (k a) (k' (er a))) : Sims er' (m >>= k) (m' >>= k') := by
  intro st
  obtain ⟨h1, h2⟩ := h st
  simp only [Bind.bind, StateT.bind] at h1 ⊢
  rw [← h1]
  cases hm : m st with
  | ok p => simpa [Res.map, Res.bind] using hk p.1 p.2
  | err e => exact absurd hm (h2 e)
  | panic => exact ⟨rfl, nofun⟩

theorem Sims.failed : Sims (σ := σ) id VisitMS.failed VisitM.failed := by
  intro st
  cases st <;> exact ⟨rfl, nofun⟩

/-- `check_error!`. -/
theorem Sims.check {a : γ} {b : δ} {k : VisitMS σ γ} {k' : VisitM δ} (h : er' a = b) (hk : Sims er' k k') :
    Sims er' (VisitMS.failed >>= fun f => if f = true then Pure.pure a else k) (VisitM.failed >>= fun f => if f = true then Pure.pure b else k') := by
  refine Sims.failed.bind fun f => ?_
  cases f
  · simpa using hk
  · simpa using Sims.pure' h

/-- A step followed by `check_error!`. -/
theorem Sims.step {m : VisitMS σ α} {m' : VisitM β} {f : α → γ} {f' : β → δ} {k : α → VisitMS σ γ} {k' : β → VisitM δ} (h : Sims er m m')
    (hf : ∀ a, er' (f a) = f' (er a)) (hk : ∀ a, Sims er' (k a) (k' (er a))) :
    Sims er' (m >>= fun a => VisitMS.failed >>= fun b => if b = true then Pure.pure (f a) else k a)
      (m' >>= fun a => VisitM.failed >>= fun b => if b = true then Pure.pure (f' a) else k' a) :=
  h.bind fun a => Sims.check (hf a) (hk a)

theorem Sims.last {m : VisitMS σ α} {m' : VisitM β} {f : α → γ} {f' : β → δ} (h : Sims er m m') (hf : ∀ a, er' (f a) = f' (er a)) :
    Sims er' (m >>= fun a => Pure.pure (f a)) (m' >>= fun a => Pure.pure (f' a)) :=
  h.bind fun a => Sims.pure' (hf a)
end

theorem sims_node {α β : Type} {er : α → β} {valid : Toks → Bool} {parse : SToks σ → Option α} {parse' : Toks → Option β}
    (hp : ∀ ts, (parse ts).map er = parse' (STok.eraseL ts)) (toks : SToks σ) {node : α} {node' : β} (hn : er node = node') :
    Sims er (visitNodeS E subs valid parse toks node) (visitNode E subs.erase valid parse' (STok.eraseL toks) node') := by
  unfold visitNodeS visitNode
  refine Sims.check hn ?_
  have h := substituteIdentsS_erase (E := E) (valid := valid) (subs := subs) toks
  rw [← h]
  cases substituteIdentsS E valid subs toks with
  | ok ts =>
    simp only [PRes.forget, Res.map]
    rw [← hp]
    cases parse ts with
    | some a => exact Sims.pure a
    | none => exact fun _ => ⟨rfl, nofun⟩
  | err e sp => subst hn; exact fun _ => ⟨rfl, nofun⟩
  | panic => exact fun _ => ⟨rfl, nofun⟩

theorem sims_mut (k : NodeKind) (ts : SToks σ) : Sims STok.eraseL (visitMutS E G subs k ts) (visitMut E G.toGrammar subs.erase k (STok.eraseL ts)) :=
  sims_node (fun _ => rfl) ts rfl

theorem eraseL_append' (a b : SToks σ) : STok.eraseL (a ++ b) = STok.eraseL a ++ STok.eraseL b := by
  induction a with
  | nil => simp [STok.eraseL]
  | cons t a ih => simp [STok.eraseL, ih]

theorem attr_toks_erase (a : SAttr σ) : STok.eraseL a.toks = a.erase.toks := by
  obtain ⟨i, h, b, br, body⟩ := a
  cases i <;> simp [SAttr.toks, SAttr.erase, Attr.toks, STok.eraseL, STok.erase]

theorem attrs_toks_erase (as : List (SAttr σ)) : STok.eraseL (as.flatMap SAttr.toks) = (as.map SAttr.erase).flatMap Attr.toks := by
  induction as with
  | nil => simp [STok.eraseL]
  | cons a as ih => simp [eraseL_append', ih, attr_toks_erase]

theorem parseOuterS_erase (ok : Toks → Bool) (ts : SToks σ) :
    (SAttr.parseOuter ok ts).map (List.map SAttr.erase) = Attr.parseOuter ok (STok.eraseL ts) := by
  have hs := parseOuterS_isSome ok ts
  fun_induction SAttr.parseOuter ok ts with
  | case1 => rfl
  | case2 j h body b ts hk ih =>
    have ih := ih (parseOuterS_isSome ok ts)
    simp only [STok.eraseL, STok.erase, Attr.parseOuter, hk, if_true, ← ih, Option.map_map]
    rfl
  | case3 j h body b ts hk => simp [STok.eraseL, STok.erase, Attr.parseOuter, hk]
  | case4 ts h1 h2 =>
    cases h : Attr.parseOuter ok (STok.eraseL ts) with
    | none => rfl
    | some as => rw [h] at hs; cases hs

theorem sims_attrs (as : List (SAttr σ)) :
    Sims (List.map SAttr.erase) (visitAttrsS E G subs as) (visitAttrs E G.toGrammar subs.erase (as.map SAttr.erase)) := by
  unfold visitAttrsS visitAttrs
  refine Sims.check rfl ?_
  rw [← attrs_toks_erase]
  exact sims_node (parseOuterS_erase _) _ rfl

theorem sims_opt (k : NodeKind) (o : Option (SToks σ)) :
    Sims (Option.map STok.eraseL) (visitOptS E G subs k o) (visitOpt E G.toGrammar subs.erase k (o.map STok.eraseL)) := by
  cases o with
  | none => exact Sims.pure _
  | some ts => exact (sims_mut k ts).last (fun _ => rfl)

theorem sims_field (f : SField σ) : Sims SField.erase (visitFieldS E G subs f) (visitField E G.toGrammar subs.erase f.erase) := by
  unfold visitFieldS visitField
  refine Sims.check rfl ?_
  refine (sims_attrs f.attrs).step (fun _ => rfl) (fun as => ?_)
  refine (sims_mut .vis f.vis).step (fun _ => rfl) (fun v => ?_)
  refine (sims_opt .ident f.ident).step (fun _ => rfl) (fun i => ?_)
  exact (sims_mut .type f.ty).last (fun _ => rfl)

theorem sims_each {α β : Type} {er : α → β} {visit : α → VisitMS σ α} {visit' : β → VisitM β} (h : ∀ x, Sims er (visit x) (visit' (er x)))
    (xs : List α) : Sims (List.map er) (visitEachS visit xs) (visitEach visit' (xs.map er)) := by
  induction xs with
  | nil => exact Sims.pure _
  | cons x xs ih => exact (h x).step (fun _ => rfl) (fun y => ih.last (fun _ => rfl))

theorem sims_punct {α β : Type} {er : α → β} {visit : α → VisitMS σ α} {visit' : β → VisitM β} (h : ∀ x, Sims er (visit x) (visit' (er x)))
    (p : SPunctuated σ α) : Sims (SPunctuated.erase er) (visitPunctS visit p) (visitPunct visit' (p.erase er)) :=
  (sims_each h p.items).last (fun _ => rfl)

theorem sims_fields (f : SFields σ) : Sims SFields.erase (visitFieldsS E G subs f) (visitFields E G.toGrammar subs.erase f.erase) := by
  unfold visitFieldsS visitFields
  refine Sims.check rfl ?_
  cases f with
  | named fs sp => exact (sims_punct sims_field fs).last (fun _ => rfl)
  | unnamed fs sp => exact (sims_punct sims_field fs).last (fun _ => rfl)
  | unit => exact Sims.pure _

theorem sims_variant (v : SVariant σ) : Sims SVariant.erase (visitVariantS E G subs v) (visitVariant E G.toGrammar subs.erase v.erase) := by
  unfold visitVariantS visitVariant
  refine (sims_attrs v.attrs).step (fun _ => rfl) (fun as => ?_)
  refine (sims_mut .ident v.ident).step (fun _ => rfl) (fun i => ?_)
  refine (sims_fields v.fields).step (fun _ => rfl) (fun f => ?_)
  exact (sims_opt .expr v.discriminant).last (fun _ => rfl)

theorem sims_generics (h : SHead σ) : Sims SHead.erase (visitGenericsS E G subs h) (visitGenerics E G.toGrammar subs.erase h.erase) := by
  unfold visitGenericsS visitGenerics
  refine Sims.check rfl ?_
  have hs := substituteIdentsS_erase (E := E) (valid := G.valid .generics) (subs := subs) h.generics
  rw [show h.erase.generics = STok.eraseL h.generics from rfl, ← hs]
  cases substituteIdentsS E (G.valid .generics) subs h.generics with
  | ok ts => exact Sims.pure' (by simp [SHead.erase, STok.eraseL])
  | err e sp => exact fun _ => ⟨rfl, nofun⟩
  | panic => exact fun _ => ⟨rfl, nofun⟩

/-- Without spans. -/
def headErase (x : SHead σ × SToks σ × SToks σ) : Head × Toks × Toks := (x.1.erase, STok.eraseL x.2.1, STok.eraseL x.2.2)

theorem sims_head (h : SHead σ) (vis ident : SToks σ) :
    Sims headErase (visitHeadS E G subs h vis ident) (visitHead E G.toGrammar subs.erase h.erase (STok.eraseL vis) (STok.eraseL ident)) := by
  unfold visitHeadS visitHead
  refine Sims.check rfl ?_
  refine (sims_attrs h.attrs).step (fun _ => rfl) (fun as => ?_)
  refine (sims_mut .vis vis).step (fun _ => rfl) (fun v => ?_)
  refine (sims_mut .ident ident).step (fun _ => rfl) (fun i => ?_)
  exact (sims_generics { h with attrs := as }).last (fun _ => rfl)

theorem sims_implTrait (o : Option (Bool × SToks σ)) :
    Sims (Option.map fun p => (p.1, STok.eraseL p.2)) (visitImplTraitS E G subs o)
      (visitImplTrait E G.toGrammar subs.erase (o.map fun p => (p.1, STok.eraseL p.2))) := by
  cases o with
  | none => exact Sims.pure _
  | some p => exact (sims_mut .path p.2).last (fun _ => rfl)

section
variable (hG : SameTrees G)
include hG
set_option linter.unusedSectionVars false

theorem sims_other (ts : SToks σ) : Sims SStmt.eraseL (visitOtherS E P G subs ts) (visitOther E G.toGrammar subs.erase (STok.eraseL ts)) := by
  unfold visitOtherS visitOther
  rw [← hG]
  cases h : G.parseBlockS ts with
  | none => exact fun _ => ⟨rfl, nofun⟩
  | some ss =>
    have hp := fun parse' => sims_node (parse' := parse') (E := E) (subs := subs) (er := SStmt.eraseL) (valid := G.validBlock) (parse := G.parseBraces) (node := ss)
      (node' := SStmt.eraseL ss) (toks := [.group .brace ts P.callSite])
    simp only [STok.eraseL, STok.erase] at hp
    refine hp _ (fun us => ?_) trivial
    · have hs := parseBraces_isSome hG.blocks us
      unfold Grammar.validBlock at hs
      unfold GrammarS.parseBraces at hs ⊢
      split
      · simp only [STok.eraseL, STok.erase]; exact hG _
      · rename_i hne
        simp only [Option.map_none]
        split
        · rename_i he
          rw [he] at hs
          split at hs
          · rename_i h2; exact absurd rfl (hne _ _)
          · simp only at hs
            cases hb : G.parseBlock _ with
            | none => rfl
            | some _ => rw [hb] at hs; cases hs
        · rfl

theorem stmts_eraseL_append (a b : List (SStmt σ)) : SStmt.eraseL (a ++ b) = SStmt.eraseL a ++ SStmt.eraseL b := by
  induction a with
  | nil => simp [SStmt.eraseL]
  | cons t a ih => simp [SStmt.eraseL, ih]

mutual
theorem sims_stmt (s : SStmt σ) : Sims SStmt.eraseL (visitStmtS E P G subs s) (visitStmt E G.toGrammar subs.erase s.erase) := by
  match s with
  | .item i =>
    unfold visitStmtS
    rw [SStmt.erase, visitStmt]
    exact (sims_item i).last (fun _ => by simp [SStmt.eraseL, SStmt.erase])
  | .other ts =>
    unfold visitStmtS
    rw [SStmt.erase, visitStmt]
    exact sims_other hG ts
theorem sims_stmts (ss : List (SStmt σ)) : Sims SStmt.eraseL (visitStmtsS E P G subs ss) (visitStmts E G.toGrammar subs.erase (SStmt.eraseL ss)) := by
  match ss with
  | [] => unfold visitStmtsS; rw [SStmt.eraseL, visitStmts]; exact Sims.pure' (by simp [SStmt.eraseL])
  | s :: ss =>
    unfold visitStmtsS
    rw [SStmt.eraseL, visitStmts]
    refine (sims_stmt s).step (fun y => stmts_eraseL_append hG y ss) (fun y => ?_)
    exact (sims_stmts ss).last (fun z => stmts_eraseL_append hG y z)
theorem sims_item (i : SItem σ) : Sims SItem.erase (visitItemS E P G subs i) (visitItem E G.toGrammar subs.erase i.erase) := by
  match i with
  | .fn at_ attrs vis sig block =>
    unfold visitItemS
    rw [SItem.erase, visitItem]
    refine Sims.check (by rw [SItem.erase]) ?_
    refine (sims_attrs attrs).step (fun _ => by rw [SItem.erase]) (fun as => ?_)
    refine (sims_mut .vis vis).step (fun _ => by rw [SItem.erase]) (fun v => ?_)
    refine (sims_mut .sig sig).step (fun _ => by rw [SItem.erase]) (fun g => ?_)
    exact (sims_stmts block).last (fun b => by rw [SItem.erase])
  | .struct at_ h vis ident fields =>
    unfold visitItemS
    rw [SItem.erase, visitItem]
    refine (sims_head h vis ident).step (fun _ => by rw [SItem.erase]; rfl) (fun y => ?_)
    exact (sims_fields fields).last (fun _ => by rw [SItem.erase]; rfl)
  | .enum at_ h vis ident variants =>
    unfold visitItemS
    rw [SItem.erase, visitItem]
    refine (sims_head h vis ident).step (fun _ => by rw [SItem.erase]; rfl) (fun y => ?_)
    exact (sims_punct sims_variant variants).last (fun _ => by rw [SItem.erase]; rfl)
  | .union at_ h vis ident fields =>
    unfold visitItemS
    rw [SItem.erase, visitItem]
    refine (sims_head h vis ident).step (fun _ => by rw [SItem.erase]; rfl) (fun y => ?_)
    exact (sims_punct sims_field fields).last (fun _ => by rw [SItem.erase]; rfl)
  | .trait at_ h vis u a ident supertraits items =>
    unfold visitItemS
    rw [SItem.erase, visitItem]
    refine (sims_head h vis ident).step (fun _ => by rw [SItem.erase]; rfl) (fun y => ?_)
    refine (sims_punct (sims_mut .bound) supertraits).step (fun _ => by rw [SItem.erase]; rfl) (fun s => ?_)
    exact (sims_traitItems items).last (fun _ => by rw [SItem.erase]; rfl)
  | .impl at_ h d u trait_ selfTy items =>
    unfold visitItemS
    rw [SItem.erase, visitItem]
    refine Sims.check (by rw [SItem.erase]) ?_
    refine (sims_attrs h.attrs).step (fun _ => by rw [SItem.erase]; rfl) (fun as => ?_)
    refine (sims_generics { h with attrs := as }).step (fun _ => by rw [SItem.erase]) (fun g => ?_)
    refine (sims_implTrait trait_).step (fun _ => by rw [SItem.erase]) (fun t => ?_)
    refine (sims_mut .type selfTy).step (fun _ => by rw [SItem.erase]) (fun ty => ?_)
    exact (sims_implItems items).last (fun _ => by rw [SItem.erase])
  | .mod at_ attrs vis u ident none =>
    unfold visitItemS
    rw [SItem.erase, visitItem]
    refine Sims.check (by rw [SItem.erase]) ?_
    refine (sims_attrs attrs).step (fun _ => by rw [SItem.erase]) (fun as => ?_)
    refine (sims_mut .vis vis).step (fun _ => by rw [SItem.erase]) (fun v => ?_)
    refine (sims_mut .ident ident).step (fun _ => by rw [SItem.erase]) (fun g => ?_)
    exact Sims.pure' (by rw [SItem.erase])
  | .mod at_ attrs vis u ident (some items) =>
    unfold visitItemS
    rw [SItem.erase, visitItem]
    refine Sims.check (by rw [SItem.erase]) ?_
    refine (sims_attrs attrs).step (fun _ => by rw [SItem.erase]) (fun as => ?_)
    refine (sims_mut .vis vis).step (fun _ => by rw [SItem.erase]) (fun v => ?_)
    refine (sims_mut .ident ident).step (fun _ => by rw [SItem.erase]) (fun g => ?_)
    exact (sims_items items).last (fun _ => by rw [SItem.erase])
  | .foreignMod at_ attrs u abi items =>
    unfold visitItemS
    rw [SItem.erase, visitItem]
    refine Sims.check (by rw [SItem.erase]) ?_
    refine (sims_attrs attrs).step (fun _ => by rw [SItem.erase]) (fun as => ?_)
    refine (sims_opt .litStr abi).step (fun _ => by rw [SItem.erase]) (fun v => ?_)
    exact (sims_each (sims_mut .foreignItem) items).last (fun _ => by rw [SItem.erase])
  | .other ts =>
    unfold visitItemS
    rw [SItem.erase, visitItem]
    exact (sims_mut .item ts).last (fun _ => by rw [SItem.erase])
theorem sims_items (is : List (SItem σ)) : Sims SItem.eraseL (visitItemsS E P G subs is) (visitItems E G.toGrammar subs.erase (SItem.eraseL is)) := by
  match is with
  | [] => unfold visitItemsS; rw [SItem.eraseL, visitItems]; exact Sims.pure' (by simp [SItem.eraseL])
  | i :: is =>
    unfold visitItemsS
    rw [SItem.eraseL, visitItems]
    exact (sims_item i).step (fun _ => by rw [SItem.eraseL]) (fun y => (sims_items is).last (fun _ => by rw [SItem.eraseL]))
theorem sims_traitItem (i : STraitItem σ) :
    Sims STraitItem.erase (visitTraitItemS E P G subs i) (visitTraitItem E G.toGrammar subs.erase i.erase) := by
  match i with
  | .fn at_ attrs sig none =>
    unfold visitTraitItemS
    rw [STraitItem.erase, visitTraitItem]
    refine Sims.check (by rw [STraitItem.erase]) ?_
    refine (sims_attrs attrs).step (fun _ => by rw [STraitItem.erase]) (fun as => ?_)
    refine (sims_mut .sig sig).step (fun _ => by rw [STraitItem.erase]) (fun g => ?_)
    exact Sims.pure' (by rw [STraitItem.erase])
  | .fn at_ attrs sig (some block) =>
    unfold visitTraitItemS
    rw [STraitItem.erase, visitTraitItem]
    refine Sims.check (by rw [STraitItem.erase]) ?_
    refine (sims_attrs attrs).step (fun _ => by rw [STraitItem.erase]) (fun as => ?_)
    refine (sims_mut .sig sig).step (fun _ => by rw [STraitItem.erase]) (fun g => ?_)
    exact (sims_stmts block).last (fun _ => by rw [STraitItem.erase])
  | .other ts =>
    unfold visitTraitItemS
    rw [STraitItem.erase, visitTraitItem]
    exact (sims_mut .traitItem ts).last (fun _ => by rw [STraitItem.erase])
theorem sims_traitItems (is : List (STraitItem σ)) :
    Sims STraitItem.eraseL (visitTraitItemsS E P G subs is) (visitTraitItems E G.toGrammar subs.erase (STraitItem.eraseL is)) := by
  match is with
  | [] => unfold visitTraitItemsS; rw [STraitItem.eraseL, visitTraitItems]; exact Sims.pure' (by simp [STraitItem.eraseL])
  | i :: is =>
    unfold visitTraitItemsS
    rw [STraitItem.eraseL, visitTraitItems]
    exact (sims_traitItem i).step (fun _ => by rw [STraitItem.eraseL]) (fun y => (sims_traitItems is).last (fun _ => by rw [STraitItem.eraseL]))
theorem sims_implItem (i : SImplItem σ) :
    Sims SImplItem.erase (visitImplItemS E P G subs i) (visitImplItem E G.toGrammar subs.erase i.erase) := by
  match i with
  | .fn at_ attrs vis d sig block =>
    unfold visitImplItemS
    rw [SImplItem.erase, visitImplItem]
    refine Sims.check (by rw [SImplItem.erase]) ?_
    refine (sims_attrs attrs).step (fun _ => by rw [SImplItem.erase]) (fun as => ?_)
    refine (sims_mut .vis vis).step (fun _ => by rw [SImplItem.erase]) (fun v => ?_)
    refine (sims_mut .sig sig).step (fun _ => by rw [SImplItem.erase]) (fun g => ?_)
    exact (sims_stmts block).last (fun _ => by rw [SImplItem.erase])
  | .other ts =>
    unfold visitImplItemS
    rw [SImplItem.erase, visitImplItem]
    exact (sims_mut .implItem ts).last (fun _ => by rw [SImplItem.erase])
theorem sims_implItems (is : List (SImplItem σ)) :
    Sims SImplItem.eraseL (visitImplItemsS E P G subs is) (visitImplItems E G.toGrammar subs.erase (SImplItem.eraseL is)) := by
  match is with
  | [] => unfold visitImplItemsS; rw [SImplItem.eraseL, visitImplItems]; exact Sims.pure' (by simp [SImplItem.eraseL])
  | i :: is =>
    unfold visitImplItemsS
    rw [SImplItem.eraseL, visitImplItems]
    exact (sims_implItem i).step (fun _ => by rw [SImplItem.eraseL]) (fun y => (sims_implItems is).last (fun _ => by rw [SImplItem.eraseL]))
end

/-- The visit of a block with spans is the visit of the block. -/
theorem visitBlockS_erase (b : List (SStmt σ)) :
    (visitBlockS E P G subs b).forget.map SStmt.eraseL = visitBlock E G.toGrammar subs.erase (SStmt.eraseL b) := by
  obtain ⟨h, h'⟩ := sims_stmts (E := E) (P := P) (subs := subs) hG b none
  unfold visitBlockS visitBlock
  simp only [Option.map_none] at h
  rw [← h]
  cases hv : visitStmtsS E P G subs b none with
  | ok p =>
    obtain ⟨ss, - | ⟨e, sp⟩⟩ := p
    · rfl
    · rfl
  | err e => exact absurd hv (h' e)
  | panic => rfl
end

theorem mem_of_lookup {subs : SubsS σ} {n : Str} {v : SVal σ} (h : List.lookup n subs = some v) : (n, v) ∈ subs := by
  induction subs with
  | nil => cases h
  | cons e subs ih =>
    obtain ⟨m, w⟩ := e
    rw [List.lookup_cons] at h
    split at h
    · rename_i hb; cases h; rw [beq_iff_eq] at hb; rw [hb]; exact List.mem_cons_self
    · exact List.mem_cons_of_mem _ (ih h)

theorem runPartsS_ok {ps : PartsS σ} (h : ∀ q ∈ ps, ∃ out, substituteIdentsS E (validPart G.toGrammar q.1) subs q.2 = .ok out) :
    runPartsS E G subs ps = .ok () := by
  induction ps with
  | nil => rfl
  | cons p ps ih =>
    obtain ⟨out, h1⟩ := h p List.mem_cons_self
    simp only [runPartsS, h1, PRes.bind_ok]
    exact ih fun q hq => h q (List.mem_cons_of_mem _ hq)

/-- An error is about an alias in the code, and points to it. -/
theorem substituteIdentsS_err {valid : Toks → Bool} {node : SToks σ} {e : Err} {sp : σ} (h : substituteIdentsS E valid subs node = .err e sp) :
    ∃ n v, .ident n sp ∈ occAllS (lookS subs) node ∧ subs.get n = some v ∧ e = .substitution n (E.render (STok.eraseL v.toTokens)) := by
  unfold substituteIdentsS at h
  rw [walkS_eq] at h
  rcases goListS_checked (E := E) (valid := valid) (subs := subs) node id [] none with ⟨h1, h2⟩ | ⟨k, h1, h2, h3, h4, h5⟩
  · rw [h2] at h
    simp only [PRes.map, PRes.bind_ok] at h
    split at h <;> cases h
  · rw [h5, failS_map, failS_bind] at h
    simp only at h
    have hocc : ∀ t ∈ (occAllS (lookS subs) node).take k, ∀ n sp, t = .ident n sp → (subs.get n).isSome := fun t ht n sp e => by
      have := occAllS_alias _ _ _ (List.mem_of_mem_take ht) n sp e
      simpa [lookS] using this
    rw [stateAfterS_none _ hocc] at h
    cases hl : (((occAllS (lookS subs) node).take k).filterMap aliasAt).getLast? with
    | none => rw [hl] at h; cases h
    | some p =>
      obtain ⟨n, sp'⟩ := p
      rw [hl] at h
      simp only [Option.map_some, failS, PRes.err.injEq] at h
      obtain ⟨rfl, rfl⟩ := h
      obtain ⟨t, ht, ha⟩ := List.mem_filterMap.1 (List.mem_of_getLast? hl)
      have ht' : t = .ident n sp' := by
        match t, ha with
        | .ident m sq, ha => simp only [aliasAt, Option.some.injEq, Prod.mk.injEq] at ha; rw [ha.1, ha.2]
      subst ht'
      have hsome := hocc _ ht n sp' rfl
      obtain ⟨v, hv⟩ := Option.isSome_iff_exists.1 hsome
      exact ⟨n, v, List.mem_of_mem_take ht, hv, by simp [lookS, hv]⟩

end Verif
