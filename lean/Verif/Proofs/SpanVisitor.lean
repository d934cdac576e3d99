import Verif.Spec.SpanItems
import Verif.Proofs.SpanWalk
import Verif.Proofs.Visitor
/-! # The block visitor with spans substitutes the pieces of the block one after the other -/

namespace Verif
open Spec VisitMS

variable {σ : Type} {E : Ext} {P : SpanOps σ} {G : GrammarS σ} {subs : SubsS σ} {q : SToks σ → SToks σ}

theorem substituteIdentsS_ok {valid : Toks → Bool} {node out : SToks σ} (h : substituteIdentsS E valid subs node = .ok out) :
    out = substAllS (lookS subs) (strLit E subs.erase) node ∧ valid (STok.eraseL out) = true := by
  unfold substituteIdentsS at h
  rw [walkS_eq] at h
  rcases goListS_checked (E := E) (valid := valid) (subs := subs) node id [] none with ⟨h1, h2⟩ | ⟨k, h1, h2, h3, h4, h5⟩
  · rw [h2] at h
    simp only [PRes.map, PRes.bind_ok] at h
    split at h
    · rename_i hv; cases h; exact ⟨rfl, hv⟩
    · cases h
  · rw [h5, failS_map, failS_bind] at h
    unfold failS at h
    split at h <;> cases h

/-- The pieces substituted in order, up to the first failure. -/
def runPartsS (E : Ext) (G : GrammarS σ) (subs : SubsS σ) : PartsS σ → PRes σ Unit
  | [] => .ok ()
  | p :: ps => (substituteIdentsS E (validPart G.toGrammar p.1) subs p.2).bind fun _ => runPartsS E G subs ps

theorem runParts_appendS (ps qs : PartsS σ) :
    runPartsS E G subs (ps ++ qs) = (runPartsS E G subs ps).bind fun _ => runPartsS E G subs qs := by
  induction ps with
  | nil => rfl
  | cons p ps ih =>
    simp only [List.cons_append, runPartsS, ih]
    cases substituteIdentsS E (validPart G.toGrammar p.1) subs p.2 <;> simp

/-- What a run of a visitor method amounts to: `m` substitutes the pieces `ps` and, if that succeeds, returns something
satisfying `R`. -/
def DoesS (E : Ext) (G : GrammarS σ) (subs : SubsS σ) {α : Type} (m : VisitMS σ α) (ps : PartsS σ) (R : α → Prop) : Prop :=
  (∀ p ∈ ps, p.1 = .block → validPart G.toGrammar p.1 (STok.eraseL p.2) = true) →
  match runPartsS E G subs ps with
  | .ok () => ∃ y, m none = .ok (y, none) ∧ R y
  | .err e sp => ∃ y, m none = .ok (y, some (e, sp))
  | .panic => m none = .panic

theorem DoesS.imp {α} {m : VisitMS σ α} {ps} {R R' : α → Prop} (h : DoesS E G subs m ps R) (hr : ∀ y, R y → R' y) :
    DoesS E G subs m ps R' := by
  intro hb
  have := h hb
  revert this
  cases runPartsS E G subs ps with
  | ok a => rintro ⟨y, h1, h2⟩; exact ⟨y, h1, hr y h2⟩
  | err e sp => exact id
  | panic => exact id

theorem DoesS.ret {α} {y : α} {R : α → Prop} (h : R y) : DoesS E G subs (pure y) [] R := fun _ => ⟨y, rfl, h⟩

/-- Last step of a method: the result is packed up. -/
theorem DoesS.last {α β} {m : VisitMS σ α} {ps} {R : α → Prop} {R' : β → Prop} {f : α → β} (h : DoesS E G subs m ps R)
    (hr : ∀ y, R y → R' (f y)) : DoesS E G subs (m >>= fun y => pure (f y)) ps R' := by
  intro hb
  have := h hb
  simp only [bind, StateT.bind, Res.bind] at *
  revert this
  cases runPartsS E G subs ps with
  | ok a => rintro ⟨y, h1, h2⟩; exact ⟨f y, by rw [h1]; rfl, hr y h2⟩
  | err e sp => rintro ⟨y, h1⟩; exact ⟨f y, by rw [h1]; rfl⟩
  | panic => intro h1; simp [h1]

/-- A step of a method followed by `check_error!`. -/
theorem DoesS.step {α β} {m : VisitMS σ α} {k : α → VisitMS σ β} {f : α → β} {ps qs} {R : α → Prop} {R' : β → Prop}
    (h : DoesS E G subs m ps R) (hk : ∀ y, R y → DoesS E G subs (k y) qs R') :
    DoesS E G subs (m >>= fun y => failed >>= fun b => if b = true then pure (f y) else k y) (ps ++ qs) R' := by
  intro hb
  have h1 := h (fun p hp => hb p (by simp [hp]))
  rw [runParts_appendS]
  simp only [bind, StateT.bind, Res.bind, failed] at *
  revert h1
  cases runPartsS E G subs ps with
  | ok a =>
    rintro ⟨y, h1, h2⟩
    have h3 := hk y h2 (fun p hp => hb p (by simp [hp]))
    simp only [h1]
    revert h3
    simp
  | err e sp =>
    rintro ⟨y, h1⟩
    simp only [h1]
    exact ⟨f y, by simp; rfl⟩
  | panic => intro h1; simp [h1]

/-- The `check_error!` at the beginning of a method. -/
theorem DoesS.check {β} {k : VisitMS σ β} {y : β} {ps} {R : β → Prop} (hk : DoesS E G subs k ps R) :
    DoesS E G subs (failed >>= fun b => if b = true then pure y else k) ps R := by
  intro hb
  have h3 := hk hb
  revert h3
  simp [bind, StateT.bind, Res.bind, failed]

abbrev subS (E : Ext) (subs : SubsS σ) : SToks σ → SToks σ := substAllS (lookS subs) (strLit E subs.erase)

theorem doesS_node {α} {valid : Toks → Bool} {parse : SToks σ → Option α} {toks : SToks σ} {node : α} (pk : PartKind)
    (hv : validPart G.toGrammar pk = valid) (hp : ∀ ts, valid (STok.eraseL ts) = true → (parse ts).isSome) :
    DoesS E G subs (visitNodeS E subs valid parse toks node) [(pk, toks)]
      (fun y => parse (subS E subs toks) = some y ∧ valid (STok.eraseL (subS E subs toks)) = true) := by
  unfold visitNodeS
  apply DoesS.check
  intro _
  simp only [runPartsS, hv]
  cases h : substituteIdentsS E valid subs toks with
  | ok ts =>
    obtain ⟨h1, h2⟩ := substituteIdentsS_ok h
    have := hp ts h2
    obtain ⟨y, hy⟩ := Option.isSome_iff_exists.1 this
    refine ⟨y, by simp [hy]; rfl, ?_⟩
    rw [subS, ← h1]; exact ⟨hy, h2⟩
  | err e sp => exact ⟨node, by simp [fail, bind, StateT.bind, Res.bind]; rfl⟩
  | panic => rfl

theorem doesS_mut (k : NodeKind) (ts : SToks σ) :
    DoesS E G subs (visitMutS E G subs k ts) [(.node k, ts)] (fun y => y = subS E subs ts) :=
  (doesS_node (.node k) rfl (by simp)).imp (by simp +contextual)

theorem doesS_opt (k : NodeKind) (o : Option (SToks σ)) :
    DoesS E G subs (visitOptS E G subs k o) (optPartS k o) (fun y => y = o.map (subS E subs)) := by
  cases o with
  | none => exact DoesS.ret rfl
  | some ts => exact (doesS_mut k ts).last (by simp)

/-! ## Attributes -/

theorem sub_appendS (a b : SToks σ) : subS E subs (a ++ b) = subS E subs a ++ subS E subs b := by
  induction a with
  | nil => simp [subS, substAllS]
  | cons t a ih => simp only [subS, substAllS, List.cons_append] at ih ⊢; rw [ih, List.append_assoc]

@[simp] theorem sub_nilS : subS E subs [] = [] := by simp [subS, substAllS]

theorem sub_punctS (c : Char) (j : Bool) (sp : σ) (ts : SToks σ) : subS E subs (.punct c j sp :: ts) = .punct c j sp :: subS E subs ts := by
  simp [subS, substAllS, substTokS]

theorem sub_groupS (d : Delim) (us : SToks σ) (sp : σ) (ts : SToks σ) :
    subS E subs (.group d us sp :: ts) = .group d (subS E subs us) sp :: subS E subs ts := by
  simp [subS, substAllS, substTokS]

theorem parseOuter_toksS {ok : Toks → Bool} {as as' : List (SAttr σ)}
    (h : SAttr.parseOuter ok (subS E subs (as.flatMap SAttr.toks)) = some as') :
    as.filter (fun a => !a.inner) = as ∧ as.filter (fun a => a.inner) = [] ∧
    as'.filter (fun a => !a.inner) = as' ∧ as'.filter (fun a => a.inner) = [] ∧
    as'.flatMap SAttr.toks = subS E subs (as.flatMap SAttr.toks) := by
  induction as generalizing as' with
  | nil => simp [SAttr.parseOuter] at h; subst h; simp
  | cons a as ih =>
    obtain ⟨inner, sp, bang, br, body⟩ := a
    cases inner with
    | true => simp [SAttr.toks, sub_punctS, sub_groupS, SAttr.parseOuter] at h
    | false =>
      simp only [List.flatMap_cons, SAttr.toks, Bool.false_eq_true, if_false, List.nil_append, List.cons_append,
        sub_punctS, sub_groupS, SAttr.parseOuter] at h
      split at h
      · obtain ⟨as2, h2, rfl⟩ := Option.map_eq_some_iff.1 h
        obtain ⟨i1, i2, i3, i4, i5⟩ := ih h2
        refine ⟨by simp [i1], by simpa using i2, by simp [i3], by simpa using i4, ?_⟩
        simp [SAttr.toks, sub_punctS, sub_groupS, i5]
      · cases h

theorem parseOuterS_isSome (ok : Toks → Bool) (ts : SToks σ) : (SAttr.parseOuter ok ts).isSome = (Attr.parseOuter ok (STok.eraseL ts)).isSome := by
  fun_induction SAttr.parseOuter ok ts with
  | case1 => rfl
  | case2 j h body b ts hk ih => simp [STok.eraseL, STok.erase, Attr.parseOuter, hk, ih]
  | case3 j h body b ts hk => simp [STok.eraseL, STok.erase, Attr.parseOuter, hk]
  | case4 ts h1 h2 =>
    have key : ∀ j body us, STok.eraseL ts ≠ .punct '#' j :: .group .bracket body :: us := by
      intro j body us he
      rcases ts with - | ⟨t, - | ⟨u, ts⟩⟩
      · cases he
      · simp [STok.eraseL] at he
      · simp only [STok.eraseL, List.cons.injEq] at he
        obtain ⟨e1, e2, -⟩ := he
        cases t with
        | punct c j' sp =>
          cases u with
          | group d us' sp' =>
            simp only [STok.erase, Tok.punct.injEq, Tok.group.injEq] at e1 e2
            obtain ⟨rfl, rfl⟩ := e1
            obtain ⟨rfl, -⟩ := e2
            exact h2 _ _ _ _ _ rfl
          | _ => cases e2
        | _ => cases e1
    rw [parseOuter_none (fun he => h1 (by cases ts with | nil => rfl | cons t ts => simp [STok.eraseL] at he)) key]
    rfl

/-- Attributes before and after. -/
def AttrsSubS (E : Ext) (subs : SubsS σ) (as as' : List (SAttr σ)) : Prop :=
  outerToksS as' = subS E subs (outerToksS as) ∧ innerToksS as' = [] ∧ innerToksS as = []

theorem doesS_attrs (as : List (SAttr σ)) :
    DoesS E G subs (visitAttrsS E G subs as) (attrPartsS as) (AttrsSubS E subs as) := by
  unfold visitAttrsS
  apply DoesS.check
  refine (doesS_node .attrs rfl (fun ts h => by rw [parseOuterS_isSome]; exact h)).imp ?_
  rintro y ⟨h1, -⟩
  obtain ⟨i1, i2, i3, i4, i5⟩ := parseOuter_toksS h1
  exact ⟨by simp [outerToksS, i1, i3, i5], by simp [innerToksS, i4], by simp [innerToksS, i2]⟩

/-! ## (SFields σ) and variants -/

theorem doesS_each {α} {visit : α → VisitMS σ α} {parts : α → PartsS σ} {toks : α → SToks σ}
    (h : ∀ x, DoesS E G subs (visit x) (parts x) (fun y => toks y = subS E subs (toks x))) (xs : List α) :
    DoesS E G subs (visitEachS visit xs) (xs.flatMap parts) (fun ys => ys.map toks = xs.map (fun x => subS E subs (toks x))) := by
  induction xs with
  | nil => exact DoesS.ret rfl
  | cons x xs ih =>
    rw [List.flatMap_cons]
    refine (h x).step (fun y hy => ?_)
    exact ih.last (by intro ys hys; simp [hy, hys])

theorem sub_sepToksS (c : Char) (t : Bool) (seps : Nat → σ) (xs : List (SToks σ)) :
    subS E subs (sepToksS c t seps xs) = sepToksS c t seps (xs.map (subS E subs)) := by
  fun_induction sepToksS c t seps xs with
  | case1 => simp [sepToksS]
  | case2 seps x => cases t <;> simp [sepToksS, sub_appendS, sub_punctS]
  | case3 seps x xs hx ih =>
    rw [sub_appendS, sub_punctS, ih]
    cases xs with
    | nil => simp at hx
    | cons y ys => simp [sepToksS]

theorem doesS_punct {α} {visit : α → VisitMS σ α} {parts : α → PartsS σ} {toks : α → SToks σ}
    (h : ∀ x, DoesS E G subs (visit x) (parts x) (fun y => toks y = subS E subs (toks x))) (c : Char) (p : SPunctuated σ α) :
    DoesS E G subs (visitPunctS visit p) (p.items.flatMap parts)
      (fun q => q.toks toks c = subS E subs (p.toks toks c) ∧ q.items.isEmpty = p.items.isEmpty) := by
  refine (doesS_each h p.items).last ?_
  intro ys hys
  refine ⟨?_, ?_⟩
  · simp only [SPunctuated.toks, hys, sub_sepToksS, List.map_map]
    rfl
  · have := congrArg List.length hys
    simp only [List.length_map] at this
    cases ys <;> cases hp : p.items <;> simp_all

theorem doesS_field (f : (SField σ)) :
    DoesS E G subs (visitFieldS E G subs f) (fieldPartsS f) (fun y => y.toks = subS E subs f.toks) := by
  unfold visitFieldS
  apply DoesS.check
  simp only [fieldPartsS, List.append_assoc]
  refine (doesS_attrs f.attrs).step (fun as has => ?_)
  refine (doesS_mut .vis f.vis).step (fun vis hvis => ?_)
  refine (doesS_opt .ident f.ident).step (fun i hi => ?_)
  refine (doesS_mut .type f.ty).last (fun ty hty => ?_)
  subst hvis hi hty
  simp only [SField.toks, has.1, sub_appendS]
  cases f.ident <;> simp [sub_appendS, sub_punctS]

theorem doesS_fields (f : SFields σ) :
    DoesS E G subs (visitFieldsS E G subs f) (fieldsPartsS f) (fun y => ∀ semi,
      (∀ w, subS E subs w = w → subS E subs semi = semi → y.toks w semi = subS E subs (f.toks w semi))) := by
  unfold visitFieldsS
  apply DoesS.check
  cases f with
  | named fs =>
    refine (doesS_punct doesS_field ',' fs).last ?_
    rintro y ⟨h, -⟩ semi w hw hs
    simp only [SFields.toks, h, sub_appendS, sub_groupS, hw, sub_nilS]
  | unnamed fs =>
    refine (doesS_punct doesS_field ',' fs).last ?_
    rintro y ⟨h, -⟩ semi w hw hs
    simp only [SFields.toks, h, sub_appendS, sub_groupS, hw, hs, List.cons_append]
  | unit => exact DoesS.ret (by intro semi w hw hs; simp [SFields.toks, sub_appendS, hw, hs])

theorem doesS_variant (v : (SVariant σ)) :
    DoesS E G subs (visitVariantS E G subs v) (variantPartsS v) (fun y => y.toks = subS E subs v.toks) := by
  unfold visitVariantS
  simp only [variantPartsS, List.append_assoc]
  refine (doesS_attrs v.attrs).step (fun as has => ?_)
  refine (doesS_mut .ident v.ident).step (fun vis hvis => ?_)
  refine (doesS_fields v.fields).step (fun i hi => ?_)
  refine (doesS_opt .expr v.discriminant).last (fun ty hty => ?_)
  subst hvis hty
  simp only [SVariant.toks, has.1, sub_appendS, hi [] [] (by simp) (by simp)]
  cases v.discriminant <;> simp [sub_punctS]

/-! ## Items -/

theorem doesS_generics (h : (SHead σ)) :
    DoesS E G subs (visitGenericsS E G subs h) [(.node .generics, h.generics)]
      (fun y => y = ⟨h.attrs, subS E subs h.generics, []⟩) := by
  unfold visitGenericsS
  apply DoesS.check
  intro _
  simp only [runPartsS, validPart]
  cases hs : substituteIdentsS E (G.valid .generics) subs h.generics with
  | ok ts =>
    obtain ⟨h1, h2⟩ := substituteIdentsS_ok hs
    exact ⟨_, rfl, by rw [h1]⟩
  | err e => exact ⟨h, by simp [fail, bind, StateT.bind, Res.bind]; rfl⟩
  | panic => rfl

/-- The beginning of an item before and after. -/
def HeadSubS (E : Ext) (subs : SubsS σ) (h : (SHead σ)) (vis ident : SToks σ) (y : (SHead σ) × SToks σ × SToks σ) : Prop :=
  AttrsSubS E subs h.attrs y.1.attrs ∧ y.2.1 = subS E subs vis ∧ y.2.2 = subS E subs ident ∧
    y.1.generics = subS E subs h.generics ∧ y.1.whereClause = []

theorem doesS_head (h : (SHead σ)) (vis ident : SToks σ) :
    DoesS E G subs (visitHeadS E G subs h vis ident) (headPartsS h vis ident) (HeadSubS E subs h vis ident) := by
  unfold visitHeadS
  apply DoesS.check
  show DoesS _ _ _ _ (attrPartsS h.attrs ++ ([(PartKind.node .vis, vis)] ++ ([(PartKind.node .ident, ident)] ++
    [(PartKind.node .generics, h.generics)]))) _
  refine (doesS_attrs h.attrs).step (fun as has => ?_)
  refine (doesS_mut .vis vis).step (fun v hv => ?_)
  refine (doesS_mut .ident ident).step (fun i hi => ?_)
  refine (doesS_generics { h with attrs := as }).last (fun g hg => ?_)
  subst hg
  exact ⟨has, hv, hi, rfl, rfl⟩

theorem doesS_implTrait (o : Option (Bool × SToks σ)) :
    DoesS E G subs (visitImplTraitS E G subs o) (optPartS .path (o.map (·.2)))
      (fun y => y = o.map (fun p => (p.1, subS E subs p.2))) := by
  cases o with
  | none => exact DoesS.ret rfl
  | some p => exact (doesS_mut .path p.2).last (by simp)

/-- Parsing the statements of a block and printing them gives the same tokens, as far as `q` tells. -/
def LosslessS (q : SToks σ → SToks σ) (G : GrammarS σ) : Prop := ∀ c ss, G.parseBlockS c = some ss → q (stmtsToksS ss) = q c

/-- Spans make no difference for whether a block can be parsed. -/
def SameBlocks (G : GrammarS σ) : Prop := ∀ ts, (G.parseBlockS ts).isSome = (G.parseBlock (STok.eraseL ts)).isSome

/-- Keywords of items are not aliases. -/
def NoKeywordsS (subs : SubsS σ) : Prop := ∀ s ∈ itemKeywords, lookS subs s = none

theorem sub_kwS {s : String} {sp : σ} (hk : NoKeywordsS subs) (hs : S s ∈ itemKeywords) : subS E subs (kwS s sp) = kwS s sp := by
  simp [kwS, subS, substAllS, substTokS, hk _ hs]

theorem sub_kwIfS {s : String} {sp : σ} (hk : NoKeywordsS subs) (hs : S s ∈ itemKeywords) (b : Bool) :
    subS E subs (kwIfS b s sp) = kwIfS b s sp := by
  cases b <;> simp [kwIfS, sub_kwS hk hs]

section
variable (hG : SameBlocks G)
include hG

theorem parseBraces_isSome (ts : SToks σ) : (G.parseBraces ts).isSome = G.validBlock (STok.eraseL ts) := by
  unfold GrammarS.parseBraces Grammar.validBlock
  split
  · simp only [STok.eraseL, STok.erase]; exact hG _
  · rename_i h
    split
    · rename_i he
      exfalso
      rcases ts with - | ⟨t, - | ⟨u, ts⟩⟩ <;> simp only [STok.eraseL, List.cons.injEq, reduceCtorEq, and_false, and_true] at he
      cases t <;> simp only [STok.erase, reduceCtorEq, Tok.group.injEq] at he
      obtain ⟨rfl, -⟩ := he
      exact h _ _ rfl
    · rfl

theorem doesS_other (ts : SToks σ) :
    DoesS E G subs (visitOtherS E P G subs ts) [(.block, [.group .brace ts P.callSite])]
      (fun y => LosslessS q G → q (stmtsToksS y) = q (subS E subs ts)) := by
  intro hb
  have hv := hb (.block, [.group .brace ts P.callSite]) (by simp) rfl
  simp only [validPart, Grammar.validBlock, STok.eraseL, STok.erase] at hv
  rw [← hG] at hv
  obtain ⟨ss, hss⟩ := Option.isSome_iff_exists.1 hv
  unfold visitOtherS
  simp only [hss]
  refine (doesS_node (α := List (SStmt σ)) .block rfl ?_).imp ?_ hb
  · intro c hc
    rw [parseBraces_isSome hG]
    exact hc
  · rintro y ⟨h, -⟩ hG
    simp only [sub_groupS, sub_nilS] at h
    exact hG _ _ h

omit hG in
theorem stmtsToks_appendS (a b : List (SStmt σ)) : stmtsToksS (a ++ b) = stmtsToksS a ++ stmtsToksS b := by
  induction a with
  | nil => rfl
  | cons s a ih => simp [stmtsToksS, ih]

omit hG in
theorem sub_flattenS (xs : List (SToks σ)) : subS E subs xs.flatten = (xs.map (subS E subs)).flatten := by
  induction xs with
  | nil => simp
  | cons x xs ih => simp [sub_appendS, ih]

omit hG in
theorem sub_implTraitS (hk : NoKeywordsS subs) (s1 s2 : σ) (o : Option (Bool × SToks σ)) :
    subS E subs (implTraitToksS s1 s2 o) = implTraitToksS s1 s2 (o.map (fun p => (p.1, subS E subs p.2))) := by
  rcases o with - | ⟨b, p⟩
  · simp [implTraitToksS]
  · cases b <;> simp [implTraitToksS, sub_appendS, sub_punctS, sub_kwS hk (s := "for") (by decide)]

set_option linter.unusedSectionVars false

/-- What the result depends on. -/
structure CondS (q : SToks σ → SToks σ) (G : GrammarS σ) (subs : SubsS σ) : Prop where
  noKeywords : NoKeywordsS subs
  lossless : LosslessS q G
  coarse : CoarseS q

mutual
theorem doesS_stmt (s : (SStmt σ)) :
    DoesS E G subs (visitStmtS E P G subs s) (stmtPartsS P s) (fun y => CondS q G subs → q (stmtsToksS y) = q (subS E subs (stmtNoWhereS s).toks)) := by
  match s with
  | .item i =>
    unfold visitStmtS
    simp only [stmtPartsS, stmtNoWhereS, SStmt.toks]
    exact (doesS_item i).last (fun y hy hc => by simp [stmtsToksS, SStmt.toks, hy hc])
  | .other ts =>
    unfold visitStmtS
    simp only [stmtPartsS, stmtNoWhereS, SStmt.toks]
    exact (doesS_other hG ts).imp (fun y hy hc => hy hc.lossless)
theorem doesS_stmts (ss : List (SStmt σ)) :
    DoesS E G subs (visitStmtsS E P G subs ss) (stmtsPartsS P ss) (fun y => CondS q G subs → q (stmtsToksS y) = q (subS E subs (stmtsToksS (stmtsNoWhereS ss)))) := by
  match ss with
  | [] => unfold visitStmtsS; exact DoesS.ret (by simp [stmtsNoWhereS, stmtsToksS])
  | s :: ss =>
    unfold visitStmtsS
    simp only [stmtsPartsS, stmtsNoWhereS, stmtsToksS]
    refine (doesS_stmt s).step (fun y hy => ?_)
    exact (doesS_stmts ss).last (fun z hz hc => by rw [stmtsToks_appendS, sub_appendS, hc.coarse.append, hc.coarse.append, hy hc, hz hc])
theorem doesS_item (i : (SItem σ)) :
    DoesS E G subs (visitItemS E P G subs i) (itemPartsS P i) (fun y => CondS q G subs → q y.toks = q (subS E subs (itemNoWhereS i).toks)) := by
  match i with
  | .fn at_ attrs vis sig block =>
    unfold visitItemS
    simp only [itemPartsS, itemNoWhereS, SItem.toks]
    apply DoesS.check
    show DoesS _ _ _ _ (attrPartsS attrs ++ ([(PartKind.node .vis, vis)] ++ ([(PartKind.node .sig, sig)] ++ stmtsPartsS P block))) _
    refine (doesS_attrs attrs).step (fun as has => ?_)
    refine (doesS_mut .vis vis).step (fun v hv => ?_)
    refine (doesS_mut .sig sig).step (fun g hg => ?_)
    refine (doesS_stmts block).last (fun b hb hc => ?_)
    subst hv hg
    simp [SItem.toks, hc.coarse.append, hc.coarse.group, hc.coarse.nil, sub_appendS, sub_groupS, has.1, has.2.1, has.2.2, hb hc]
  | .struct at_ h vis ident fields =>
    unfold visitItemS
    simp only [itemPartsS, itemNoWhereS, SItem.toks, headNoWhereS]
    refine (doesS_head h vis ident).step (fun y hy => ?_)
    obtain ⟨h', vis', ident'⟩ := y
    obtain ⟨h1, h2, h3, h4, h5⟩ := hy
    simp only at h1 h2 h3 h4 h5
    refine (doesS_fields fields).last (fun f hf hc => ?_)
    simp only [SItem.toks, sub_appendS, h1.1, h2, h3, h4, h5, sub_kwS hc.noKeywords (s := "struct") (by decide)]
    rw [hf [.punct ';' false (at_ 1)] [] (by simp) (by simp [sub_punctS])]
  | .enum at_ h vis ident variants =>
    unfold visitItemS
    simp only [itemPartsS, itemNoWhereS, SItem.toks, headNoWhereS]
    refine (doesS_head h vis ident).step (fun y hy => ?_)
    obtain ⟨h', vis', ident'⟩ := y
    obtain ⟨h1, h2, h3, h4, h5⟩ := hy
    simp only at h1 h2 h3 h4 h5
    refine (doesS_punct doesS_variant ',' variants).last (fun f hf hc => ?_)
    simp [SItem.toks, hc.coarse.append, hc.coarse.group, hc.coarse.nil, sub_appendS, sub_groupS, h1.1, h2, h3, h4, h5, sub_kwS hc.noKeywords (s := "enum") (by decide), hf.1]
  | .union at_ h vis ident fields =>
    unfold visitItemS
    simp only [itemPartsS, itemNoWhereS, SItem.toks, headNoWhereS]
    refine (doesS_head h vis ident).step (fun y hy => ?_)
    obtain ⟨h', vis', ident'⟩ := y
    obtain ⟨h1, h2, h3, h4, h5⟩ := hy
    simp only at h1 h2 h3 h4 h5
    refine (doesS_punct doesS_field ',' fields).last (fun f hf hc => ?_)
    simp [SItem.toks, hc.coarse.append, hc.coarse.group, hc.coarse.nil, sub_appendS, sub_groupS, h1.1, h2, h3, h4, h5, sub_kwS hc.noKeywords (s := "union") (by decide), hf.1]
  | .trait at_ h vis u a ident supertraits items =>
    unfold visitItemS
    simp only [itemPartsS, itemNoWhereS, SItem.toks, headNoWhereS, List.append_assoc]
    refine (doesS_head h vis ident).step (fun y hy => ?_)
    obtain ⟨h', vis', ident'⟩ := y
    obtain ⟨h1, h2, h3, h4, h5⟩ := hy
    simp only at h1 h2 h3 h4 h5
    have hb : supertraits.items.map (PartKind.node .bound, ·) =
        supertraits.items.flatMap (fun t => [(PartKind.node .bound, t)]) := by
      induction supertraits.items with
      | nil => rfl
      | cons t ts ih => simp [ih]
    rw [hb]
    refine (doesS_punct (toks := id) (doesS_mut .bound) '+' supertraits).step (fun sp hsp => ?_)
    refine (doesS_traitItems items).last (fun f hf hc => ?_)
    have hs : superToksS (at_ 3) sp = subS E subs (superToksS (at_ 3) supertraits) := by
      simp only [superToksS, hsp.2]
      split
      · simp
      · rw [sub_punctS, hsp.1]
    simp [SItem.toks, hc.coarse.append, hc.coarse.group, hc.coarse.nil, sub_appendS, sub_groupS, h1.1, h1.2.1, h1.2.2, h2, h3, h4, h5, sub_kwS hc.noKeywords (s := "trait") (by decide),
      sub_kwIfS hc.noKeywords (s := "unsafe") (by decide), sub_kwIfS hc.noKeywords (s := "auto") (by decide), hf hc, hs]
  | .impl at_ h d u trait_ selfTy items =>
    unfold visitItemS
    simp only [itemPartsS, itemNoWhereS, SItem.toks, headNoWhereS, List.append_assoc]
    apply DoesS.check
    refine (doesS_attrs h.attrs).step (fun as has => ?_)
    refine (doesS_generics { h with attrs := as }).step (fun g hg => ?_)
    refine (doesS_implTrait trait_).step (fun t ht => ?_)
    refine (doesS_mut .type selfTy).step (fun ty hty => ?_)
    refine (doesS_implItems items).last (fun f hf hc => ?_)
    subst hg ht hty
    simp [SItem.toks, hc.coarse.append, hc.coarse.group, hc.coarse.nil, sub_appendS, sub_groupS, has.1, has.2.1, has.2.2, sub_kwS hc.noKeywords (s := "impl") (by decide),
      sub_kwIfS hc.noKeywords (s := "unsafe") (by decide), sub_kwIfS hc.noKeywords (s := "default") (by decide), hf hc, sub_implTraitS hc.noKeywords]
  | .mod at_ attrs vis u ident none =>
    unfold visitItemS
    simp only [itemPartsS, itemNoWhereS, List.append_assoc]
    apply DoesS.check
    refine (doesS_attrs attrs).step (fun as has => ?_)
    show DoesS _ _ _ _ ([(PartKind.node .vis, vis)] ++ ([(PartKind.node .ident, ident)] ++ _)) _
    refine (doesS_mut .vis vis).step (fun v hv => ?_)
    refine (doesS_mut .ident ident).step (fun g hg => ?_)
    subst hv hg
    refine DoesS.ret (fun hc => ?_)
    simp [SItem.toks, hc.coarse.append, sub_appendS, sub_punctS, has.1, sub_kwS hc.noKeywords (s := "mod") (by decide),
      sub_kwIfS hc.noKeywords (s := "unsafe") (by decide)]
  | .mod at_ attrs vis u ident (some items) =>
    unfold visitItemS
    simp only [itemPartsS, itemNoWhereS, List.append_assoc]
    apply DoesS.check
    refine (doesS_attrs attrs).step (fun as has => ?_)
    show DoesS _ _ _ _ ([(PartKind.node .vis, vis)] ++ ([(PartKind.node .ident, ident)] ++ _)) _
    refine (doesS_mut .vis vis).step (fun v hv => ?_)
    refine (doesS_mut .ident ident).step (fun g hg => ?_)
    subst hv hg
    refine (doesS_items items).last (fun b hb hc => ?_)
    simp [SItem.toks, hc.coarse.append, hc.coarse.group, hc.coarse.nil, sub_appendS, sub_groupS, has.1, has.2.1, has.2.2, sub_kwS hc.noKeywords (s := "mod") (by decide),
      sub_kwIfS hc.noKeywords (s := "unsafe") (by decide), hb hc]
  | .foreignMod at_ attrs u abi items =>
    unfold visitItemS
    simp only [itemPartsS, itemNoWhereS, SItem.toks, List.append_assoc]
    apply DoesS.check
    refine (doesS_attrs attrs).step (fun as has => ?_)
    refine (doesS_opt .litStr abi).step (fun v hv => ?_)
    have hb : items.map (PartKind.node .foreignItem, ·) = items.flatMap (fun t => [(PartKind.node .foreignItem, t)]) := by
      induction items with
      | nil => rfl
      | cons t ts ih => simp [ih]
    rw [hb]
    refine (doesS_each (toks := id) (doesS_mut .foreignItem) items).last (fun f hf hc => ?_)
    subst hv
    simp only [List.map_id, id] at hf
    subst hf
    cases abi <;> simp [SItem.toks, hc.coarse.append, hc.coarse.group, hc.coarse.nil, sub_appendS, sub_groupS, has.1, has.2.1, has.2.2, sub_kwS hc.noKeywords (s := "extern") (by decide),
      sub_kwIfS hc.noKeywords (s := "unsafe") (by decide), sub_flattenS]
  | .other ts =>
    unfold visitItemS
    simp only [itemPartsS, itemNoWhereS, SItem.toks]
    exact (doesS_mut .item ts).last (by simp +contextual [SItem.toks])
theorem doesS_items (is : List (SItem σ)) :
    DoesS E G subs (visitItemsS E P G subs is) (itemsPartsS P is) (fun y => CondS q G subs → q (itemsToksS y) = q (subS E subs (itemsToksS (itemsNoWhereS is)))) := by
  match is with
  | [] => unfold visitItemsS; exact DoesS.ret (by simp [itemsNoWhereS, itemsToksS])
  | s :: ss =>
    unfold visitItemsS
    simp only [itemsPartsS, itemsNoWhereS, itemsToksS]
    refine (doesS_item s).step (fun y hy => ?_)
    exact (doesS_items ss).last (fun z hz hc => by rw [itemsToksS, sub_appendS, hc.coarse.append, hc.coarse.append, hy hc, hz hc])
theorem doesS_traitItem (i : (STraitItem σ)) :
    DoesS E G subs (visitTraitItemS E P G subs i) (traitItemPartsS P i) (fun y => CondS q G subs → q y.toks = q (subS E subs (traitItemNoWhereS i).toks)) := by
  match i with
  | .fn at_ attrs sig none =>
    unfold visitTraitItemS
    simp only [traitItemPartsS, traitItemNoWhereS, List.append_assoc]
    apply DoesS.check
    refine (doesS_attrs attrs).step (fun as has => ?_)
    refine (doesS_mut .sig sig).step (fun g hg => ?_)
    subst hg
    exact DoesS.ret (fun hc => by simp [STraitItem.toks, hc.coarse.append, sub_appendS, sub_punctS, has.1])
  | .fn at_ attrs sig (some block) =>
    unfold visitTraitItemS
    simp only [traitItemPartsS, traitItemNoWhereS, List.append_assoc]
    apply DoesS.check
    refine (doesS_attrs attrs).step (fun as has => ?_)
    refine (doesS_mut .sig sig).step (fun g hg => ?_)
    subst hg
    refine (doesS_stmts block).last (fun b hb hc => ?_)
    simp [STraitItem.toks, hc.coarse.append, hc.coarse.group, hc.coarse.nil, sub_appendS, sub_groupS, has.1, has.2.1, has.2.2, hb hc]
  | .other ts =>
    unfold visitTraitItemS
    simp only [traitItemPartsS, traitItemNoWhereS, STraitItem.toks]
    exact (doesS_mut .traitItem ts).last (by simp +contextual [STraitItem.toks])
theorem doesS_traitItems (is : List (STraitItem σ)) :
    DoesS E G subs (visitTraitItemsS E P G subs is) (traitItemsPartsS P is)
      (fun y => CondS q G subs → q (traitItemsToksS y) = q (subS E subs (traitItemsToksS (traitItemsNoWhereS is)))) := by
  match is with
  | [] => unfold visitTraitItemsS; exact DoesS.ret (by simp [traitItemsNoWhereS, traitItemsToksS])
  | s :: ss =>
    unfold visitTraitItemsS
    simp only [traitItemsPartsS, traitItemsNoWhereS, traitItemsToksS]
    refine (doesS_traitItem s).step (fun y hy => ?_)
    exact (doesS_traitItems ss).last (fun z hz hc => by rw [traitItemsToksS, sub_appendS, hc.coarse.append, hc.coarse.append, hy hc, hz hc])
theorem doesS_implItem (i : (SImplItem σ)) :
    DoesS E G subs (visitImplItemS E P G subs i) (implItemPartsS P i) (fun y => CondS q G subs → q y.toks = q (subS E subs (implItemNoWhereS i).toks)) := by
  match i with
  | .fn at_ attrs vis d sig block =>
    unfold visitImplItemS
    simp only [implItemPartsS, implItemNoWhereS, SImplItem.toks]
    apply DoesS.check
    show DoesS _ _ _ _ (attrPartsS attrs ++ ([(PartKind.node .vis, vis)] ++ ([(PartKind.node .sig, sig)] ++ stmtsPartsS P block))) _
    refine (doesS_attrs attrs).step (fun as has => ?_)
    refine (doesS_mut .vis vis).step (fun v hv => ?_)
    refine (doesS_mut .sig sig).step (fun g hg => ?_)
    refine (doesS_stmts block).last (fun b hb hc => ?_)
    subst hv hg
    simp [SImplItem.toks, hc.coarse.append, hc.coarse.group, hc.coarse.nil, sub_appendS, sub_groupS, has.1, has.2.1, has.2.2, hb hc, sub_kwIfS hc.noKeywords (s := "default") (by decide)]
  | .other ts =>
    unfold visitImplItemS
    simp only [implItemPartsS, implItemNoWhereS, SImplItem.toks]
    exact (doesS_mut .implItem ts).last (by simp +contextual [SImplItem.toks])
theorem doesS_implItems (is : List (SImplItem σ)) :
    DoesS E G subs (visitImplItemsS E P G subs is) (implItemsPartsS P is)
      (fun y => CondS q G subs → q (implItemsToksS y) = q (subS E subs (implItemsToksS (implItemsNoWhereS is)))) := by
  match is with
  | [] => unfold visitImplItemsS; exact DoesS.ret (by simp [implItemsNoWhereS, implItemsToksS])
  | s :: ss =>
    unfold visitImplItemsS
    simp only [implItemsPartsS, implItemsNoWhereS, implItemsToksS]
    refine (doesS_implItem s).step (fun y hy => ?_)
    exact (doesS_implItems ss).last (fun z hz hc => by rw [implItemsToksS, sub_appendS, hc.coarse.append, hc.coarse.append, hy hc, hz hc])
end

/-- The whole visit of a block. -/
theorem visitBlock_specS (q : SToks σ → SToks σ) (b : List (SStmt σ))
    (hb : ∀ p ∈ stmtsPartsS P b, p.1 = .block → validPart G.toGrammar p.1 (STok.eraseL p.2) = true) :
    match runPartsS E G subs (stmtsPartsS P b) with
    | .ok () => ∃ b', visitBlockS E P G subs b = .ok b' ∧ (CondS q G subs → q (stmtsToksS b') = q (subS E subs (stmtsToksS (stmtsNoWhereS b))))
    | .err e sp => visitBlockS E P G subs b = .err e sp
    | .panic => visitBlockS E P G subs b = .panic := by
  have h := doesS_stmts (E := E) (P := P) (subs := subs) (q := q) hG b hb
  unfold visitBlockS
  revert h
  cases runPartsS E G subs (stmtsPartsS P b) with
  | ok a => rintro ⟨y, h1, h2⟩; exact ⟨y, by simp [h1], h2⟩
  | err e sp => rintro ⟨y, h1⟩; simp [h1]
  | panic => intro h1; simp [h1]

end

end Verif
