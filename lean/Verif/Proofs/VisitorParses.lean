import Verif.Model.VisitorParses
import Verif.Proofs.Parses
import Verif.Proofs.Visitor
/-! # What the block visitor parses -/

namespace Verif
open Spec

variable {E : Ext} {G : Grammar} {subs : Subs}

/-- Everything that would be parsed is valid. -/
def AllGood (E : Ext) (G : Grammar) (subs : Subs) (ps : Parts) : Prop :=
  ∀ x ∈ partsParsed (lookToks subs) (strLit E subs) ps, validPart G x.1 x.2 = true

/-- What is parsed, up to the first that is not valid. -/
def triedParts (E : Ext) (G : Grammar) (subs : Subs) (ps : Parts) : List Toks :=
  (tried (fun x => validPart G x.1 x.2) (partsParsed (lookToks subs) (strLit E subs) ps)).map (·.2)

theorem partsParsed_append (look : Str → Option Toks) (str : Str → Lit) (ps qs : Parts) :
    partsParsed look str (ps ++ qs) = partsParsed look str ps ++ partsParsed look str qs := by
  simp [partsParsed]

theorem triedParts_append {ps : Parts} (qs : Parts) (h : AllGood E G subs ps) :
    triedParts E G subs (ps ++ qs) = triedParts E G subs ps ++ triedParts E G subs qs := by
  unfold triedParts
  rw [partsParsed_append, tried_append _ _ _ h, List.map_append, tried_all _ _ h]

theorem triedParts_stop {ps : Parts} (qs : Parts) (h : ¬ AllGood E G subs ps) :
    triedParts E G subs (ps ++ qs) = triedParts E G subs ps := by
  unfold triedParts
  rw [partsParsed_append, tried_stop]
  simp only [AllGood, Classical.not_forall, Bool.not_eq_true] at h
  obtain ⟨x, hx, hv⟩ := h
  exact ⟨x, hx, hv⟩

/-- `mp` does what `m` does and records what is parsed for the pieces `ps`. -/
def Logs (E : Ext) (G : Grammar) (subs : Subs) {α : Type} (m : VisitM α) (mp : VisitMP α) (ps : Parts) : Prop :=
  ∀ l, match m none with
  | .ok (a, none) => AllGood E G subs ps ∧ mp (none, l) = .ok (a, none, l ++ triedParts E G subs ps)
  | .ok (a, some e) => ¬ AllGood E G subs ps ∧ mp (none, l) = .ok (a, some e, l ++ triedParts E G subs ps)
  | .err _ => False
  | .panic => mp (none, l) = .panic

theorem Logs.ret {α} {y : α} : Logs E G subs (pure y) (pure y) [] := by
  intro l
  exact ⟨by simp [AllGood, partsParsed], by simp [triedParts, partsParsed, tried]; rfl⟩

theorem Logs.last {α β} {m : VisitM α} {mp : VisitMP α} {ps} {f : α → β} (h : Logs E G subs m mp ps) :
    Logs E G subs (m >>= fun y => pure (f y)) (mp >>= fun y => pure (f y)) ps := by
  intro l
  have := h l
  simp only [bind, StateT.bind, Res.bind] at *
  generalize m none = r at this
  rcases r with ⟨a, _ | e⟩ | e | _
  · exact ⟨this.1, by rw [this.2]; rfl⟩
  · exact ⟨this.1, by rw [this.2]; rfl⟩
  · exact this.elim
  · simp only at this ⊢; rw [this]

theorem Logs.step {α β} {m : VisitM α} {mp : VisitMP α} {k : α → VisitM β} {kp : α → VisitMP β} {f : α → β} {ps qs}
    (h : Logs E G subs m mp ps) (hk : ∀ y, Logs E G subs (k y) (kp y) qs) :
    Logs E G subs (m >>= fun y => VisitM.failed >>= fun b => if b = true then pure (f y) else k y)
      (mp >>= fun y => VisitMP.failed >>= fun b => if b = true then pure (f y) else kp y) (ps ++ qs) := by
  intro l
  have := h l
  simp only [bind, StateT.bind, Res.bind, VisitM.failed, VisitMP.failed] at *
  generalize m none = r at this
  rcases r with ⟨a, _ | e⟩ | e | _
  · have h2 := hk a (l ++ triedParts E G subs ps)
    simp only at this
    rw [this.2]
    simp only [Option.isSome_none, Bool.false_eq_true, if_false]
    generalize k a none = r2 at h2
    have hg : AllGood E G subs (ps ++ qs) ↔ AllGood E G subs qs := by
      have h1 := this.1
      simp only [AllGood, partsParsed_append, List.mem_append] at h1 ⊢
      exact ⟨fun h x hx => h x (.inr hx), fun h x hx => hx.elim (h1 x) (h x)⟩
    rcases r2 with ⟨b, _ | e⟩ | e | _
    · exact ⟨hg.2 h2.1, by rw [h2.2, triedParts_append _ this.1, List.append_assoc]⟩
    · exact ⟨fun hh => h2.1 (hg.1 hh), by rw [h2.2, triedParts_append _ this.1, List.append_assoc]⟩
    · exact h2
    · exact h2
  · simp only at this
    rw [this.2]
    simp only [Option.isSome_some, if_true]
    refine ⟨fun hh => this.1 ?_, by rw [triedParts_stop _ this.1]; rfl⟩
    intro x hx
    exact hh x (by rw [partsParsed_append]; exact List.mem_append_left _ hx)
  · exact this.elim
  · simp only at this ⊢; rw [this]

theorem Logs.check {β} {k : VisitM β} {kp : VisitMP β} {y : β} {ps} (hk : Logs E G subs k kp ps) :
    Logs E G subs (VisitM.failed >>= fun b => if b = true then pure y else k)
      (VisitMP.failed >>= fun b => if b = true then pure y else kp) ps := by
  intro l
  have h3 := hk l
  revert h3
  simp [bind, StateT.bind, Res.bind, VisitM.failed, VisitMP.failed]

/-- The pieces parsed in `substitute_idents`. -/
theorem substituteIdentsP_tried (pk : PartKind) (toks : Toks) :
    (substituteIdentsP E (validPart G pk) subs toks).parsed =
      (tried (fun x => validPart G x.1 x.2)
        ((stages (lookToks subs) (strLit E subs) toks ++ [substAll (lookToks subs) (strLit E subs) toks]).map (fun ts => (pk, ts)))).map (·.2) := by
  rw [substituteIdentsP_parsed]
  generalize stages (lookToks subs) (strLit E subs) toks ++ [substAll (lookToks subs) (strLit E subs) toks] = xs
  induction xs with
  | nil => rfl
  | cons x xs ih =>
    simp only [List.map_cons, tried]
    split
    · simp [ih]
    · rfl

theorem substituteIdents_good {valid : Toks → Bool} {toks out : Toks} (h : substituteIdents E valid subs toks = .ok out) :
    ∀ x ∈ stages (lookToks subs) (strLit E subs) toks ++ [substAll (lookToks subs) (strLit E subs) toks], valid x = true := by
  have hc := goList_checked (E := E) (valid := valid) (subs := subs) toks id [] none
  obtain ⟨h1, h2⟩ := substituteIdents_ok h
  unfold substituteIdents at h
  rw [walk_eq] at h
  intro x hx
  rcases List.mem_append.1 hx with hx | hx
  · cases hg : goList E valid subs id [] none toks with
    | ok p =>
      rw [hg] at hc
      exact hc.good x (by simpa [stages, firsts] using hx)
    | err e => rw [hg] at h; simp [Res.map] at h
    | panic => rw [hg] at h; simp [Res.map] at h
  · simp only [List.mem_singleton] at hx
    rw [hx, ← h1, h2]

theorem substituteIdents_bad {valid : Toks → Bool} {toks : Toks} {e : Err} (h : substituteIdents E valid subs toks = .err e) :
    ¬ ∀ x ∈ stages (lookToks subs) (strLit E subs) toks ++ [substAll (lookToks subs) (strLit E subs) toks], valid x = true := by
  have hc := goList_checked (E := E) (valid := valid) (subs := subs) toks id [] none
  unfold substituteIdents at h
  rw [walk_eq] at h
  intro hall
  cases hg : goList E valid subs id [] none toks with
  | ok p =>
    rw [hg] at h
    simp only [Res.map, Res.bind_eq, Res.bind_ok] at h
    split at h <;> cases h
  | err e =>
    rw [hg] at hc
    obtain ⟨y, hy, hv⟩ := hc.bad (by simp)
    have := hall y (List.mem_append_left _ (by simpa [stages, firsts] using hy))
    simp [hv] at this
  | panic => rw [hg] at h; simp [Res.map] at h

theorem good_map {pk : PartKind} {xs : List Toks} :
    (∀ x ∈ xs.map (fun ts => (pk, ts)), validPart G x.1 x.2 = true) ↔ ∀ x ∈ xs, validPart G pk x = true := by
  simp

/-- What a visit of a node does and parses. -/
theorem node_run {α} (pk : PartKind) (parse : Toks → Option α) (toks : Toks) (node : α) (l : List Toks) :
    match visitNode E subs (validPart G pk) parse toks node none with
    | .ok (a, none) =>
      (∀ x ∈ stages (lookToks subs) (strLit E subs) toks ++ [substAll (lookToks subs) (strLit E subs) toks],
        validPart G pk x = true) ∧
      visitNodeP E subs (validPart G pk) parse toks node (none, l) =
        .ok (a, none, l ++ (substituteIdentsP E (validPart G pk) subs toks).parsed)
    | .ok (a, some e) =>
      (¬ ∀ x ∈ stages (lookToks subs) (strLit E subs) toks ++ [substAll (lookToks subs) (strLit E subs) toks],
        validPart G pk x = true) ∧
      visitNodeP E subs (validPart G pk) parse toks node (none, l) =
        .ok (a, some e, l ++ (substituteIdentsP E (validPart G pk) subs toks).parsed)
    | .err _ => False
    | .panic => visitNodeP E subs (validPart G pk) parse toks node (none, l) = .panic := by
  unfold visitNode visitNodeP
  simp only [bind, StateT.bind, Res.bind, VisitM.failed, VisitMP.failed, VisitMP.parsing, Option.isSome_none,
    Bool.false_eq_true, if_false, substituteIdentsP_res]
  cases h : substituteIdents E (validPart G pk) subs toks with
  | ok ts =>
    simp only
    cases parse ts with
    | none => rfl
    | some n => exact ⟨substituteIdents_good h, rfl⟩
  | err e => exact ⟨substituteIdents_bad h, rfl⟩
  | panic => rfl

/-- A node that is not a statement. -/
theorem logs_node {α} {valid : Toks → Bool} {parse : Toks → Option α} {toks : Toks} {node : α} (pk : PartKind)
    (hv : validPart G pk = valid) (hb : pk ≠ .block) :
    Logs E G subs (visitNode E subs valid parse toks node) (visitNodeP E subs valid parse toks node) [(pk, toks)] := by
  subst hv
  intro l
  have hpp : partsParsed (lookToks subs) (strLit E subs) [(pk, toks)] =
      (stages (lookToks subs) (strLit E subs) toks ++ [substAll (lookToks subs) (strLit E subs) toks]).map (fun ts => (pk, ts)) := by
    simp [partsParsed, partParsed, hb]
  have ht : triedParts E G subs [(pk, toks)] = (substituteIdentsP E (validPart G pk) subs toks).parsed := by
    rw [substituteIdentsP_tried, triedParts, hpp]
  simp only [AllGood, hpp, good_map, ht]
  exact node_run pk parse toks node l

theorem logs_mut (k : NodeKind) (ts : Toks) :
    Logs E G subs (visitMut E G subs k ts) (visitMutP E G subs k ts) [(.node k, ts)] :=
  logs_node (.node k) rfl (by simp)

theorem logs_opt (k : NodeKind) (o : Option Toks) : Logs E G subs (visitOpt E G subs k o) (visitOptP E G subs k o) (optPart k o) := by
  cases o with
  | none => exact Logs.ret
  | some ts => exact (logs_mut k ts).last

theorem logs_attrs (as : List Attr) : Logs E G subs (visitAttrs E G subs as) (visitAttrsP E G subs as) (attrParts as) := by
  unfold visitAttrs visitAttrsP
  exact Logs.check (logs_node .attrs rfl (by simp))

theorem logs_each {α} {visit : α → VisitM α} {visitP : α → VisitMP α} {parts : α → Parts}
    (h : ∀ x, Logs E G subs (visit x) (visitP x) (parts x)) (xs : List α) :
    Logs E G subs (visitEach visit xs) (visitEachP visitP xs) (xs.flatMap parts) := by
  induction xs with
  | nil => exact Logs.ret
  | cons x xs ih => exact (h x).step (fun y => ih.last)

theorem logs_punct {α} {visit : α → VisitM α} {visitP : α → VisitMP α} {parts : α → Parts}
    (h : ∀ x, Logs E G subs (visit x) (visitP x) (parts x)) (p : Punctuated α) :
    Logs E G subs (visitPunct visit p) (visitPunctP visitP p) (p.items.flatMap parts) :=
  (logs_each h p.items).last

theorem logs_field (f : Field) : Logs E G subs (visitField E G subs f) (visitFieldP E G subs f) (fieldParts f) := by
  unfold visitField visitFieldP fieldParts
  apply Logs.check
  simp only [List.append_assoc]
  refine (logs_attrs _).step fun _ => ?_
  refine (logs_mut _ _).step fun _ => ?_
  refine (logs_opt _ _).step fun _ => ?_
  exact (logs_mut _ _).last

theorem logs_fields (f : Fields) : Logs E G subs (visitFields E G subs f) (visitFieldsP E G subs f) (fieldsParts f) := by
  unfold visitFields visitFieldsP fieldsParts
  apply Logs.check
  cases f with
  | named fs => exact (logs_punct logs_field fs).last
  | unnamed fs => exact (logs_punct logs_field fs).last
  | unit => exact Logs.ret

theorem logs_variant (v : Variant) : Logs E G subs (visitVariant E G subs v) (visitVariantP E G subs v) (variantParts v) := by
  unfold visitVariant visitVariantP variantParts
  simp only [List.append_assoc]
  refine (logs_attrs _).step fun _ => ?_
  refine (logs_mut _ _).step fun _ => ?_
  refine (logs_fields _).step fun _ => ?_
  exact (logs_opt _ _).last

theorem logs_generics (h : Head) :
    Logs E G subs (visitGenerics E G subs h) (visitGenericsP E G subs h) [(.node .generics, h.generics)] := by
  have := logs_node (E := E) (G := G) (subs := subs) (parse := fun ts => some { h with generics := ts, whereClause := [] })
    (toks := h.generics) (node := h) (.node .generics) rfl (by simp)
  exact this

theorem logs_head (h : Head) (vis ident : Toks) :
    Logs E G subs (visitHead E G subs h vis ident) (visitHeadP E G subs h vis ident) (headParts h vis ident) := by
  unfold visitHead visitHeadP headParts
  apply Logs.check
  refine (logs_attrs _).step fun as => ?_
  show Logs _ _ _ _ _ ([(PartKind.node .vis, vis)] ++ ([(PartKind.node .ident, ident)] ++ [(PartKind.node .generics, h.generics)]))
  refine (logs_mut _ _).step fun _ => ?_
  refine (logs_mut _ _).step fun _ => ?_
  exact (logs_generics { h with attrs := as }).last

theorem logs_implTrait (o : Option (Bool × Toks)) :
    Logs E G subs (visitImplTrait E G subs o) (visitImplTraitP E G subs o) (optPart .path (o.map (·.2))) := by
  rcases o with _ | ⟨b, p⟩
  · exact Logs.ret
  · exact (logs_mut _ _).last

/-- A statement: it is parsed in braces before. -/
theorem logs_other (ts : Toks) :
    Logs E G subs (visitOther E G subs ts) (visitOtherP E G subs ts) [(.block, [.group .brace ts])] := by
  intro l
  unfold visitOther visitOtherP
  simp only [bind, StateT.bind, VisitMP.parsing, Res.bind]
  cases hp : G.parseBlock ts with
  | none => rfl
  | some stmts =>
    have hv : validPart G .block [.group .brace ts] = true := by simp [validPart, Grammar.validBlock, hp]
    have hpp : partsParsed (lookToks subs) (strLit E subs) [(.block, [.group .brace ts])] = (PartKind.block, [.group .brace ts]) ::
        (stages (lookToks subs) (strLit E subs) [.group .brace ts] ++
          [substAll (lookToks subs) (strLit E subs) [.group .brace ts]]).map (fun ts => (PartKind.block, ts)) := by
      simp [partsParsed, partParsed]
    have ht : triedParts E G subs [(.block, [.group .brace ts])] =
        [[.group .brace ts]] ++ (substituteIdentsP E G.validBlock subs [.group .brace ts]).parsed := by
      rw [triedParts, hpp, tried, if_pos hv, show G.validBlock = validPart G .block from rfl, substituteIdentsP_tried]
      rfl
    have hg : AllGood E G subs [(.block, [.group .brace ts])] ↔
        ∀ x ∈ stages (lookToks subs) (strLit E subs) [.group .brace ts] ++
          [substAll (lookToks subs) (strLit E subs) [.group .brace ts]], G.validBlock x = true := by
      simp only [AllGood, hpp, List.forall_mem_cons, hv, true_and, good_map]
      rfl
    simp only [hg, ht, ← List.append_assoc]
    exact node_run (E := E) (G := G) (subs := subs) .block _ _ stmts (l ++ [[.group .brace ts]])

theorem map_flatMap (k : NodeKind) (ts : List Toks) :
    ts.map (PartKind.node k, ·) = ts.flatMap (fun t => [(PartKind.node k, t)]) := by
  induction ts with
  | nil => rfl
  | cons t ts ih => simp [ih]

mutual
theorem logs_stmt (s : Stmt) : Logs E G subs (visitStmt E G subs s) (visitStmtP E G subs s) (stmtParts s) := by
  match s with
  | .item i =>
    unfold visitStmt visitStmtP stmtParts
    exact (logs_item i).last
  | .other ts =>
    unfold visitStmt visitStmtP stmtParts
    exact logs_other ts
theorem logs_stmts (ss : List Stmt) : Logs E G subs (visitStmts E G subs ss) (visitStmtsP E G subs ss) (stmtsParts ss) := by
  match ss with
  | [] => unfold visitStmts visitStmtsP; exact Logs.ret
  | s :: ss =>
    unfold visitStmts visitStmtsP stmtsParts
    exact (logs_stmt s).step fun _ => (logs_stmts ss).last
theorem logs_item (i : Item) : Logs E G subs (visitItem E G subs i) (visitItemP E G subs i) (itemParts i) := by
  match i with
  | .fn attrs vis sig block =>
    unfold visitItem visitItemP
    simp only [itemParts]
    apply Logs.check
    show Logs _ _ _ _ _ (attrParts attrs ++ ([(PartKind.node .vis, vis)] ++ ([(PartKind.node .sig, sig)] ++ stmtsParts block)))
    refine (logs_attrs _).step fun _ => ?_
    refine (logs_mut _ _).step fun _ => ?_
    refine (logs_mut _ _).step fun _ => ?_
    exact (logs_stmts _).last
  | .struct h vis ident fields =>
    unfold visitItem visitItemP
    simp only [itemParts]
    refine (logs_head h vis ident).step (fun _ => ?_)
    exact (logs_fields _).last
  | .enum h vis ident variants =>
    unfold visitItem visitItemP
    simp only [itemParts]
    refine (logs_head h vis ident).step (fun _ => ?_)
    exact (logs_punct logs_variant _).last
  | .union h vis ident fields =>
    unfold visitItem visitItemP
    simp only [itemParts]
    refine (logs_head h vis ident).step (fun _ => ?_)
    exact (logs_punct logs_field _).last
  | .trait h vis u a ident supertraits items =>
    unfold visitItem visitItemP
    simp only [itemParts, List.append_assoc, map_flatMap]
    refine (logs_head h vis ident).step (fun _ => ?_)
    refine (logs_punct (logs_mut .bound) supertraits).step (fun _ => ?_)
    exact (logs_traitItems _).last
  | .impl h d u trait_ selfTy items =>
    unfold visitItem visitItemP
    simp only [itemParts, List.append_assoc]
    apply Logs.check
    refine (logs_attrs h.attrs).step (fun as => ?_)
    refine (logs_generics { h with attrs := as }).step (fun _ => ?_)
    refine (logs_implTrait trait_).step (fun _ => ?_)
    refine (logs_mut .type selfTy).step (fun _ => ?_)
    exact (logs_implItems items).last
  | .mod attrs vis u ident none =>
    unfold visitItem visitItemP
    simp only [itemParts, List.append_assoc]
    apply Logs.check
    refine (logs_attrs attrs).step (fun _ => ?_)
    show Logs _ _ _ _ _ ([(PartKind.node .vis, vis)] ++ ([(PartKind.node .ident, ident)] ++ _))
    refine (logs_mut .vis vis).step (fun _ => ?_)
    refine (logs_mut .ident ident).step (fun _ => ?_)
    exact Logs.ret
  | .mod attrs vis u ident (some items) =>
    unfold visitItem visitItemP
    simp only [itemParts, List.append_assoc]
    apply Logs.check
    refine (logs_attrs attrs).step (fun _ => ?_)
    show Logs _ _ _ _ _ ([(PartKind.node .vis, vis)] ++ ([(PartKind.node .ident, ident)] ++ _))
    refine (logs_mut .vis vis).step (fun _ => ?_)
    refine (logs_mut .ident ident).step (fun _ => ?_)
    exact (logs_items items).last
  | .foreignMod attrs u abi items =>
    unfold visitItem visitItemP
    simp only [itemParts, List.append_assoc, map_flatMap]
    apply Logs.check
    refine (logs_attrs attrs).step (fun _ => ?_)
    refine (logs_opt .litStr abi).step (fun _ => ?_)
    exact (logs_each (logs_mut .foreignItem) items).last
  | .other ts =>
    unfold visitItem visitItemP
    simp only [itemParts]
    exact (logs_mut .item ts).last
theorem logs_items (is : List Item) : Logs E G subs (visitItems E G subs is) (visitItemsP E G subs is) (itemsParts is) := by
  match is with
  | [] => unfold visitItems visitItemsP; exact Logs.ret
  | s :: ss =>
    unfold visitItems visitItemsP itemsParts
    exact (logs_item s).step fun _ => (logs_items ss).last
theorem logs_traitItem (i : TraitItem) :
    Logs E G subs (visitTraitItem E G subs i) (visitTraitItemP E G subs i) (traitItemParts i) := by
  match i with
  | .fn attrs sig none =>
    unfold visitTraitItem visitTraitItemP
    simp only [traitItemParts, List.append_assoc]
    apply Logs.check
    refine (logs_attrs attrs).step (fun _ => ?_)
    refine (logs_mut .sig sig).step (fun _ => ?_)
    exact Logs.ret
  | .fn attrs sig (some block) =>
    unfold visitTraitItem visitTraitItemP
    simp only [traitItemParts, List.append_assoc]
    apply Logs.check
    refine (logs_attrs attrs).step (fun _ => ?_)
    refine (logs_mut .sig sig).step (fun _ => ?_)
    exact (logs_stmts block).last
  | .other ts =>
    unfold visitTraitItem visitTraitItemP
    simp only [traitItemParts]
    exact (logs_mut .traitItem ts).last
theorem logs_traitItems (is : List TraitItem) :
    Logs E G subs (visitTraitItems E G subs is) (visitTraitItemsP E G subs is) (traitItemsParts is) := by
  match is with
  | [] => unfold visitTraitItems visitTraitItemsP; exact Logs.ret
  | s :: ss =>
    unfold visitTraitItems visitTraitItemsP traitItemsParts
    exact (logs_traitItem s).step fun _ => (logs_traitItems ss).last
theorem logs_implItem (i : ImplItem) :
    Logs E G subs (visitImplItem E G subs i) (visitImplItemP E G subs i) (implItemParts i) := by
  match i with
  | .fn attrs vis d sig block =>
    unfold visitImplItem visitImplItemP
    simp only [implItemParts]
    apply Logs.check
    show Logs _ _ _ _ _ (attrParts attrs ++ ([(PartKind.node .vis, vis)] ++ ([(PartKind.node .sig, sig)] ++ stmtsParts block)))
    refine (logs_attrs attrs).step (fun _ => ?_)
    refine (logs_mut .vis vis).step (fun _ => ?_)
    refine (logs_mut .sig sig).step (fun _ => ?_)
    exact (logs_stmts block).last
  | .other ts =>
    unfold visitImplItem visitImplItemP
    simp only [implItemParts]
    exact (logs_mut .implItem ts).last
theorem logs_implItems (is : List ImplItem) :
    Logs E G subs (visitImplItems E G subs is) (visitImplItemsP E G subs is) (implItemsParts is) := by
  match is with
  | [] => unfold visitImplItems visitImplItemsP; exact Logs.ret
  | s :: ss =>
    unfold visitImplItems visitImplItemsP implItemsParts
    exact (logs_implItem s).step fun _ => (logs_implItems ss).last
end

/-- The visit of a block with the record: the same result, and the record is what is parsed for the pieces. -/
theorem visitBlockP_eq (b : List Stmt) :
    visitBlockP E G subs b =
      match visitBlock E G subs b with
      | .ok b' => .ok ⟨.ok b', (partsParsed (lookToks subs) (strLit E subs) (stmtsParts b)).map (·.2)⟩
      | .err e => .ok ⟨.err e, triedParts E G subs (stmtsParts b)⟩
      | .panic => .panic := by
  have h := logs_stmts (E := E) (G := G) (subs := subs) b []
  unfold visitBlockP visitBlock
  generalize visitStmts E G subs b none = r at h
  rcases r with ⟨a, _ | e⟩ | e | _
  · simp only at h
    rw [h.2]
    have : triedParts E G subs (stmtsParts b) = (partsParsed (lookToks subs) (strLit E subs) (stmtsParts b)).map (·.2) := by
      unfold triedParts; rw [tried_all _ _ h.1]
    simp [this]
  · simp only at h
    rw [h.2]
    simp
  · exact h.elim
  · simp only at h
    rw [h]
    rfl

end Verif
