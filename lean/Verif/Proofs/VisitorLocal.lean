import Verif.Proofs.FormatString
import Verif.Proofs.Subst
import Verif.Proofs.VisitorCongr
import Verif.Spec.Items
import Verif.Spec.Uses
/-! # The visitor looks up only the names used in the block -/

set_option linter.unusedSectionVars false

namespace Verif
open Spec

theorem Spec.InPlaceholder.append {C : CharClass} {n s : Str} (u : Str) (h : InPlaceholder C n s) : InPlaceholder C n (u ++ s) := by
  obtain ⟨pre, body, post, rfl, h1, h2⟩ := h
  exact ⟨u ++ pre, body, post, by simp, h1, h2⟩

theorem Formats.local {C : CharClass} {look look' : Str → Option Str} {s o : Str} (h : Formats C look s o)
    (hl : ∀ n, InPlaceholder C n s → look n = look' n) : Formats C look' s o := by
  induction h with
  | plain s h => exact .plain s h
  | unclosed pre body hp hb => exact .unclosed pre body hp hb
  | run pre post o k hp hpost h ih => exact .run pre post o k hp hpost (ih fun n hn => hl n (Spec.InPlaceholder.append _ hn))
  | placeholder pre body post o k hp hb hne hpost h ih =>
    have : expandPlaceholder C look body = expandPlaceholder C look' body := by
      unfold expandPlaceholder
      rw [hl _ ⟨pre, body, List.replicate k '%' ++ post, by simp, hb, rfl⟩]
    rw [this]
    exact .placeholder pre body post o k hp hb hne hpost (ih fun n hn => hl n (Spec.InPlaceholder.append _ hn))

section
variable {E : Ext} {G : Grammar} {subs subs' : Subs}

/-- The two maps agree on what the names used in the tokens stand for: the tokens where a name is an identifier, the text where it is in a placeholder. -/
structure AgreeOn (E : Ext) (subs subs' : Subs) (ts : Toks) : Prop where
  code : ∀ n, mentions n ts → (subs.get n).map (·.toTokens) = (subs'.get n).map (·.toTokens)
  text : ∀ n, shown E.toCharClass n ts → (subs.get n).map (·.format E) = (subs'.get n).map (·.format E)

mutual
theorem usesTok_of_mentions {C : CharClass} {n : Str} (t : Tok) (h : mentionsTok n t) : usesTok C n t := by
  match t with
  | .ident _ => simpa [mentionsTok, usesTok] using h
  | .group _ ts => simp only [mentionsTok] at h; simp only [usesTok]; exact uses_of_mentions ts h
  | .punct _ _ | .lit _ => simp only [mentionsTok] at h
theorem uses_of_mentions {C : CharClass} {n : Str} (ts : Toks) (h : mentions n ts) : uses C n ts := by
  match ts with
  | [] => simp only [mentions] at h
  | t :: ts => exact h.imp (usesTok_of_mentions t) (uses_of_mentions ts)
end

mutual
theorem usesTok_of_shown {C : CharClass} {n : Str} (t : Tok) (h : shownTok C n t) : usesTok C n t := by
  match t with
  | .ident _ | .punct _ _ | .lit (.int _ _) | .lit (.other _) => simp only [shownTok] at h
  | .group _ ts => simp only [shownTok] at h; simp only [usesTok]; exact uses_of_shown ts h
  | .lit (.str _ _) => simpa [shownTok, usesTok] using h
theorem uses_of_shown {C : CharClass} {n : Str} (ts : Toks) (h : shown C n ts) : uses C n ts := by
  match ts with
  | [] => simp only [shown] at h
  | t :: ts => exact h.imp (usesTok_of_shown t) (uses_of_shown ts)
end

/-- It is enough that they agree on the names used in the tokens. -/
theorem agreeOn_of_get {ts : Toks} (h : ∀ n, uses E.toCharClass n ts → subs.get n = subs'.get n) : AgreeOn E subs subs' ts :=
  ⟨fun n hn => by rw [h n (uses_of_mentions ts hn)], fun n hn => by rw [h n (uses_of_shown ts hn)]⟩

theorem fmtStr_local {s : Str} (h : ∀ n, InPlaceholder E.toCharClass n s → (subs.get n).map (·.format E) = (subs'.get n).map (·.format E)) :
    fmtStr E subs s = fmtStr E subs' s := by
  unfold fmtStr
  have h1 := formats_total (C := E.toCharClass) (look := fun n => (subs.get n).map (·.format E)) s.length s (Nat.le_refl _)
  have h2 := Formats.local (look' := fun n => (subs'.get n).map (·.format E)) h1 h
  exact (formats_sound h2).symm

theorem goLeaf_local {valid : Toks → Bool} {plug : Toks → Toks} {pre rest : Toks} {s : SubstState} {t : Tok}
    (hc : ∀ n, mentionsTok n t → (subs.get n).map (·.toTokens) = (subs'.get n).map (·.toTokens))
    (ht : ∀ n, shownTok E.toCharClass n t → (subs.get n).map (·.format E) = (subs'.get n).map (·.format E)) :
    goLeaf E valid subs plug pre rest s t = goLeaf E valid subs' plug pre rest s t := by
  have h1 : leafRepl E subs t = leafRepl E subs' t := by
    match t with
    | .ident n => simp only [leafRepl, hc n (by simp [mentionsTok])]
    | .lit (.str r v) => simp only [leafRepl, fmtStr_local (fun n hn => ht n (by simpa [shownTok] using hn))]
    | .lit (.int _ _) | .lit (.other _) | .punct _ _ | .group _ _ => rfl
  have h2 : leafState E subs s t = leafState E subs' s t := by
    match t with
    | .ident n =>
      have := hc n (by simp [mentionsTok])
      simp only [leafState]
      cases h3 : subs.get n <;> cases h4 : subs'.get n <;> simp_all
    | .lit _ | .punct _ _ | .group _ _ => rfl
  simp only [goLeaf, h1, h2]

mutual
theorem goTok_local {valid : Toks → Bool} (t : Tok)
    (hc : ∀ n, mentionsTok n t → (subs.get n).map (·.toTokens) = (subs'.get n).map (·.toTokens))
    (ht : ∀ n, shownTok E.toCharClass n t → (subs.get n).map (·.format E) = (subs'.get n).map (·.format E))
    (plug : Toks → Toks) (pre rest : Toks) (s : SubstState) :
    goTok E valid subs plug pre rest s t = goTok E valid subs' plug pre rest s t := by
  match t with
  | .group d us =>
    simp only [goTok]
    rw [goList_local us ⟨fun n hn => hc n (by simpa [mentionsTok] using hn), fun n hn => ht n (by simpa [shownTok] using hn)⟩]
  | .ident n => simp only [goTok, goLeaf_local hc ht]
  | .punct c j => simp only [goTok, goLeaf_local hc ht]
  | .lit l => simp only [goTok, goLeaf_local hc ht]
theorem goList_local {valid : Toks → Bool} (ts : Toks) (h : AgreeOn E subs subs' ts) (plug : Toks → Toks) (pre : Toks) (s : SubstState) :
    goList E valid subs plug pre s ts = goList E valid subs' plug pre s ts := by
  match ts with
  | [] => simp only [goList]
  | t :: ts =>
    have ih := goList_local (valid := valid) ts ⟨fun n hn => h.code n (by simp [mentions, hn]), fun n hn => h.text n (by simp [shown, hn])⟩
    simp only [goList]
    rw [goTok_local t (fun n hn => h.code n (by simp [mentions, hn])) (fun n hn => h.text n (by simp [shown, hn]))]
    simp only [ih]
end

theorem substituteIdents_local {valid : Toks → Bool} {node : Toks} (h : AgreeOn E subs subs' node) :
    substituteIdents E valid subs node = substituteIdents E valid subs' node := by
  simp only [substituteIdents, walk_eq, goList_local node h]

theorem visitNode_local {α} (valid : Toks → Bool) (parse : Toks → Option α) {toks : Toks} (node : α) (h : AgreeOn E subs subs' toks) :
    visitNode E subs valid parse toks node = visitNode E subs' valid parse toks node := by
  simp only [visitNode, substituteIdents_local h]

theorem visitMut_local (k : NodeKind) {node : Toks} (h : AgreeOn E subs subs' node) : visitMut E G subs k node = visitMut E G subs' k node := by
  simp only [visitMut, visitNode_local _ _ _ h]

/-- The two maps agree on the names used in the parts. -/
def AgreeParts (E : Ext) (subs subs' : Subs) (ps : Parts) : Prop := ∀ p ∈ ps, AgreeOn E subs subs' p.2

theorem agreeParts_append {ps qs : Parts} :
    AgreeParts E subs subs' (ps ++ qs) ↔ AgreeParts E subs subs' ps ∧ AgreeParts E subs subs' qs := by
  simp only [AgreeParts, List.mem_append]
  exact ⟨fun h => ⟨fun p hp => h p (.inl hp), fun p hp => h p (.inr hp)⟩, fun h p hp => hp.elim (h.1 p) (h.2 p)⟩

theorem agreeParts_cons {p : PartKind × Toks} {qs : Parts} :
    AgreeParts E subs subs' (p :: qs) ↔ AgreeOn E subs subs' p.2 ∧ AgreeParts E subs subs' qs := by
  simp [AgreeParts]

theorem agreeParts_nil : AgreeParts E subs subs' [] := by simp [AgreeParts]

theorem visitAttrs_local {attrs : List Attr} (h : AgreeParts E subs subs' (attrParts attrs)) :
    visitAttrs E G subs attrs = visitAttrs E G subs' attrs := by
  simp only [attrParts, agreeParts_cons] at h
  simp only [visitAttrs, visitNode_local _ _ _ h.1]

theorem visitOpt_local (k : NodeKind) {o : Option Toks} (h : AgreeParts E subs subs' (optPart k o)) :
    visitOpt E G subs k o = visitOpt E G subs' k o := by
  cases o with
  | none => simp only [visitOpt]
  | some ts =>
    simp only [optPart, agreeParts_cons] at h
    simp only [visitOpt, visitMut_local _ h.1]

theorem visitField_local {f : Field} (h : AgreeParts E subs subs' (fieldParts f)) : visitField E G subs f = visitField E G subs' f := by
  simp only [fieldParts, agreeParts_append, agreeParts_cons] at h
  obtain ⟨⟨⟨h1, h2, -⟩, h3⟩, h4, -⟩ := h
  simp only [visitField, visitAttrs_local h1, visitMut_local _ h2, visitOpt_local _ h3, visitMut_local _ h4]

theorem visitEach_local {α} {f g : α → VisitM α} : ∀ {xs : List α}, (∀ x ∈ xs, f x = g x) → visitEach f xs = visitEach g xs
  | [], _ => by simp only [visitEach]
  | x :: xs, h => by
    simp only [visitEach, h x (by simp), visitEach_local (xs := xs) (fun y hy => h y (by simp [hy]))]

theorem visitPunct_local {α} {f g : α → VisitM α} {p : Punctuated α} (h : ∀ x ∈ p.items, f x = g x) : visitPunct f p = visitPunct g p := by
  simp only [visitPunct, visitEach_local h]

theorem agreeParts_flatMap {α} {f : α → Parts} {xs : List α} (h : AgreeParts E subs subs' (xs.flatMap f)) :
    ∀ x ∈ xs, AgreeParts E subs subs' (f x) :=
  fun x hx p hp => h p (List.mem_flatMap.2 ⟨x, hx, hp⟩)

theorem visitFields_local {f : Fields} (h : AgreeParts E subs subs' (fieldsParts f)) : visitFields E G subs f = visitFields E G subs' f := by
  cases f with
  | named fs => simp only [visitFields, visitPunct_local (fun x hx => visitField_local (agreeParts_flatMap h x hx))]
  | unnamed fs => simp only [visitFields, visitPunct_local (fun x hx => visitField_local (agreeParts_flatMap h x hx))]
  | unit => simp only [visitFields]

theorem visitVariant_local {v : Variant} (h : AgreeParts E subs subs' (variantParts v)) :
    visitVariant E G subs v = visitVariant E G subs' v := by
  simp only [variantParts, agreeParts_append, agreeParts_cons] at h
  obtain ⟨⟨⟨h1, h2, -⟩, h3⟩, h4⟩ := h
  simp only [visitVariant, visitAttrs_local h1, visitMut_local _ h2, visitFields_local h3, visitOpt_local _ h4]

theorem visitGenerics_local {x : Head} (h : AgreeOn E subs subs' x.generics) : visitGenerics E G subs x = visitGenerics E G subs' x := by
  simp only [visitGenerics, substituteIdents_local h]

theorem visitHead_local {x : Head} {vis ident : Toks} (h : AgreeParts E subs subs' (headParts x vis ident)) :
    visitHead E G subs x vis ident = visitHead E G subs' x vis ident := by
  simp only [headParts, agreeParts_append, agreeParts_cons] at h
  obtain ⟨h1, h2, h3, h4, -⟩ := h
  have h5 : ∀ attrs, visitGenerics E G subs { x with attrs } = visitGenerics E G subs' { x with attrs } :=
    fun attrs => visitGenerics_local (x := { x with attrs }) h4
  simp only [visitHead, visitAttrs_local h1, visitMut_local _ h2, visitMut_local _ h3, h5]

theorem visitImplTrait_local {o : Option (Bool × Toks)} (h : AgreeParts E subs subs' (optPart .path (o.map (·.2)))) :
    visitImplTrait E G subs o = visitImplTrait E G subs' o := by
  cases o with
  | none => simp only [visitImplTrait]
  | some x =>
    obtain ⟨b, p⟩ := x
    simp only [Option.map_some, optPart, agreeParts_cons] at h
    simp only [visitImplTrait, visitMut_local _ h.1]

theorem visitOther_local {ts : Toks} (h : AgreeOn E subs subs' [.group .brace ts]) : visitOther E G subs ts = visitOther E G subs' ts := by
  simp only [visitOther, visitNode_local _ _ _ h]

mutual
theorem visitStmts_local (ss : List Stmt) (h : AgreeParts E subs subs' (stmtsParts ss)) : visitStmts E G subs ss = visitStmts E G subs' ss := by
  match ss with
  | [] => simp only [visitStmts]
  | s :: ss =>
    simp only [stmtsParts, agreeParts_append] at h
    simp only [visitStmts, visitStmt_local s h.1, visitStmts_local ss h.2]
theorem visitStmt_local (s : Stmt) (h : AgreeParts E subs subs' (stmtParts s)) : visitStmt E G subs s = visitStmt E G subs' s := by
  match s with
  | .item i =>
    simp only [stmtParts] at h
    simp only [visitStmt, visitItem_local i h]
  | .other ts =>
    simp only [stmtParts, agreeParts_cons] at h
    simp only [visitStmt, visitOther_local h.1]
theorem visitItem_local (i : Item) (h : AgreeParts E subs subs' (itemParts i)) : visitItem E G subs i = visitItem E G subs' i := by
  match i with
  | .fn attrs vis sig block =>
    simp only [itemParts, agreeParts_append, agreeParts_cons] at h
    obtain ⟨⟨h1, h2, h3, -⟩, h4⟩ := h
    simp only [visitItem, visitAttrs_local h1, visitMut_local _ h2, visitMut_local _ h3, visitStmts_local block h4]
  | .struct .. =>
    simp only [itemParts, agreeParts_append] at h
    simp only [visitItem, visitHead_local h.1, visitFields_local h.2]
  | .enum .. =>
    simp only [itemParts, agreeParts_append] at h
    simp only [visitItem, visitHead_local h.1, visitPunct_local (fun x hx => visitVariant_local (agreeParts_flatMap h.2 x hx))]
  | .union .. =>
    simp only [itemParts, agreeParts_append] at h
    simp only [visitItem, visitHead_local h.1, visitPunct_local (fun x hx => visitField_local (agreeParts_flatMap h.2 x hx))]
  | .trait _ _ _ _ _ s items =>
    simp only [itemParts, agreeParts_append] at h
    obtain ⟨⟨h1, h2⟩, h3⟩ := h
    have h4 : ∀ x ∈ s.items, visitMut E G subs .bound x = visitMut E G subs' .bound x :=
      fun x hx => visitMut_local _ (h2 (.node .bound, x) (List.mem_map.2 ⟨x, hx, rfl⟩))
    simp only [visitItem, visitHead_local h1, visitPunct_local h4, visitTraitItems_local items h3]
  | .impl x _ _ _ _ items =>
    simp only [itemParts, agreeParts_append, agreeParts_cons] at h
    obtain ⟨⟨⟨⟨h1, h2, -⟩, h3⟩, h4, -⟩, h5⟩ := h
    have h6 : ∀ attrs, visitGenerics E G subs { x with attrs } = visitGenerics E G subs' { x with attrs } :=
      fun attrs => visitGenerics_local (x := { x with attrs }) h2
    simp only [visitItem, visitAttrs_local h1, visitMut_local _ h4, h6, visitImplTrait_local h3, visitImplItems_local items h5]
  | .mod _ _ _ _ none =>
    simp only [itemParts, agreeParts_append, agreeParts_cons] at h
    obtain ⟨⟨h1, h2, h3, -⟩, -⟩ := h
    simp only [visitItem, visitAttrs_local h1, visitMut_local _ h2, visitMut_local _ h3]
  | .mod _ _ _ _ (some items) =>
    simp only [itemParts, agreeParts_append, agreeParts_cons] at h
    obtain ⟨⟨h1, h2, h3, -⟩, h4⟩ := h
    simp only [visitItem, visitAttrs_local h1, visitMut_local _ h2, visitMut_local _ h3, visitItems_local items h4]
  | .foreignMod _ _ _ items =>
    simp only [itemParts, agreeParts_append] at h
    obtain ⟨⟨h1, h2⟩, h3⟩ := h
    have h4 : ∀ x ∈ items, visitMut E G subs .foreignItem x = visitMut E G subs' .foreignItem x :=
      fun x hx => visitMut_local _ (h3 (.node .foreignItem, x) (List.mem_map.2 ⟨x, hx, rfl⟩))
    simp only [visitItem, visitAttrs_local h1, visitOpt_local _ h2, visitEach_local h4]
  | .other ts =>
    simp only [itemParts, agreeParts_cons] at h
    simp only [visitItem, visitMut_local _ h.1]
theorem visitItems_local (is : List Item) (h : AgreeParts E subs subs' (itemsParts is)) : visitItems E G subs is = visitItems E G subs' is := by
  match is with
  | [] => simp only [visitItems]
  | i :: is =>
    simp only [itemsParts, agreeParts_append] at h
    simp only [visitItems, visitItem_local i h.1, visitItems_local is h.2]
theorem visitTraitItem_local (i : TraitItem) (h : AgreeParts E subs subs' (traitItemParts i)) :
    visitTraitItem E G subs i = visitTraitItem E G subs' i := by
  match i with
  | .fn _ _ none =>
    simp only [traitItemParts, agreeParts_append, agreeParts_cons] at h
    simp only [visitTraitItem, visitAttrs_local h.1.1, visitMut_local _ h.1.2.1]
  | .fn _ _ (some block) =>
    simp only [traitItemParts, agreeParts_append, agreeParts_cons] at h
    simp only [visitTraitItem, visitAttrs_local h.1.1, visitMut_local _ h.1.2.1, visitStmts_local block h.2]
  | .other ts =>
    simp only [traitItemParts, agreeParts_cons] at h
    simp only [visitTraitItem, visitMut_local _ h.1]
theorem visitTraitItems_local (is : List TraitItem) (h : AgreeParts E subs subs' (traitItemsParts is)) :
    visitTraitItems E G subs is = visitTraitItems E G subs' is := by
  match is with
  | [] => simp only [visitTraitItems]
  | i :: is =>
    simp only [traitItemsParts, agreeParts_append] at h
    simp only [visitTraitItems, visitTraitItem_local i h.1, visitTraitItems_local is h.2]
theorem visitImplItem_local (i : ImplItem) (h : AgreeParts E subs subs' (implItemParts i)) :
    visitImplItem E G subs i = visitImplItem E G subs' i := by
  match i with
  | .fn _ _ _ _ block =>
    simp only [implItemParts, agreeParts_append, agreeParts_cons] at h
    obtain ⟨⟨h1, h2, h3, -⟩, h4⟩ := h
    simp only [visitImplItem, visitAttrs_local h1, visitMut_local _ h2, visitMut_local _ h3, visitStmts_local block h4]
  | .other ts =>
    simp only [implItemParts, agreeParts_cons] at h
    simp only [visitImplItem, visitMut_local _ h.1]
theorem visitImplItems_local (is : List ImplItem) (h : AgreeParts E subs subs' (implItemsParts is)) :
    visitImplItems E G subs is = visitImplItems E G subs' is := by
  match is with
  | [] => simp only [visitImplItems]
  | i :: is =>
    simp only [implItemsParts, agreeParts_append] at h
    simp only [visitImplItems, visitImplItem_local i h.1, visitImplItems_local is h.2]
end

theorem visitBlock_local (b : List Stmt) (h : AgreeParts E subs subs' (stmtsParts b)) : visitBlock E G subs b = visitBlock E G subs' b := by
  simp only [visitBlock, visitStmts_local b h]
end

end Verif
