import Verif.Model.Visitor
/-! # The only errors of the visitor are substitution errors -/

namespace Verif

/-- A substitution error: it names an alias, and the text of its value. -/
def IsSubst (E : Ext) (subs : Subs) (e : Err) : Prop := ∃ n v, subs.get n = some v ∧ e = .substitution n (E.render v.toTokens)

section
variable {E : Ext} {valid : Toks → Bool} {subs : Subs}

/-- The errors of a computation are substitution errors, and its results satisfy `P`. -/
def Sat {α : Type} (E : Ext) (subs : Subs) (P : α → Prop) (r : Res α) : Prop := (∀ e, r = .err e → IsSubst E subs e) ∧ ∀ a, r = .ok a → P a

theorem sat_ok {α : Type} {P : α → Prop} {a : α} (h : P a) : Sat E subs P (.ok a) := ⟨fun _ h => (by cases h), fun _ h' => (by cases h'; exact h)⟩
theorem sat_panic {α : Type} {P : α → Prop} : Sat E subs P .panic := ⟨fun _ h => (by cases h), fun _ h => (by cases h)⟩
theorem sat_bind {α β : Type} {P : α → Prop} {Q : β → Prop} {r : Res α} {f : α → Res β} (h : Sat E subs P r) (hf : ∀ a, P a → Sat E subs Q (f a)) :
    Sat E subs Q (r >>= f) := by
  cases r with
  | ok a => exact hf a (h.2 a rfl)
  | err e => exact ⟨fun _ h' => (by cases h'; exact h.1 e rfl), fun _ h => (by cases h)⟩
  | panic => exact sat_panic

theorem foldGroup_sat (ts us : Toks) (n : Nat) : Sat E subs (fun _ => True) (Ctx.foldGroup ts us n) := by
  unfold Ctx.foldGroup
  split <;> first | exact sat_ok trivial | exact sat_panic

theorem popFold_sat (c : Ctx) : Sat E subs (fun _ => True) c.popFold := by
  unfold Ctx.popFold
  split
  · exact sat_bind (foldGroup_sat _ _ _) fun _ _ => sat_ok trivial
  · exact sat_ok trivial
  · exact sat_ok trivial

theorem foldFrames_sat (acc : Toks) (c : Ctx) : Sat E subs (fun _ => True) (Ctx.foldFrames acc c) := by
  induction c generalizing acc with
  | nil => exact sat_ok trivial
  | cons f c ih => exact sat_bind (foldGroup_sat _ _ _) fun _ _ => ih _

theorem currentStream_sat (c : Ctx) : Sat E subs (fun _ => True) c.currentStream := by
  cases c with
  | nil => exact sat_ok trivial
  | cons f c => exact foldFrames_sat _ _

theorem popRemove_sat (c : Ctx) : Sat E subs (fun _ => True) c.popRemove := by
  unfold Ctx.popRemove
  split
  · split <;> first | exact sat_ok trivial | exact sat_panic
  · exact sat_ok trivial
  · exact sat_ok trivial

/-- The state of the visitor names an alias, and the text of its value. -/
def Names (E : Ext) (subs : Subs) (s : SubstState) : Prop := ∀ n t, s = some (n, t) → ∃ v, subs.get n = some v ∧ t = E.render v.toTokens

theorem afterReplace_sat {s : SubstState} (hs : Names E subs s) (c : Ctx) : Sat E subs (Names E subs) ((substVisitor E valid subs).afterReplace s c) := by
  refine sat_bind (currentStream_sat c) fun ts _ => ?_
  split
  · exact sat_ok hs
  · split
    · obtain ⟨v, h1, h2⟩ := hs _ _ rfl
      exact ⟨fun _ h => (by cases h; exact ⟨_, v, h1, by rw [h2]⟩), fun _ h => (by cases h)⟩
    · exact sat_panic

theorem visitLeaf_sat {s : SubstState} (hs : Names E subs s) (c : Ctx) (t : Tok) :
    Sat E subs (fun p => Names E subs p.1) ((substVisitor E valid subs).visitLeaf s c t) := by
  cases t with
  | ident n =>
    simp only [Visitor.visitLeaf, substVisitor]
    split
    · rename_i v hv
      exact sat_ok (by intro m t h; cases h; exact ⟨v, hv, rfl⟩)
    · exact sat_ok hs
  | punct ch j => exact sat_ok hs
  | lit l =>
    simp only [Visitor.visitLeaf, substVisitor]
    split <;> exact sat_ok hs
  | group d ts => exact sat_panic

/-- The state after a step. -/
def StepOut.names (E : Ext) (subs : Subs) : StepOut SubstState → Prop
  | .next s _ => Names E subs s
  | .done _ => True

theorem walkStep_sat {s : SubstState} (hs : Names E subs s) (c : Ctx) :
    Sat E subs (StepOut.names E subs) (walkStep (substVisitor E valid subs) s c) := by
  unfold walkStep
  split
  · exact sat_panic
  · rename_i i ts parents
    split
    · refine sat_bind (P := fun p => Names E subs p.1) (sat_ok hs) fun ⟨s, act⟩ hs => ?_
      cases parents with
      | nil =>
        cases act with
        | cont => exact sat_ok trivial
        | skip => exact sat_ok trivial
        | replace new => exact sat_bind (afterReplace_sat hs _) fun _ _ => sat_ok trivial
      | cons f st =>
        cases act with
        | cont => exact sat_bind (popFold_sat _) fun _ _ => sat_ok hs
        | skip => exact sat_bind (popRemove_sat _) fun _ _ => sat_ok hs
        | replace new => exact sat_bind (popFold_sat _) fun _ _ => sat_bind (afterReplace_sat hs _) fun _ h => sat_ok h
    · split
      · exact sat_panic
      · refine sat_bind (P := fun p => Names E subs p.1) (sat_ok hs) fun ⟨s, act⟩ hs => ?_
        cases act with
        | cont =>
          refine sat_bind (P := fun p => Names E subs p.1) (sat_ok hs) fun ⟨s, act⟩ hs => ?_
          cases act with
          | cont => exact sat_ok hs
          | skip => exact sat_bind (popRemove_sat _) fun _ _ => sat_ok hs
          | replace new => exact sat_bind (afterReplace_sat hs _) fun _ h => sat_ok h
        | skip => exact sat_ok hs
        | replace new => exact sat_bind (afterReplace_sat hs _) fun _ h => sat_ok h
      · refine sat_bind (visitLeaf_sat hs _ _) fun ⟨s, act⟩ hs => ?_
        cases act with
        | cont => exact sat_ok hs
        | skip => exact sat_ok hs
        | replace new => exact sat_bind (afterReplace_sat hs _) fun _ h => sat_ok h

theorem walkN_err (n : Nat) {s : SubstState} (hs : Names E subs s) (c : Ctx) {e : Err}
    (h : walkN (substVisitor E valid subs) n s c = some (.err e)) : IsSubst E subs e := by
  induction n generalizing s c with
  | zero => cases h
  | succ n ih =>
    unfold walkN at h
    split at h
    · cases h
    · rename_i s' c' he
      exact ih ((walkStep_sat hs c).2 _ he) _ h
    · rename_i e' he
      cases h
      exact (walkStep_sat hs c).1 _ he
    · cases h

theorem substituteIdents_err {node : Toks} {e : Err} (h : substituteIdents E valid subs node = .err e) : IsSubst E subs e := by
  unfold substituteIdents at h
  cases hw : walk (substVisitor E valid subs) none node with
  | ok ts =>
    rw [hw] at h
    simp only [Res.bind_eq, Res.bind_ok] at h
    split at h <;> cases h
  | panic => rw [hw] at h; cases h
  | err e' =>
    rw [hw] at h
    cases h
    unfold walk at hw
    cases hn : walkN (substVisitor E valid subs) (Tok.weightL node + 1) none [⟨0, node⟩] with
    | none => rw [hn] at hw; cases hw
    | some r =>
      rw [hn] at hw
      simp only [Option.getD_some] at hw
      subst hw
      exact walkN_err _ (by intro n t h; cases h) _ hn
end

section
variable {E : Ext} {G : Grammar} {subs : Subs}

/-- A visit leaves only substitution errors behind. -/
def Only {α : Type} (E : Ext) (subs : Subs) (m : VisitM α) : Prop :=
  ∀ s, (∀ e, s = some e → IsSubst E subs e) → (∀ e, m s ≠ .err e) ∧ ∀ a s', m s = .ok (a, s') → ∀ e, s' = some e → IsSubst E subs e

theorem only_pure {α : Type} (a : α) : Only E subs (pure a : VisitM α) := by
  intro s hs
  refine ⟨fun e h => (by cases h), fun a s' h => ?_⟩
  cases h
  exact hs

theorem only_bind {α β : Type} {m : VisitM α} {f : α → VisitM β} (hm : Only E subs m) (hf : ∀ a, Only E subs (f a)) : Only E subs (m >>= f) := by
  intro s hs
  have := hm s hs
  show (∀ e, (m s).bind (fun p => f p.1 p.2) ≠ .err e) ∧ ∀ a s', (m s).bind (fun p => f p.1 p.2) = .ok (a, s') → ∀ e, s' = some e → IsSubst E subs e
  cases h : m s with
  | err e => exact (this.1 e h).elim
  | panic => exact ⟨fun e h => (by cases h), fun a s' h => (by cases h)⟩
  | ok p => exact hf p.1 p.2 (this.2 p.1 p.2 h)

theorem only_failed : Only E subs VisitM.failed := by
  intro s hs
  refine ⟨fun e h => (by cases h), fun a s' h => ?_⟩
  cases h
  exact hs

theorem only_fail {e : Err} (h : IsSubst E subs e) : Only E subs (VisitM.fail e) := by
  intro s hs
  refine ⟨fun e h => (by cases h), fun a s' h' => ?_⟩
  cases h'
  intro e' he
  cases he
  exact h

theorem only_panic {α : Type} : Only E subs (VisitM.panic : VisitM α) := fun _ _ => ⟨fun e h => (by cases h), fun a s' h => (by cases h)⟩

theorem only_ite {α : Type} {b : Bool} {x y : VisitM α} (hx : Only E subs x) (hy : Only E subs y) : Only E subs (if b = true then x else y) := by
  cases b
  · exact hy
  · exact hx


theorem only_visitNode {α : Type} (valid : Toks → Bool) (parse : Toks → Option α) (toks : Toks) (node : α) :
    Only E subs (visitNode E subs valid parse toks node) := by
  unfold visitNode
  refine only_bind only_failed fun b => only_ite (only_pure _) ?_
  split
  · split
    · exact only_pure _
    · exact only_panic
  · rename_i e he
    exact only_bind (only_fail (substituteIdents_err he)) fun _ => only_pure _
  · exact only_panic

macro "only" : tactic => `(tactic| repeat (with_reducible first
  | exact only_pure _ | exact only_failed | exact only_panic | assumption | apply only_visitNode
  | apply only_ite | (refine only_bind ?_ (fun _ => ?_))))

theorem only_visitMut (k : NodeKind) (node : Toks) : Only E subs (visitMut E G subs k node) := only_visitNode _ _ _ _

theorem only_visitAttrs (as : List Attr) : Only E subs (visitAttrs E G subs as) := by
  unfold visitAttrs
  only

theorem only_visitOpt (k : NodeKind) (o : Option Toks) : Only E subs (visitOpt E G subs k o) := by
  cases o with
  | none => exact only_pure _
  | some ts => exact only_bind (only_visitMut _ _) fun _ => only_pure _

macro "only1" : tactic => `(tactic| repeat (with_reducible first
  | exact only_pure _ | exact only_failed | exact only_panic | assumption | exact only_visitMut _ _ | exact only_visitAttrs _ | exact only_visitOpt _ _
  | apply only_ite | (refine only_bind ?_ (fun _ => ?_))))

theorem only_visitField (f : Field) : Only E subs (visitField E G subs f) := by
  unfold visitField
  only1

theorem only_visitEach {α : Type} {visit : α → VisitM α} (h : ∀ a, Only E subs (visit a)) (xs : List α) : Only E subs (visitEach visit xs) := by
  induction xs with
  | nil => exact only_pure _
  | cons x xs ih =>
    unfold visitEach
    refine only_bind (h x) fun _ => ?_
    only1

theorem only_visitPunct {α : Type} {visit : α → VisitM α} (h : ∀ a, Only E subs (visit a)) (p : Punctuated α) : Only E subs (visitPunct visit p) :=
  only_bind (only_visitEach h _) fun _ => only_pure _

theorem only_visitFields (f : Fields) : Only E subs (visitFields E G subs f) := by
  unfold visitFields
  refine only_bind only_failed fun b => only_ite (only_pure _) ?_
  split
  · exact only_bind (only_visitPunct only_visitField _) fun _ => only_pure _
  · exact only_bind (only_visitPunct only_visitField _) fun _ => only_pure _
  · exact only_pure _

theorem only_visitVariant (v : Variant) : Only E subs (visitVariant E G subs v) := by
  unfold visitVariant
  have := only_visitFields (E := E) (G := G) (subs := subs) v.fields
  only1

theorem only_visitGenerics (h : Head) : Only E subs (visitGenerics E G subs h) := by
  unfold visitGenerics
  refine only_bind only_failed fun b => only_ite (only_pure _) ?_
  split
  · exact only_pure _
  · rename_i e he
    exact only_bind (only_fail (substituteIdents_err he)) fun _ => only_pure _
  · exact only_panic

theorem only_visitHead (h : Head) (vis ident : Toks) : Only E subs (visitHead E G subs h vis ident) := by
  unfold visitHead
  have := fun h => only_visitGenerics (E := E) (G := G) (subs := subs) h
  repeat (with_reducible first
    | exact this _ | exact only_pure _ | exact only_failed | exact only_visitMut _ _ | exact only_visitAttrs _
    | apply only_ite | (refine only_bind ?_ (fun _ => ?_)))

theorem only_visitImplTrait (o : Option (Bool × Toks)) : Only E subs (visitImplTrait E G subs o) := by
  rcases o with _ | ⟨b, p⟩
  · exact only_pure _
  · exact only_bind (only_visitMut _ _) fun _ => only_pure _

theorem only_visitOther (ts : Toks) : Only E subs (visitOther E G subs ts) := by
  unfold visitOther
  split
  · exact only_panic
  · exact only_visitNode _ _ _ _

macro "only2" : tactic => `(tactic| repeat (with_reducible first
  | exact only_pure _ | exact only_failed | exact only_panic | assumption | exact only_visitMut _ _ | exact only_visitAttrs _ | exact only_visitOpt _ _
  | exact only_visitGenerics _ | exact only_visitHead _ _ _ | exact only_visitImplTrait _ | exact only_visitFields _
  | exact only_visitPunct only_visitField _ | exact only_visitPunct only_visitVariant _ | exact only_visitPunct (only_visitMut _) _
  | exact only_visitEach (only_visitMut _) _
  | apply only_ite | (refine only_bind ?_ (fun _ => ?_))))

mutual
theorem only_visitStmts (ss : List Stmt) : Only E subs (visitStmts E G subs ss) := by
  match ss with
  | [] => unfold visitStmts; exact only_pure _
  | s :: ss =>
    unfold visitStmts
    have h1 := only_visitStmt s
    have h2 := only_visitStmts ss
    only2
theorem only_visitStmt (s : Stmt) : Only E subs (visitStmt E G subs s) := by
  match s with
  | .item i => unfold visitStmt; have h1 := only_visitItem i; only2
  | .other ts => unfold visitStmt; exact only_visitOther ts
theorem only_visitItem (i : Item) : Only E subs (visitItem E G subs i) := by
  match i with
  | .fn attrs vis sig block => unfold visitItem; have h1 := only_visitStmts block; only2
  | .struct .. => unfold visitItem; only2
  | .enum .. => unfold visitItem; only2
  | .union .. => unfold visitItem; only2
  | .trait _ _ _ _ _ _ items => unfold visitItem; have h1 := only_visitTraitItems items; only2
  | .impl _ _ _ _ _ items => unfold visitItem; have h1 := only_visitImplItems items; only2
  | .mod _ _ _ _ none => unfold visitItem; only2
  | .mod _ _ _ _ (some items) => unfold visitItem; have h1 := only_visitItems items; only2
  | .foreignMod .. => unfold visitItem; only2
  | .other ts => unfold visitItem; only2
theorem only_visitItems (is : List Item) : Only E subs (visitItems E G subs is) := by
  match is with
  | [] => unfold visitItems; exact only_pure _
  | i :: is => unfold visitItems; have h1 := only_visitItem i; have h2 := only_visitItems is; only2
theorem only_visitTraitItem (i : TraitItem) : Only E subs (visitTraitItem E G subs i) := by
  match i with
  | .fn _ _ none => unfold visitTraitItem; only2
  | .fn _ _ (some block) => unfold visitTraitItem; have h1 := only_visitStmts block; only2
  | .other ts => unfold visitTraitItem; only2
theorem only_visitTraitItems (is : List TraitItem) : Only E subs (visitTraitItems E G subs is) := by
  match is with
  | [] => unfold visitTraitItems; exact only_pure _
  | i :: is => unfold visitTraitItems; have h1 := only_visitTraitItem i; have h2 := only_visitTraitItems is; only2
theorem only_visitImplItem (i : ImplItem) : Only E subs (visitImplItem E G subs i) := by
  match i with
  | .fn _ _ _ _ block => unfold visitImplItem; have h1 := only_visitStmts block; only2
  | .other ts => unfold visitImplItem; only2
theorem only_visitImplItems (is : List ImplItem) : Only E subs (visitImplItems E G subs is) := by
  match is with
  | [] => unfold visitImplItems; exact only_pure _
  | i :: is => unfold visitImplItems; have h1 := only_visitImplItem i; have h2 := only_visitImplItems is; only2
end

theorem visitBlock_err {b : List Stmt} {e : Err} (h : visitBlock E G subs b = .err e) : IsSubst E subs e := by
  unfold visitBlock at h
  have := only_visitStmts (E := E) (G := G) (subs := subs) b none (by intro e h; cases h)
  cases hr : visitStmts E G subs b none with
  | err e => exact (this.1 e hr).elim
  | panic => rw [hr] at h; cases h
  | ok p =>
    obtain ⟨ss, o⟩ := p
    rw [hr] at h
    simp only [Res.bind_eq, Res.bind_ok] at h
    cases o with
    | none => cases h
    | some e' => cases h; exact this.2 ss _ hr e rfl
end

end Verif
