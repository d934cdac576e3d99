import Verif.Spec.Interchange
import Verif.Proofs.WriteOut
/-! # Exchanging parts of definitions: proofs -/

namespace Verif
open Spec

section
variable {E : Ext} {seed : Nat} {F : Str → Prop}

theorem Spec.AlikeChecks.refl (expected : Option Ty) (r : Except Err (Nat × TExpr)) : AlikeChecks E seed F expected r r := by
  cases r with
  | ok p => exact ⟨rfl, rfl, fun _ _ => rfl⟩
  | error x => exact fun _ => rfl

theorem Spec.AlikeChecks.cases {expected : Option Ty} {r r' : Except Err (Nat × TExpr)} (h : AlikeChecks E seed F expected r r') :
    (∃ c te te', r = .ok (c, te) ∧ r' = .ok (c, te') ∧ te.target = te'.target ∧ ∀ ρ, Free F ρ → te.eval E seed ρ = te'.eval E seed ρ) ∨
    ∃ x x', r = .error x ∧ r' = .error x' ∧ (expected = none → blur x = blur x') := by
  rcases r with x | ⟨c, te⟩ <;> rcases r' with x' | ⟨c', te'⟩
  · exact .inr ⟨x, x', rfl, rfl, h⟩
  · cases h
  · cases h
  · obtain ⟨rfl, h1, h2⟩ := h
    exact .inl ⟨c, te, te', rfl, rfl, h1, h2⟩

theorem Spec.AlikeChecks.trans {expected : Option Ty} {r r' r'' : Except Err (Nat × TExpr)} (h : AlikeChecks E seed F expected r r')
    (h' : AlikeChecks E seed F expected r' r'') : AlikeChecks E seed F expected r r'' := by
  rcases AlikeChecks.cases h with ⟨c, te, te', rfl, rfl, h3, h4⟩ | ⟨x, x', rfl, rfl, h3⟩
  · rcases r'' with x | ⟨c', te''⟩
    · cases h'
    · exact ⟨h'.1, h3.trans h'.2.1, fun ρ hρ => (h4 ρ hρ).trans (h'.2.2 ρ hρ)⟩
  · rcases r'' with x | ⟨c', te''⟩
    · exact fun hn => (h3 hn).trans (h' hn)
    · cases h'

theorem Spec.SameMeaning.trans {e e' e'' : Expr} (h : SameMeaning E seed F e e') (h' : SameMeaning E seed F e' e'') : SameMeaning E seed F e e'' :=
  ⟨fun Γ hΓ expected => AlikeChecks.trans (h.check Γ hΓ expected) (h'.check Γ hΓ expected)⟩

theorem Spec.Interchangeable.trans {e e' e'' : Expr} (h : Interchangeable E seed F e e') (h' : Interchangeable E seed F e' e'') :
    Interchangeable E seed F e e'' :=
  { h.toSameMeaning.trans h'.toSameMeaning with overflows := fun Γ hΓ expected => (h.overflows Γ hΓ expected).trans (h'.overflows Γ hΓ expected) }

theorem Spec.SameMeaning.refl (e : Expr) : SameMeaning E seed F e e := ⟨fun _ _ _ => AlikeChecks.refl _ _⟩

theorem Spec.SameMeaning.value {e e' : Expr} (h : SameMeaning E seed F e e') : SameValue E seed F e e' := by
  intro Γ hΓ
  rcases AlikeChecks.cases (h.check Γ hΓ none) with ⟨c, te, te', h1, h2, h3, h4⟩ | ⟨x, x', h1, h2, h3⟩
  · rw [h1, h2]; exact ⟨h3, h4⟩
  · rw [h1, h2]; exact h3 rfl

theorem Spec.AlikeValues.cases {r r' : Except Err (Nat × TExpr)} (h : AlikeValues E seed F r r') :
    (∃ c c' te te', r = .ok (c, te) ∧ r' = .ok (c', te') ∧ te.target = te'.target ∧ ∀ ρ, Free F ρ → te.eval E seed ρ = te'.eval E seed ρ) ∨
    ∃ x x', r = .error x ∧ r' = .error x' ∧ blur x = blur x' := by
  cases r <;> cases r'
  · exact .inr ⟨_, _, rfl, rfl, h⟩
  · exact h.elim
  · exact h.elim
  · exact .inl ⟨_, _, _, _, rfl, rfl, h⟩

/-- Typed arguments with the same values. -/
def AlikeArgs (E : Ext) (seed : Nat) (F : Str → Prop) (tes tes' : List TExpr) : Prop :=
  ∀ ρ, Free F ρ → TExpr.evalL E seed ρ tes = TExpr.evalL E seed ρ tes'

/-- Choices which differ in the arguments only, and these have the same values. -/
inductive AlikeChoice (E : Ext) (seed : Nat) (F : Str → Prop) : Choice → Choice → Prop
  | mk (c : Nat) (f : Func) {tes tes' : List TExpr} (h : AlikeArgs E seed F tes tes') : AlikeChoice E seed F ⟨c, f, tes⟩ ⟨c, f, tes'⟩

/-- The same for results which may be missing. -/
inductive AlikeOpt {α : Type} (R : α → α → Prop) : Option α → Option α → Prop
  | none : AlikeOpt R none none
  | some {a b : α} (h : R a b) : AlikeOpt R (some a) (some b)

theorem best_alike {l l' : List Choice} (h : All2 (AlikeChoice E seed F) l l') : AlikeOpt (AlikeChoice E seed F) (best l) (best l') := by
  induction h with
  | nil => exact .none
  | @cons a b as bs hab hs ih =>
    simp only [best]
    generalize best as = x at ih
    generalize best bs = y at ih
    cases ih with
    | none => exact .some hab
    | @some p q hpq =>
      simp only
      have : p.better a ↔ q.better b := by
        cases hab; cases hpq
        exact Iff.rfl
      by_cases hb : p.better a
      · rw [if_pos hb, if_pos (this.1 hb)]; exact .some hpq
      · rw [if_neg hb, if_neg (fun h => hb (this.2 h))]; exact .some hab

theorem filterMap_exchanged {α β : Type} {R : β → β → Prop} {g g' : α → Option β} (h : ∀ a, AlikeOpt R (g a) (g' a)) (l : List α) :
    All2 R (l.filterMap g) (l.filterMap g') := by
  induction l with
  | nil => exact .nil
  | cons a l ih =>
    have := h a
    simp only [List.filterMap_cons]
    generalize g a = x at this
    generalize g' a = y at this
    cases this with
    | none => exact ih
    | some h => exact .cons h ih

/-- Typed argument lists with their costs. -/
def AlikeCosts (E : Ext) (seed : Nat) (F : Str → Prop) (p q : Nat × List TExpr) : Prop := p.1 = q.1 ∧ AlikeArgs E seed F p.2 q.2

theorem exchangedL_length {B : Expr → Expr → Prop} : ∀ {es es' : List Expr}, ExchangedL B es es' → es.length = es'.length
  | _, _, .nil => rfl
  | _, _, .cons _ hs => congrArg (· + 1) (exchangedL_length hs)

theorem usable_alike {raw raw' : Option (Nat × Toks)} {n : Nat} {expected : Option Ty} {g g' : List (Ty × Nat) → Option (Nat × List TExpr)}
    (hg : ∀ ps, AlikeOpt (AlikeCosts E seed F) (g ps) (g' ps)) {f : Func} (hf : f.args = [.raw] → raw = raw') :
    AlikeOpt (AlikeChoice E seed F) (usable raw n expected g f) (usable raw' n expected g' f) := by
  have hr : (if f.args = [.raw] then raw else none) = if f.args = [.raw] then raw' else none := by
    split
    · next h => exact hf h
    · rfl
  unfold usable
  rw [hr]
  cases outCost f.out expected with
  | none => exact .none
  | some co =>
    simp only [Option.bind_eq_bind, Option.bind_some]
    cases (if f.args = [.raw] then raw' else none) with
    | some p => exact .some (.mk _ _ fun _ _ => rfl)
    | none =>
      cases paramsFor f n with
      | none => exact .none
      | some ps =>
        simp only [Option.bind_some]
        have := hg ps
        generalize g ps = x at this
        generalize g' ps = y at this
        cases this with
        | none => exact .none
        | @some a b h =>
          obtain ⟨c, tes⟩ := a
          obtain ⟨c', tes'⟩ := b
          obtain ⟨h1, h2⟩ := h
          cases h1
          exact .some (.mk _ _ h2)

theorem exchangeable_not_raw {n : Str} (hn : n ≠ S "raw") (hn' : n ≠ S "normalize") {fs : List Func} (hfs : builtinFuncs n = some fs) : ∀ f ∈ fs, f.args ≠ [.raw] := by
  intro f hf ha
  have hm := (builtinFuncs_mem hfs).1 hf
  rcases builtins_raw_names f hm.1 ha with h | h
  · exact hn (hm.2.symm.trans h)
  · exact hn' (hm.2.symm.trans h)

theorem builtins_text : ∀ f ∈ builtins, f.name = c! "raw" ∨ f.name = c! "normalize" → f.args = [.raw] := by
  decide +kernel

/-- Functions that see the text of their argument see nothing else. -/
theorem check_text {n : Str} (hn : n = S "raw" ∨ n = S "normalize") (Γ : TyEnv) (i i' r r' : Nat) (ts : Toks) (args args' : List Expr) (expected : Option Ty) :
    AlikeChecks E seed F expected (check builtinFuncs Γ (.call i n args (some (r, ts))) expected)
      (check builtinFuncs Γ (.call i' n args' (some (r', ts))) expected) ∧
    overflows builtinFuncs Γ (.call i n args (some (r, ts))) expected = overflows builtinFuncs Γ (.call i' n args' (some (r', ts))) expected := by
  simp only [check, overflows]
  cases hfs : builtinFuncs n with
  | none => exact ⟨AlikeChecks.refl _ _, rfl⟩
  | some fs =>
    have hr : ∀ f ∈ fs, f.args = [.raw] := by
      intro f hf
      have hm := (builtinFuncs_mem hfs).1 hf
      exact builtins_text f hm.1 (by rw [hm.2]; exact hn)
    have hu : fs.filterMap (usable (some (r, ts)) args.length expected fun ps => checkArgs builtinFuncs Γ args ps) =
        fs.filterMap (usable (some (r', ts)) args'.length expected fun ps => checkArgs builtinFuncs Γ args' ps) := by
      clear hfs
      induction fs with
      | nil => rfl
      | cons f fs ih =>
        have : usable (some (r, ts)) args.length expected (fun ps => checkArgs builtinFuncs Γ args ps) f =
            usable (some (r', ts)) args'.length expected (fun ps => checkArgs builtinFuncs Γ args' ps) f := by
          unfold usable
          rw [if_pos (hr f (by simp)), if_pos (hr f (by simp))]
        rw [List.filterMap_cons, List.filterMap_cons, this, ih fun f hf => hr f (by simp [hf])]
    simp only
    rw [hu]
    constructor
    · cases best (fs.filterMap (usable (some (r', ts)) args'.length expected fun ps => checkArgs builtinFuncs Γ args' ps)) with
      | none => exact fun _ => blur_refusal _ _ _
      | some ch => exact ⟨rfl, rfl, fun _ _ => rfl⟩
    · clear hfs hu
      induction fs with
      | nil => rfl
      | cons f fs ih =>
        simp only [List.any_cons, if_pos (hr f (by simp))]
        rw [ih fun f hf => hr f (by simp [hf])]
        congr 1
        cases outCost f.out expected <;> rfl

section
variable {B : Expr → Expr → Prop} (hB : ∀ e e', B e e' → SameMeaning E seed F e e')
include hB

mutual
/-- Exchanging parts which mean the same does not change the meaning. -/
theorem exchanged_same : ∀ {e e' : Expr}, Exchanged B e e' → SameMeaning E seed F e e'
  | _, _, .here h => hB _ _ h
  | _, _, .same e => .refl e
  | _, _, .value i i' k => ⟨fun Γ _ expected => by
      simp only [check]
      cases coercionCost (natural Γ k) (expected.getD (natural Γ k)) with
      | none => exact fun _ => rfl
      | some c => exact ⟨rfl, rfl, fun _ _ => rfl⟩⟩
  | _, _, .text i i' r r' ts args args' hn => ⟨fun Γ _ expected => (check_text hn Γ i i' r r' ts args args' expected).1⟩
  | _, _, .call i i' n raw raw' (args := args) (args' := args') hn hn' h => by
    have ihc := fun Γ (hΓ : Free F Γ) ps => exchangedL_costs h Γ hΓ ps
    have hl := exchangedL_length h
    refine ⟨fun Γ hΓ expected => ?_⟩
    simp only [check]
    cases hfs : builtinFuncs n with
    | none => exact AlikeChecks.refl _ _
    | some fs =>
      simp only
      rw [← hl]
      have hu : All2 (AlikeChoice E seed F) (fs.filterMap (usable raw args.length expected fun ps => checkArgs builtinFuncs Γ args ps))
          (fs.filterMap (usable raw' args.length expected fun ps => checkArgs builtinFuncs Γ args' ps)) := by
        have hr := exchangeable_not_raw hn hn' hfs
        clear hfs
        induction fs with
        | nil => exact .nil
        | cons f fs ih =>
          have := usable_alike (E := E) (seed := seed) (F := F) (raw := raw) (raw' := raw') (n := args.length) (expected := expected) (ihc Γ hΓ) (f := f)
            (fun h => absurd h (hr f (by simp)))
          have ih := ih fun f hf => hr f (by simp [hf])
          simp only [List.filterMap_cons]
          generalize usable raw args.length expected _ f = x at this ⊢
          generalize usable raw' args.length expected _ f = y at this ⊢
          cases this with
          | none => exact ih
          | some h => exact .cons h ih
      have := best_alike hu
      generalize best (List.filterMap (usable raw args.length expected fun ps => checkArgs builtinFuncs Γ args ps) fs) = x at this
      generalize best (List.filterMap (usable raw' args.length expected fun ps => checkArgs builtinFuncs Γ args' ps) fs) = y at this
      cases this with
      | none => exact fun _ => blur_refusal _ _ _
      | some h =>
        cases h with
        | mk c f h =>
          refine ⟨rfl, rfl, fun ρ hρ => ?_⟩
          simp only [TExpr.eval, h ρ hρ]
theorem exchangedL_costs : ∀ {es es' : List Expr}, ExchangedL B es es' → ∀ Γ, Free F Γ → ∀ ps,
    AlikeOpt (AlikeCosts E seed F) (checkArgs builtinFuncs Γ es ps) (checkArgs builtinFuncs Γ es' ps)
  | _, _, .nil, Γ, _, ps => by cases ps <;> exact .some ⟨rfl, fun _ _ => rfl⟩
  | _, _, .cons (es := es) (es' := es') h hs, Γ, hΓ, [] => by simp only [checkArgs]; exact .some ⟨rfl, fun _ _ => rfl⟩
  | _, _, .cons (es := es) (es' := es') h hs, Γ, hΓ, (t, m) :: ps => by
    have ih := exchangedL_costs hs Γ hΓ ps
    simp only [checkArgs]
    rcases AlikeChecks.cases ((exchanged_same h).check Γ hΓ (some t)) with ⟨c, te, te', h1, h2, -, h4⟩ | ⟨x, x', h1, h2, -⟩
    · rw [h1, h2]
      simp only
      generalize checkArgs builtinFuncs Γ es ps = x at ih
      generalize checkArgs builtinFuncs Γ es' ps = y at ih
      cases ih with
      | none => exact .none
      | some h =>
        refine .some ⟨by simp [h.1], fun ρ hρ => ?_⟩
        simp only [TExpr.evalL, h4 ρ hρ, h.2 ρ hρ]
    · rw [h1, h2]; exact .none
end
end

section
variable {B : Expr → Expr → Prop} (hB : ∀ e e', B e e' → Interchangeable E seed F e e')
include hB

mutual
theorem exchanged_overflows : ∀ {e e' : Expr}, Exchanged B e e' → ∀ Γ, Free F Γ → ∀ expected,
    overflows builtinFuncs Γ e expected = overflows builtinFuncs Γ e' expected
  | _, _, .here h => (hB _ _ h).overflows
  | _, _, .same e => fun _ _ _ => rfl
  | _, _, .value _ _ _ => fun _ _ _ => by simp only [overflows]
  | _, _, .text i i' r r' ts args args' hn => fun Γ _ expected => (check_text (E := E) (seed := seed) (F := F) hn Γ i i' r r' ts args args' expected).2
  | _, _, .call i i' n raw raw' (args := args) (args' := args') hn hn' h => by
    have iho := fun Γ (hΓ : Free F Γ) ps c => exchangedL_overflows h Γ hΓ ps c
    have hl := exchangedL_length h
    intro Γ hΓ expected
    simp only [overflows]
    cases hfs : builtinFuncs n with
    | none => rfl
    | some fs =>
      simp only
      rw [← hl]
      have hr := exchangeable_not_raw hn hn' hfs
      clear hfs
      induction fs with
      | nil => rfl
      | cons f fs ih =>
        simp only [List.any_cons]
        rw [ih fun f hf => hr f (by simp [hf])]
        simp only [if_neg (hr f (by simp)), iho Γ hΓ]
theorem exchangedL_overflows : ∀ {es es' : List Expr}, ExchangedL B es es' → ∀ Γ, Free F Γ → ∀ ps c,
    overflowsArgs builtinFuncs Γ es ps c = overflowsArgs builtinFuncs Γ es' ps c
  | _, _, .nil, Γ, _, ps, _ => rfl
  | _, _, .cons h hs, Γ, hΓ, [], _ => by simp only [overflowsArgs]
  | _, _, .cons h hs, Γ, hΓ, (t, m) :: ps, c => by
    have ih := fun c => exchangedL_overflows hs Γ hΓ ps c
    have hi := exchanged_overflows h
    simp only [overflowsArgs, hi Γ hΓ]
    rcases AlikeChecks.cases ((exchanged_same (fun e e' h => (hB e e' h).toSameMeaning) h).check Γ hΓ (some t)) with
      ⟨c, te, te', h1, h2, -, h4⟩ | ⟨x, x', h1, h2, -⟩
    · rw [h1, h2]; simp only [ih]
    · rw [h1, h2]
end

/-- Exchanging interchangeable parts gives an interchangeable expression. -/
theorem exchanged_interchangeable {e e' : Expr} (h : Exchanged B e e') : Interchangeable E seed F e e' :=
  { exchanged_same (fun e e' h => (hB e e' h).toSameMeaning) h with overflows := exchanged_overflows hB h }
end

theorem free_extend {α : Type} {Γ : Str → Option α} (h : Free F Γ) {n : Str} (hn : ¬ F n) (a : α) : Free F (extend Γ n a) := by
  intro s hs
  unfold extend
  rw [if_neg (by rintro rfl; exact hn hs)]
  exact h s hs

/-- Typed definitions with the same values. -/
inductive AlikeDefs (E : Ext) (seed : Nat) (F : Str → Prop) : List (Str × TExpr) → List (Str × TExpr) → Prop
  | nil : AlikeDefs E seed F [] []
  | cons {n : Str} (hn : ¬ F n) {te te' : TExpr} {tes tes' : List (Str × TExpr)} (h : ∀ ρ, Free F ρ → te.eval E seed ρ = te'.eval E seed ρ)
      (hs : AlikeDefs E seed F tes tes') : AlikeDefs E seed F ((n, te) :: tes) ((n, te') :: tes')

theorem evalSpecT_alike {tes tes' : List (Str × TExpr)} (h : AlikeDefs E seed F tes tes') : ∀ ρ, Free F ρ →
    evalSpecT E seed tes ρ = evalSpecT E seed tes' ρ := by
  induction h with
  | nil => exact fun _ _ => rfl
  | @cons n hn te te' tes tes' h _ ih =>
    intro ρ hρ
    simp only [evalSpecT, h ρ hρ]
    cases te'.eval E seed ρ with
    | err x => rfl
    | panic => rfl
    | ok v =>
      simp only [Res.bind_eq, Res.bind_ok]
      rw [ih]
      intro s hs
      unfold extend
      rw [if_neg (by rintro rfl; exact hn hs)]
      exact hρ s hs

section
variable {R : Expr → Expr → Prop} (hR : ∀ e e', R e e' → SameValue E seed F e e')
include hR

theorem checkSpec_by : ∀ {ds ds' : List (Str × Expr)}, DefsBy R ds ds' → (∀ d ∈ ds, ¬ F d.1) → ∀ Γ, Free F Γ →
    (∃ tes tes', checkSpec builtinFuncs ds Γ = .ok tes ∧ checkSpec builtinFuncs ds' Γ = .ok tes' ∧ AlikeDefs E seed F tes tes') ∨
    ∃ x x', checkSpec builtinFuncs ds Γ = .error x ∧ checkSpec builtinFuncs ds' Γ = .error x' ∧ blur x = blur x'
  | _, _, .nil, _, _, _ => .inl ⟨[], [], rfl, rfl, .nil⟩
  | _, _, .cons n h hs, hF, Γ, hΓ => by
    simp only [checkSpec]
    rcases AlikeValues.cases (hR _ _ h Γ hΓ) with ⟨c, c', te, te', h1, h2, h3, h4⟩ | ⟨x, x', h1, h2, h3⟩
    · rw [h1, h2]
      simp only [← h3]
      split
      · exact .inr ⟨_, _, rfl, rfl, rfl⟩
      · rcases checkSpec_by hs (fun d hd => hF d (by simp [hd])) _ (free_extend hΓ (hF (n, _) List.mem_cons_self) te.target) with
          ⟨tes, tes', h5, h6, h7⟩ | ⟨x, x', h5, h6, h7⟩
        · rw [h5, h6]; exact .inl ⟨_, _, rfl, rfl, .cons (hF (n, _) List.mem_cons_self) h4 h7⟩
        · rw [h5, h6]; exact .inr ⟨_, _, rfl, rfl, h7⟩
    · rw [h1, h2]; exact .inr ⟨_, _, rfl, rfl, h3⟩

theorem denote_by {ds ds' : List (Str × Expr)} (h : DefsBy R ds ds') (hF : ∀ d ∈ ds, ¬ F d.1) :
    blurR (denote E (Env.builtin seed) ds) = blurR (denote E (Env.builtin seed) ds') := by
  unfold denote
  simp only [Env.builtin]
  rcases checkSpec_by hR h hF (fun _ => none) (fun _ _ => rfl) with ⟨tes, tes', h5, h6, h7⟩ | ⟨x, x', h5, h6, h7⟩
  · rw [h5, h6]
    simp only
    rw [evalSpecT_alike h7 _ fun _ _ => rfl]
  · rw [h5, h6]; simp only [blurR, h7]

/-- Definitions whose values are the same give the same, unless costs overflow. -/
theorem outcome_by {ds ds' : List (Str × Expr)} (h : DefsBy R ds ds') (hF : ∀ d ∈ ds, ¬ F d.1) :
    blurR (outcome E (Env.builtin seed) ds) = blurR (outcome E (Env.builtin seed) ds') ∨ outcome E (Env.builtin seed) ds = .panic ∨
      outcome E (Env.builtin seed) ds' = .panic := by
  unfold outcome
  split
  · exact .inr (.inl rfl)
  split
  · exact .inr (.inr rfl)
  · exact .inl (denote_by hR h hF)
end

section
variable {B : Expr → Expr → Prop} (hB : ∀ e e', B e e' → Interchangeable E seed F e e')
include hB

theorem overflowsSpec_exchanged : ∀ {ds ds' : List (Str × Expr)}, ExchangedDefs B ds ds' → (∀ d ∈ ds, ¬ F d.1) → ∀ Γ, Free F Γ →
    overflowsSpec builtinFuncs ds Γ = overflowsSpec builtinFuncs ds' Γ
  | _, _, .nil, _, _, _ => rfl
  | _, _, .cons n h hs, hF, Γ, hΓ => by
    have hi := exchanged_interchangeable hB h
    simp only [overflowsSpec, hi.overflows Γ hΓ]
    rcases AlikeChecks.cases (hi.check Γ hΓ none) with ⟨c, te, te', h1, h2, h3, -⟩ | ⟨x, x', h1, h2, -⟩
    · rw [h1, h2]
      simp only [h3]
      rw [overflowsSpec_exchanged hs (fun d hd => hF d (by simp [hd])) _ (free_extend hΓ (hF (n, _) List.mem_cons_self) _)]
    · rw [h1, h2]

/-- Definitions in which interchangeable parts have been exchanged have the same values, or the same error apart from the quotation. -/
theorem outcome_exchanged {env : Env} (henv : env = Env.builtin seed) {ds ds' : List (Str × Expr)} (h : ExchangedDefs B ds ds') (hF : ∀ d ∈ ds, ¬ F d.1) :
    blurR (outcome E env ds) = blurR (outcome E env ds') := by
  subst henv
  have h1 := overflowsSpec_exchanged hB h hF (fun _ => none) (fun _ _ => rfl)
  have hd := denote_by (R := Exchanged B) (fun e e' h => (exchanged_interchangeable hB h).toSameMeaning.value) h hF
  have h1 : overflowsSpec (Env.builtin seed).funcs ds (fun _ => none) = overflowsSpec (Env.builtin seed).funcs ds' (fun _ => none) := h1
  unfold outcome
  by_cases ho : overflowsSpec (Env.builtin seed).funcs ds' (fun _ => none) = true
  · rw [if_pos ho, if_pos (h1.trans ho)]
  · rw [if_neg ho, if_neg (fun h => ho (h1.symm.trans h)), hd]
end

end

end Verif
