import Verif.Proofs.Sound
/-! # The built-in functions meet the conditions of `Verif.Proofs.Sound` -/

namespace Verif
open Spec

theorem builtinFuncs_mem {name : Str} {fs : List Func} (h : builtinFuncs name = some fs) {f : Func} :
    f ∈ fs ↔ f ∈ builtins ∧ f.name = name := by
  unfold builtinFuncs at h
  split at h
  · cases h
  · cases h; simp [List.mem_filter]

theorem inTable_builtin {f : Func} (h : InTable builtinFuncs f) : f ∈ builtins := by
  obtain ⟨name, fs, h1, h2⟩ := h
  exact ((builtinFuncs_mem h1).1 h2).1

/-- All parameter types of a function. -/
def Func.paramTypes (f : Func) : List Ty := f.fixedArgs ++ f.variadicArg.toList

theorem mem_paramTypes {f : Func} {t : Ty} : t ∈ f.paramTypes ↔ t ∈ f.fixedArgs ∨ f.variadicArg = some t := by
  simp [Func.paramTypes]

instance (t : Ty) : Decidable t.parsed := by unfold Ty.parsed; infer_instance

theorem builtins_simple : ∀ f ∈ builtins, ∀ t ∈ f.paramTypes, t.isVariadic = false := by decide

theorem builtins_overload : ∀ f ∈ builtins, ∀ t ∈ f.paramTypes, t.parsed →
    f.args = [t] ∧ ∃ g ∈ builtins, g.name = f.name ∧ g.args = [.ident] ∧ g.out = f.out := by decide

theorem builtins_tame : Tame builtinFuncs where
  simple := by
    intro name fs f t h hf ht
    exact builtins_simple f ((builtinFuncs_mem h).1 hf).1 t (mem_paramTypes.2 ht)
  overload := by
    intro name fs f t h hf ht hp
    obtain ⟨hb, hn⟩ := (builtinFuncs_mem h).1 hf
    obtain ⟨h1, g, hg, hgn, h2⟩ := builtins_overload f hb t (mem_paramTypes.2 ht) hp
    exact ⟨h1, g, (builtinFuncs_mem h).2 ⟨hg, hgn.trans hn⟩, h2⟩

/-- Functions with one fixed parameter. -/
theorem typesFit_one {f : Func} {t : Ty} (ha : f.args = [t]) (ht : t.isVariadic = false) {vs : List VKind}
    (h : TypesFit f vs) : ∃ v, vs = [v] ∧ v.ty = t := by
  obtain ⟨ps, h1, h2⟩ := h
  have hv : f.variadicArg = none := by
    have := variadicArg_isSome f
    simp only [Func.isVariadic, ha, List.any_cons, ht, List.any_nil, Bool.or_self] at this
    simpa using this
  simp only [paramsFor, hv, ha] at h1
  split at h1
  · rename_i hl
    cases h1
    match vs, hl with
    | [v], _ => exact ⟨v, rfl, by simpa using h2⟩
  · cases h1

theorem newIdent_sound {E : Ext} {s : Str} : newIdent E s ≠ .err .internal ∧ ∀ v, newIdent E s = .ok v → v.ty = .ident := by
  unfold newIdent
  split
  · exact ⟨by simp, by intro v h; cases h; rfl⟩
  · simp

theorem allOf_bind_sound {α : Type} {sel : VKind → Option α} {vs : List VKind} {g : List α → Res VKind} {t : Ty}
    (h : ∀ l, g l ≠ .err .internal ∧ ∀ v, g l = .ok v → v.ty = t) :
    (allOf sel vs).bind g ≠ .err .internal ∧ ∀ v, (allOf sel vs).bind g = .ok v → v.ty = t := by
  cases hr : allOf sel vs with
  | ok l => exact h l
  | err x => exact absurd hr allOf_not_err
  | panic => simp

theorem tryCast_ty {E : Ext} {v w : VKind} {t : Ty} (h : tryCast E v t = .ok w) : w.ty = t := by
  have key : ∀ {α : Type} (y : Err) (o : Option α) (f : α → VKind) (t : Ty), (∀ a, (f a).ty = t) →
      (Res.ofOption y o).map f = .ok w → w.ty = t := by
    intro α y o f t hf h
    cases o <;> cases h
    exact hf _
  unfold tryCast at h
  split at h
  · cases h; assumption
  · split at h
    all_goals first
      | (cases h; rfl)
      | (cases h; done)
      | exact key _ _ _ _ (fun _ => rfl) h
      | (split at h <;> first | (cases h; rfl) | (cases h; done) | exact key _ _ _ _ (fun _ => rfl) h)

/-- A failing cast names the type it casts to, and the type it casts from up to string literals in tokens. -/
theorem tryCast_err {E : Ext} {v : VKind} {t : Ty} {x : Err} (h : tryCast E v t = .err x) :
    x = .typeError (.cast v.ty t) ∨ x = .typeError (.cast .litStr .ident) ∧ t = .ident ∧ ∃ r s, v.toTokens = [.lit (.str r s)] := by
  have key : ∀ {α : Type} (y : Err) (o : Option α) (f : α → VKind), (Res.ofOption y o).map f = .err x → x = y := by
    intro α y o f h
    cases o <;> cases h; rfl
  unfold tryCast at h
  split at h
  · cases h
  · split at h
    all_goals first
      | (cases h; exact .inl rfl)
      | (cases h; done)
      | exact .inl (key _ _ _ h)
      | (split at h <;> first
          | (cases h; exact .inl rfl)
          | (cases h; done)
          | exact .inl (key _ _ _ h)
          | (refine .inr ⟨key _ _ _ h, rfl, ?_⟩
             rename_i hp
             simp only [parseLitStr] at hp
             split at hp
             · exact ⟨_, _, by assumption⟩
             · cases hp))

theorem builtins_sound {E : Ext} {seed : Nat} {f : Func} (hf : f ∈ builtins) : Sound E seed f := by
  intro vs hfit
  have hstr : ∀ id n G, f ∈ strFuncs id n G → f.impl E seed vs ≠ .err .internal ∧ ∀ v, f.impl E seed vs = .ok v → v.ty = f.out := by
    intro id n G hm
    simp only [strFuncs, List.mem_cons, List.not_mem_nil, or_false] at hm
    rcases hm with rfl | rfl
    · obtain ⟨v, rfl, ht⟩ := typesFit_one (t := .litStr) rfl rfl hfit
      cases v <;> simp only [VKind.ty, reduceCtorEq] at ht
      exact ⟨by simp, by intro v h; cases h; rfl⟩
    · obtain ⟨v, rfl, ht⟩ := typesFit_one (t := .ident) rfl rfl hfit
      cases v <;> simp only [VKind.ty, reduceCtorEq] at ht
      exact newIdent_sound
  have hn2 : ∀ id t, t.isVariadic = false → f = normalize2For id t →
      f.impl E seed vs ≠ .err .internal ∧ ∀ v, f.impl E seed vs = .ok v → v.ty = f.out := by
    rintro id t ht rfl
    obtain ⟨v, rfl, hv⟩ := typesFit_one (t := t) rfl ht hfit
    simp only [normalize2For, hv, if_true]
    exact newIdent_sound
  have hcast : ∀ id n t, f = castFunc id n t →
      f.impl E seed vs ≠ .err .internal ∧ ∀ v, f.impl E seed vs = .ok v → v.ty = f.out := by
    rintro id n t rfl
    obtain ⟨v, rfl, hv⟩ := typesFit_one (t := .tokens) rfl rfl hfit
    cases v <;> simp only [VKind.ty, reduceCtorEq] at hv
    exact ⟨fun h => (by rcases tryCast_err h with h | ⟨h, -⟩ <;> cases h), fun v h => tryCast_ty h⟩
  simp only [builtins, List.mem_append, List.mem_cons, List.not_mem_nil, or_false] at hf
  rcases hf with (((((((h | h) | h) | h) | h) | h) | h) | h)
  · exact hstr _ _ _ h
  · exact hstr _ _ _ h
  · exact hstr _ _ _ h
  · exact hstr _ _ _ h
  · exact hstr _ _ _ h
  · rcases h with rfl | h | h | h | h | h | h | h
    · obtain ⟨v, rfl, ht⟩ := typesFit_one (t := .raw) rfl rfl hfit
      cases v <;> simp only [VKind.ty, reduceCtorEq] at ht
      exact newIdent_sound
    all_goals exact hn2 _ _ rfl h
  · simp only [hashFuncs, List.mem_cons, List.not_mem_nil, or_false] at h
    rcases h with rfl | rfl | rfl
    · obtain ⟨v, rfl, ht⟩ := typesFit_one (t := .litStr) rfl rfl hfit
      cases v <;> simp only [VKind.ty, reduceCtorEq] at ht
      exact ⟨by simp, by intro v h; cases h; rfl⟩
    · obtain ⟨v, rfl, ht⟩ := typesFit_one (t := .ident) rfl rfl hfit
      cases v <;> simp only [VKind.ty, reduceCtorEq] at ht
      exact newIdent_sound
    · obtain ⟨v, rfl, ht⟩ := typesFit_one (t := .tokens) rfl rfl hfit
      cases v <;> simp only [VKind.ty, reduceCtorEq] at ht
      exact newIdent_sound
  · rcases h with rfl | rfl | rfl | rfl | rfl | h | h | h | h | h | h | rfl | rfl
    · exact allOf_bind_sound (fun l => newIdent_sound)
    · simp only [concatIdentTokens]
      cases vs with
      | nil => simp
      | cons v vs =>
        refine allOf_bind_sound (fun l => ?_)
        split
        · exact ⟨by simp, by intro v h; cases h; rfl⟩
        · simp
    · exact allOf_bind_sound (fun l => ⟨by simp, by intro v h; cases h; rfl⟩)
    · refine allOf_bind_sound (fun l => ?_)
      cases hr : newLitInt (concatStrs (l.map IntLit.digits)) with
      | ok i => exact ⟨by simp, by intro v h; cases h; rfl⟩
      | panic => simp
      | err x =>
        unfold newLitInt at hr
        dsimp only at hr
        split at hr <;> (split at hr <;> cases hr)
    · exact allOf_bind_sound (fun l => ⟨by simp, by intro v h; cases h; rfl⟩)
    all_goals first | exact hcast _ _ _ h | skip
    · obtain ⟨v, rfl, ht⟩ := typesFit_one (t := .tokens) rfl rfl hfit
      cases v <;> simp only [VKind.ty, reduceCtorEq] at ht
      exact ⟨by simp [toTokensFunc], by intro v h; cases h; rfl⟩
    · obtain ⟨v, rfl, ht⟩ := typesFit_one (t := .raw) rfl rfl hfit
      cases v <;> simp only [VKind.ty, reduceCtorEq] at ht
      exact ⟨by simp [rawFunc], by intro v h; cases h; rfl⟩

/-! ## Lists of definitions -/

/-- An application during the evaluation of a list of definitions. -/
inductive AppliedSpec (E : Ext) (seed : Nat) : List (Str × TExpr) → (Str → Option VKind) → Func → List VKind → Prop
  | here {name te tes ρ f vs} : Applied E seed ρ te f vs → AppliedSpec E seed ((name, te) :: tes) ρ f vs
  | later {name te tes ρ f vs v} : te.eval E seed ρ = .ok v → AppliedSpec E seed tes (Spec.extend ρ name v) f vs →
      AppliedSpec E seed ((name, te) :: tes) ρ f vs

theorem evalSpecT_sound {E : Ext} {env : Env} (henv : env.funcs = builtinFuncs) : ∀ {items : List (Str × Expr)}
    {Γ : TyEnv} {ρ : Str → Option VKind} {tes : List (Str × TExpr)},
    checkSpec env.funcs items Γ = .ok tes → Typed Γ ρ →
    (∃ vs, evalSpecT E env.seed tes ρ = .ok vs ∧
      vs.map (fun p => (p.1, p.2.ty)) = tes.map (fun p => (p.1, p.2.target))) ∨
    (∃ x, evalSpecT E env.seed tes ρ = .err x ∧ x ≠ .internal) ∨
    (evalSpecT E env.seed tes ρ = .panic ∧ ∃ f vs, AppliedSpec E env.seed tes ρ f vs ∧ TypesFit f vs ∧
      f.impl E env.seed vs = .panic)
  | [], Γ, ρ, tes, h, _ => by
    simp only [checkSpec] at h
    cases h
    exact Or.inl ⟨[], rfl, rfl⟩
  | (name, e) :: items, Γ, ρ, tes, h, hρ => by
    simp only [checkSpec] at h
    split at h
    · cases h
    · rename_i c te hc
      split at h
      · cases h
      · split at h
        · cases h
        · rename_i rest hr
          cases h
          have hw : WT (InTable builtinFuncs) Γ te := by
            rw [henv] at hc
            rcases check_good builtins_tame e (expected := none) (by intro t h; cases h) hc with ⟨h, -⟩ | ⟨t, h, -⟩
            · exact h
            · cases h
          simp only [evalSpecT, Res.bind_eq]
          rcases eval_sound (E := E) (seed := env.seed) (fun f hf => builtins_sound (inTable_builtin hf)) hρ hw with
            ⟨v, hv, ht⟩ | ⟨x, hx, hi⟩ | ⟨hp, f, vs, h1, h2⟩
          · rw [hv, Res.bind_ok]
            rcases evalSpecT_sound henv hr (ht ▸ hρ.extend name v) with ⟨vs, hvs, hts⟩ | ⟨x, hx, hi⟩ | ⟨hp, f, vs, h1, h2⟩
            · exact Or.inl ⟨(name, v) :: vs, by rw [hvs, Res.bind_ok], by simp [ht, hts]⟩
            · exact Or.inr (Or.inl ⟨x, by rw [hx, Res.bind_err], hi⟩)
            · exact Or.inr (Or.inr ⟨by rw [hp, Res.bind_panic], f, vs, .later hv h1, h2⟩)
          · exact Or.inr (Or.inl ⟨x, by rw [hx, Res.bind_err], hi⟩)
          · exact Or.inr (Or.inr ⟨by rw [hp, Res.bind_panic], f, vs, .here h1, h2⟩)

theorem typed_empty : Typed (fun _ => none) (fun _ => none) := fun _ => rfl

end Verif
