import Verif.Proofs.Denote
import Verif.Proofs.Seed
/-! # Where errors come from -/

namespace Verif
open Spec

theorem evalL_err_at {E : Ext} {seed : Nat} {ρ : Str → Option VKind} {x : Err} : ∀ {tes : List TExpr}, TExpr.evalL E seed ρ tes = .err x →
    ∃ te ∈ tes, te.eval E seed ρ = .err x
  | [], h => by simp only [TExpr.evalL] at h; cases h
  | te :: tes, h => by
    simp only [TExpr.evalL, Res.bind_eq] at h
    cases h1 : te.eval E seed ρ with
    | err e => rw [h1] at h; cases h; exact ⟨te, by simp, h1⟩
    | panic => rw [h1] at h; cases h
    | ok v =>
      rw [h1, Res.bind_ok] at h
      cases h2 : TExpr.evalL E seed ρ tes with
      | ok vs => rw [h2] at h; cases h
      | panic => rw [h2] at h; cases h
      | err e =>
        rw [h2] at h
        cases h
        obtain ⟨t, hm, ht⟩ := evalL_err_at h2
        exact ⟨t, by simp [hm], ht⟩

/-- An error during evaluation is the error of a function. -/
theorem eval_err_at {E : Ext} {seed : Nat} {F : Func → Prop} (hF : ∀ f, F f → Sound E seed f) {Γ : TyEnv}
    {ρ : Str → Option VKind} (hρ : Typed Γ ρ) {te : TExpr} (h : WT F Γ te) {x : Err} (he : te.eval E seed ρ = .err x) :
    ∃ f vs, Applied E seed ρ te f vs ∧ f.impl E seed vs = .err x := by
  induction h with
  | val h =>
    rw [eval_val] at he
    split at he <;> cases he
  | @call f tes t hf hp hfit hw ih =>
    simp only [TExpr.eval, Res.bind_eq] at he
    cases h1 : TExpr.evalL E seed ρ tes with
    | panic => rw [h1] at he; cases he
    | err e =>
      rw [h1] at he
      cases he
      obtain ⟨te, hm, ht⟩ := evalL_err_at h1
      obtain ⟨g, vs, h2, h3⟩ := ih te hm ht
      exact ⟨g, vs, .arg hm h2, h3⟩
    | ok vs =>
      rw [h1, Res.bind_ok] at he
      cases h2 : f.impl E seed vs with
      | panic => rw [h2] at he; cases he
      | err e => rw [h2] at he; cases he; exact ⟨f, vs, .here h1, h2⟩
      | ok r =>
        rw [h2, Res.bind_ok] at he
        have ht := evalL_types (fun te hte => eval_sound hF hρ (hw te hte)) h1
        have hl : vs.length = tes.length := by
          have := congrArg List.length ht; simpa using this
        obtain ⟨ps, h3, h4⟩ := hfit
        have hr := (hF f hf vs ⟨ps, hl ▸ h3, ht.trans h4⟩).2 r h2
        obtain ⟨w, hw, -⟩ := tryCast_plainly (E := E) (v := r) (t := t) (hr ▸ hp)
        rw [hw] at he
        cases he

theorem evalSpecT_applied {E : Ext} {env : Env} (henv : env.funcs = builtinFuncs) {x : Err} : ∀ {items : List (Str × Expr)}
    {Γ : TyEnv} {ρ : Str → Option VKind} {tes : List (Str × TExpr)},
    checkSpec env.funcs items Γ = .ok tes → Typed Γ ρ → evalSpecT E env.seed tes ρ = .err x →
    ∃ f vs, AppliedSpec E env.seed tes ρ f vs ∧ f.impl E env.seed vs = .err x
  | [], Γ, ρ, tes, h, _, he => by
    simp only [checkSpec] at h
    cases h
    cases he
  | (name, e) :: items, Γ, ρ, tes, h, hρ, he => by
    simp only [checkSpec] at h
    split at h
    · cases h
    · rename_i c te hc
      split at h
      · cases h
      · split at h
        · cases h
        · rename_i rest hr
          cases h
          have hw : WT (InTable builtinFuncs) Γ te := by
            rw [henv] at hc
            rcases check_good builtins_tame e (expected := none) (by intro t h; cases h) hc with ⟨h, -⟩ | ⟨t, h, -⟩
            · exact h
            · cases h
          have hF : ∀ f, InTable builtinFuncs f → Sound E env.seed f := fun f hf => builtins_sound (inTable_builtin hf)
          simp only [evalSpecT, Res.bind_eq] at he
          cases hv : te.eval E env.seed ρ with
          | panic => rw [hv] at he; cases he
          | err y =>
            rw [hv] at he
            cases he
            obtain ⟨f, vs, h1, h2⟩ := eval_err_at hF hρ hw hv
            exact ⟨f, vs, .here h1, h2⟩
          | ok v =>
            rw [hv, Res.bind_ok] at he
            cases hs : evalSpecT E env.seed rest (extend ρ name v) with
            | ok ws => rw [hs] at he; cases he
            | panic => rw [hs] at he; cases he
            | err y =>
              rw [hs] at he
              cases he
              have ht : v.ty = te.target := by
                rcases eval_sound hF hρ hw with ⟨v', hv', ht⟩ | ⟨x, hx, -⟩ | ⟨hp, -⟩
                · rw [hv] at hv'; cases hv'; exact ht
                · rw [hv] at hx; cases hx
                · rw [hv] at hp; cases hp
              obtain ⟨f, vs, h1, h2⟩ := evalSpecT_applied henv hr (ht ▸ hρ.extend name v) hs
              exact ⟨f, vs, .later hv h1, h2⟩

/-- A list of definitions fails to check at its first definition which does not check, or whose name is taken. -/
theorem checkSpec_error {T} {x : Err} : ∀ {items : List (Str × Expr)} {Γ : TyEnv}, checkSpec T items Γ = .error x →
    ∃ pre n e post tes, items = pre ++ (n, e) :: post ∧ checkSpec T pre Γ = .ok tes ∧
      (check T (tyEnv Γ tes) e none = .error x ∨ x = .redefined n)
  | [], Γ, h => by cases h
  | (name, e) :: items, Γ, h => by
    simp only [checkSpec] at h
    split at h
    · rename_i y hy
      cases h
      exact ⟨[], name, e, items, [], rfl, rfl, .inl hy⟩
    · rename_i c te hc
      split at h
      · rename_i hs
        cases h
        exact ⟨[], name, e, items, [], rfl, rfl, .inr rfl⟩
      · rename_i hs
        split at h
        · rename_i y hy
          cases h
          obtain ⟨pre, n, e', post, tes, rfl, h1, h2⟩ := checkSpec_error hy
          refine ⟨(name, e) :: pre, n, e', post, (name, te) :: tes, rfl, ?_, h2⟩
          simp only [checkSpec, hc, hs, h1]
          rfl
        · cases h

theorem check_none_error {T Γ e x} (h : check T Γ e none = .error x) :
    ∃ id n args raw, e = .call id n args raw ∧ (T n = none ∧ x = .undefinedFunction n ∨
      ∃ fs, T n = some fs ∧ x = refusal fs e ∧ ∀ f ∈ fs, usable raw args.length none (fun ps => checkArgs T Γ args ps) f = none) := by
  cases e with
  | value id k =>
    simp only [check, Option.getD_none] at h
    have : coercionCost (natural Γ k) (natural Γ k) ≠ none := by
      rw [coercionCost_self]; simp
    split at h
    · cases h
    · rename_i hn; exact (this hn).elim
  | call id n args raw =>
    refine ⟨id, n, args, raw, rfl, ?_⟩
    simp only [check] at h
    split at h
    · rename_i hn
      cases h
      exact .inl ⟨hn, rfl⟩
    · rename_i fs hfs
      split at h
      · cases h
      · rename_i hb
        cases h
        refine .inr ⟨fs, hfs, rfl, ?_⟩
        cases hl : fs.filterMap (usable raw args.length none fun ps => checkArgs T Γ args ps) with
        | nil => exact fun f hf => List.filterMap_eq_nil_iff.1 hl f hf
        | cons c cs =>
          rw [hl] at hb
          simp only [best] at hb
          split at hb
          · cases hb
          · split at hb <;> cases hb

end Verif
