import Verif.Proofs.Seed
import Verif.Proofs.Denote
import Verif.Spec.Ordinary
/-! # Properties of values that evaluation keeps -/

namespace Verif
open Spec

mutual
/-- The values in a typed expression. -/
def TExpr.leaves : TExpr → List VKind
  | .val k _ => [k]
  | .call _ args _ => TExpr.leavesL args
def TExpr.leavesL : List TExpr → List VKind
  | [] => []
  | te :: tes => TExpr.leaves te ++ TExpr.leavesL tes
end

mutual
theorem check_leaves {Γ : TyEnv} {e : Expr} {expected : Option Ty} {c : Nat} {te : TExpr} (h : check builtinFuncs Γ e expected = .ok (c, te)) :
    ∀ k ∈ TExpr.leaves te, k ∈ leaves e := by
  match e with
  | .value id k =>
    simp only [check] at h
    split at h
    · cases h; simp [TExpr.leaves, leaves]
    · cases h
  | .call id name args raw =>
    simp only [check] at h
    split at h
    · cases h
    · rename_i fs hfs
      split at h
      · rename_i ch hb
        cases h
        have hm := best_mem hb
        rw [List.mem_filterMap] at hm
        obtain ⟨f, hf, hu⟩ := hm
        obtain ⟨hcf, co, -, hr⟩ := usable_cost hu
        intro k hk
        simp only [TExpr.leaves] at hk
        rcases hr with ⟨-, i, ts, hraw, -, hca⟩ | ⟨-, ps, cc, tes, -, hck, -, hca⟩
        · rw [hca] at hk
          simp [TExpr.leavesL, TExpr.leaves] at hk
          subst hk
          simp [leaves, hraw]
        · rw [hca] at hk
          have := checkArgs_leaves hck k hk
          simp [leaves, this]
      · cases h
theorem checkArgs_leaves {Γ : TyEnv} {es : List Expr} {ps : List (Ty × Nat)} {c : Nat} {tes : List TExpr}
    (h : checkArgs builtinFuncs Γ es ps = some (c, tes)) : ∀ k ∈ TExpr.leavesL tes, k ∈ leavesL es := by
  match es, ps with
  | [], _ => simp only [checkArgs] at h; cases h; simp [TExpr.leavesL]
  | _ :: _, [] => simp only [checkArgs] at h; cases h; simp [TExpr.leavesL]
  | e :: es, (t, m) :: ps =>
    simp only [checkArgs] at h
    split at h
    · rename_i c0 te hc
      simp only [Option.map_eq_some_iff, Prod.mk.injEq] at h
      obtain ⟨⟨c1, tes1⟩, hr, -, rfl⟩ := h
      intro k hk
      simp only [TExpr.leavesL, List.mem_append] at hk
      rcases hk with hk | hk
      · simp [leavesL, check_leaves hc k hk]
      · simp [leavesL, checkArgs_leaves hr k hk]
    · cases h
end

/-- Values of the property keep it when they are taken as tokens. -/
def Closed (P : VKind → Prop) : Prop := ∀ v, P v → P (.tokens v.toTokens) ∧ P (.raw v.toTokens)

/-- The function makes values of the property from such values. -/
def KeepsOk (E : Ext) (seed : Nat) (P : VKind → Prop) (f : Func) : Prop :=
  ∀ vs, TypesFit f vs → (∀ v ∈ vs, P v) → ∀ r, f.impl E seed vs = .ok r → P r

theorem tryCast_keeps {E : Ext} {P : VKind → Prop} (hP : Closed P) {v w : VKind} {t : Ty} (hv : P v) (hp : Plainly v.ty t)
    (h : tryCast E v t = .ok w) : P w := by
  unfold tryCast at h
  split at h
  · cases h; exact hv
  · rename_i hne
    rcases hp with hp | rfl | rfl
    · exact absurd hp hne
    · cases v <;> (cases h; exact (hP _ hv).1)
    · cases v <;> (cases h; exact (hP _ hv).2)

theorem leaf_keeps {P : VKind → Prop} {ρ : Str → Option VKind} (hρ : ∀ n v, ρ n = some v → P v) {k : VKind} (hk : P k) : P (leaf ρ k) := by
  cases k <;> try exact hk
  rename_i s
  simp only [leaf]
  cases h : ρ s with
  | none => exact hk
  | some v => exact hρ s v h

section
variable {E : Ext} {seed : Nat} {F : Func → Prop} {Γ : TyEnv} {ρ : Str → Option VKind} {P : VKind → Prop}

theorem evalL_keeps {tes : List TExpr} (ih : ∀ te ∈ tes, ∀ v, te.eval E seed ρ = .ok v → P v) {vs : List VKind}
    (h : TExpr.evalL E seed ρ tes = .ok vs) : ∀ v ∈ vs, P v := by
  induction tes generalizing vs with
  | nil => simp only [TExpr.evalL] at h; cases h; simp
  | cons te tes ihs =>
    simp only [TExpr.evalL] at h
    obtain ⟨v, h1, h⟩ := Res.bind_eq_ok.1 h
    obtain ⟨ws, h2, h⟩ := Res.bind_eq_ok.1 h
    cases h
    intro w hw
    rcases List.mem_cons.1 hw with rfl | hw
    · exact ih te (by simp) _ h1
    · exact ihs (fun t ht => ih t (by simp [ht])) h2 w hw

theorem leavesL_mem {tes : List TExpr} {te : TExpr} (h : te ∈ tes) {k : VKind} (hk : k ∈ TExpr.leaves te) : k ∈ TExpr.leavesL tes := by
  induction tes with
  | nil => cases h
  | cons t tes ih =>
    rcases List.mem_cons.1 h with rfl | h
    · simp [TExpr.leavesL, hk]
    · simp [TExpr.leavesL, ih h]

theorem funcsL_mem {tes : List TExpr} {te : TExpr} (h : te ∈ tes) {f : Func} (hf : f ∈ TExpr.funcs te) : f ∈ TExpr.funcsL tes := by
  induction tes with
  | nil => cases h
  | cons t tes ih =>
    rcases List.mem_cons.1 h with rfl | h
    · simp [TExpr.funcsL, hf]
    · simp [TExpr.funcsL, ih h]

/-- The value of an expression has the property. -/
theorem eval_keeps (hF : ∀ f, F f → Sound E seed f) (hT : Typed Γ ρ) (hP : Closed P) (hρ : ∀ n v, ρ n = some v → P v) {te : TExpr}
    (h : WT F Γ te) (hl : ∀ k ∈ TExpr.leaves te, P k) (hf : ∀ f ∈ TExpr.funcs te, KeepsOk E seed P f) {v : VKind}
    (hv : te.eval E seed ρ = .ok v) : P v := by
  induction h generalizing v with
  | @val k t hp =>
    rw [← leaf_ty hT] at hp
    rw [eval_val] at hv
    split at hv
    · rename_i w hw
      cases hv
      exact tryCast_keeps hP (leaf_keeps hρ (hl k (by simp [TExpr.leaves]))) hp hw
    · cases hv
  | @call f tes t hff hp hfit hw ih =>
    simp only [TExpr.eval] at hv
    obtain ⟨vs, h1, hv⟩ := Res.bind_eq_ok.1 hv
    obtain ⟨r, h2, hv⟩ := Res.bind_eq_ok.1 hv
    have hargs : ∀ v ∈ vs, P v := evalL_keeps (fun te hte w hw => ih te hte (fun k hk => hl k (by simp [TExpr.leaves, leavesL_mem hte hk]))
      (fun g hg => hf g (by simp [TExpr.funcs, funcsL_mem hte hg])) hw) h1
    have hfits : TypesFit f vs := (applied_fits hF hT (.call hff hp hfit hw) (.here h1)).2
    have hr : P r := hf f (by simp [TExpr.funcs]) vs hfits hargs r h2
    have hty : r.ty = f.out := (hF f hff vs hfits).2 r h2
    exact tryCast_keeps hP hr (hty ▸ hp) hv

/-- The values to which functions are applied have the property. -/
theorem applied_keeps (hF : ∀ f, F f → Sound E seed f) (hT : Typed Γ ρ) (hP : Closed P) (hρ : ∀ n v, ρ n = some v → P v) {te : TExpr}
    (h : WT F Γ te) (hl : ∀ k ∈ TExpr.leaves te, P k) (hf : ∀ f ∈ TExpr.funcs te, KeepsOk E seed P f) {f : Func} {vs : List VKind}
    (ha : Applied E seed ρ te f vs) : f ∈ TExpr.funcs te ∧ ∀ v ∈ vs, P v := by
  induction h with
  | val _ => cases ha
  | @call g tes t hff hp hfit hw ih =>
    have hl' : ∀ te ∈ tes, ∀ k ∈ TExpr.leaves te, P k := fun te hte k hk => hl k (by simp [TExpr.leaves, leavesL_mem hte hk])
    have hf' : ∀ te ∈ tes, ∀ g ∈ TExpr.funcs te, KeepsOk E seed P g := fun te hte g hg => hf g (by simp [TExpr.funcs, funcsL_mem hte hg])
    cases ha with
    | here hv =>
      exact ⟨by simp [TExpr.funcs], evalL_keeps (fun te hte w hw' => eval_keeps hF hT hP hρ (hw te hte) (hl' te hte) (hf' te hte) hw') hv⟩
    | arg hm ha =>
      obtain ⟨h1, h2⟩ := ih _ hm (hl' _ hm) (hf' _ hm) ha
      exact ⟨by simp [TExpr.funcs, funcsL_mem hm h1], h2⟩
end

/-- In a list of definitions, all values have a property which the values written there have and which the functions called there keep. -/
theorem spec_keeps {E : Ext} {env : Env} (henv : env.funcs = builtinFuncs) {P : VKind → Prop} (hP : Closed P) :
    ∀ {items : List (Str × Expr)} {Γ : TyEnv} {ρ : Str → Option VKind} {tes : List (Str × TExpr)},
    checkSpec env.funcs items Γ = .ok tes → Typed Γ ρ → (∀ n v, ρ n = some v → P v) →
    (∀ d ∈ items, ∀ k ∈ leaves d.2, P k) → (∀ d ∈ items, ∀ f ∈ builtins, f.name ∈ calls d.2 → KeepsOk E env.seed P f) →
    (∀ f vs, AppliedSpec E env.seed tes ρ f vs → (∃ d ∈ items, f.name ∈ calls d.2) ∧ ∀ v ∈ vs, P v) ∧
    ∀ ws, evalSpecT E env.seed tes ρ = .ok ws → ∀ w ∈ ws, P w.2
  | [], Γ, ρ, tes, h, _, _, _, _ => by
    simp only [checkSpec] at h
    cases h
    refine ⟨fun f vs ha => (by cases ha), fun ws hw => ?_⟩
    simp only [evalSpecT] at hw
    cases hw
    simp
  | (name, e) :: items, Γ, ρ, tes, h, hT, hρ, hl, hf => by
    simp only [checkSpec] at h
    split at h
    · cases h
    · rename_i c te hc
      split at h
      · cases h
      · split at h
        · cases h
        · rename_i rest hr
          cases h
          rw [henv] at hc
          have hw : WT (InTable builtinFuncs) Γ te := by
            rcases check_good builtins_tame e (expected := none) (by intro t h; cases h) hc with ⟨h, -⟩ | ⟨t, h, -⟩
            · exact h
            · cases h
          have hF : ∀ f, InTable builtinFuncs f → Sound E env.seed f := fun f hf => builtins_sound (inTable_builtin hf)
          have hl1 : ∀ k ∈ TExpr.leaves te, P k := fun k hk => hl (name, e) (by simp) k (check_leaves hc k hk)
          have hf1 : ∀ f ∈ TExpr.funcs te, KeepsOk E env.seed P f := fun f hf' =>
            hf (name, e) (by simp) f (check_funcs hc f hf').1 (check_funcs hc f hf').2
          have hev : ∀ v, te.eval E env.seed ρ = .ok v → P v := fun v hv => eval_keeps hF hT hP hρ hw hl1 hf1 hv
          have hrec : ∀ v, te.eval E env.seed ρ = .ok v →
              (∀ f vs, AppliedSpec E env.seed rest (Spec.extend ρ name v) f vs → (∃ d ∈ items, f.name ∈ calls d.2) ∧ ∀ v ∈ vs, P v) ∧
              ∀ ws, evalSpecT E env.seed rest (Spec.extend ρ name v) = .ok ws → ∀ w ∈ ws, P w.2 := by
            intro v hv
            have ht : v.ty = te.target := by
              rcases eval_sound hF hT hw with ⟨v', hv', ht⟩ | ⟨x, hx, -⟩ | ⟨hp, -⟩
              · rw [hv] at hv'; cases hv'; exact ht
              · rw [hv] at hx; cases hx
              · rw [hv] at hp; cases hp
            refine spec_keeps henv hP hr (ht ▸ hT.extend name v) ?_ (fun d hd => hl d (by simp [hd])) (fun d hd => hf d (by simp [hd]))
            intro n w hn
            simp only [Spec.extend] at hn
            split at hn
            · cases hn; exact hev v hv
            · exact hρ n w hn
          refine ⟨fun f vs ha => ?_, fun ws hws => ?_⟩
          · cases ha with
            | here ha =>
              obtain ⟨h1, h2⟩ := applied_keeps hF hT hP hρ hw hl1 hf1 ha
              exact ⟨⟨(name, e), by simp, (check_funcs hc f h1).2⟩, h2⟩
            | later hv ha =>
              obtain ⟨⟨d, hd, h1⟩, h2⟩ := (hrec _ hv).1 f vs ha
              exact ⟨⟨d, by simp [hd], h1⟩, h2⟩
          · simp only [evalSpecT] at hws
            obtain ⟨v, h1, hws⟩ := Res.bind_eq_ok.1 hws
            obtain ⟨us, h2, hws⟩ := Res.bind_eq_ok.1 hws
            cases hws
            intro w hw
            rcases List.mem_cons.1 hw with rfl | hw
            · exact hev v h1
            · exact (hrec v h1).2 us h2 w hw

end Verif
