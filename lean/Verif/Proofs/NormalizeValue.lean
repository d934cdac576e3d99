import Verif.Spec.NormalizeValue
import Verif.Proofs.Interchange
/-! # `normalize2` of a value as it is written, and `normalize`: proofs -/

namespace Verif
open Spec

/-- The overload of `normalize2` for a type of values. -/
def normalize2Id : Ty → Nat
  | .ident => 11 | .litStr => 12 | .litInt => 13 | .path => 14 | .type => 15 | .expr => 16 | _ => 17

theorem usable_normalize2 {Γ : TyEnv} {j : Nat} {k : VKind} {raw : Option (Nat × Toks)} (hk : natural Γ k = k.ty) {expected : Option Ty} {co : Nat}
    (ho : outCost .ident expected = some co) {id : Nat} {t : Ty} (ht : t.isVariadic = false) (hr : t ≠ .raw) :
    usable raw 1 expected (fun ps => checkArgs builtinFuncs Γ [.value j k] ps) (normalize2For id t) =
      (coercionCost k.ty t).map fun c => ⟨co + c, normalize2For id t, [.val k t]⟩ := by
  have hp : paramsFor (normalize2For id t) 1 = some [(t, 1)] := by cases t <;> first | rfl | cases ht
  have ha : (normalize2For id t).args ≠ [.raw] := by simp [normalize2For, hr]
  have ho' : outCost (normalize2For id t).out expected = some co := ho
  simp only [usable, ho', hp, ha, if_false, Option.bind_eq_bind, Option.bind_some, checkArgs, check, hk, Option.getD_some]
  cases coercionCost k.ty t <;> simp

theorem check_normalize2 {Γ : TyEnv} {i j : Nat} {k : VKind} {raw : Option (Nat × Toks)} (hk : natural Γ k = k.ty) (hr : k.ty ≠ .raw)
    (expected : Option Ty) :
    (outCost .ident expected = none ∧ ∃ x, check builtinFuncs Γ (.call i (S "normalize2") [.value j k] raw) expected = .error x) ∨
    ∃ co, outCost .ident expected = some co ∧ check builtinFuncs Γ (.call i (S "normalize2") [.value j k] raw) expected =
      .ok (co, .call (normalize2For (normalize2Id k.ty) k.ty) [.val k k.ty] (expected.getD .ident)) := by
  have hb : builtinFuncs (S "normalize2") = _ := builtin_normalize2
  simp only [check, hb]
  cases ho : outCost .ident expected with
  | none =>
    refine .inl ⟨rfl, ?_⟩
    have : ∀ id t, usable raw 1 expected (fun ps => checkArgs builtinFuncs Γ [.value j k] ps) (normalize2For id t) = none := by
      intro id t
      have ho' : outCost (normalize2For id t).out expected = none := ho
      simp only [usable, ho', Option.bind_eq_bind, Option.bind_none]
    simp only [List.length_singleton, List.filterMap_cons, List.filterMap_nil, this, best]
    exact ⟨_, rfl⟩
  | some co =>
    refine .inr ⟨co, rfl, ?_⟩
    simp only [List.length_singleton, List.filterMap_cons, List.filterMap_nil]
    rw [usable_normalize2 hk ho rfl (by decide), usable_normalize2 hk ho rfl (by decide), usable_normalize2 hk ho rfl (by decide),
      usable_normalize2 hk ho rfl (by decide), usable_normalize2 hk ho rfl (by decide), usable_normalize2 hk ho rfl (by decide),
      usable_normalize2 hk ho rfl (by decide)]
    have hlt : ∀ n, ¬ co + n < co := by omega
    have hv : ∀ id t, (normalize2For id t).args = [t] := fun _ _ => rfl
    have hi : ∀ id t, (normalize2For id t).id = id := fun _ _ => rfl
    have hout : ∀ id t, (normalize2For id t).out = .ident := fun _ _ => rfl
    have hvar : ∀ id t, t.isVariadic = false → (normalize2For id t).isVariadic = false := by
      intro id t h
      simp [Func.isVariadic, hv, h]
    cases k <;> first
      | (exact absurd rfl hr)
      | simp [VKind.ty, coercionCost, coercionCostBasic, best, Choice.better, normalize2Id, hlt, hv, hi, hvar, hout, Ty.isVariadic]

theorem overflows_normalize2 {Γ : TyEnv} {i j : Nat} {k : VKind} {raw : Option (Nat × Toks)} (hk : natural Γ k = k.ty) (expected : Option Ty) :
    overflows builtinFuncs Γ (.call i (S "normalize2") [.value j k] raw) expected = false := by
  have hb : builtinFuncs (S "normalize2") = _ := builtin_normalize2
  simp only [overflows, hb]
  refine List.any_eq_false.mpr fun f hf => ?_
  have hf' : ∃ id t, t.isVariadic = false ∧ t ≠ .raw ∧ f = normalize2For id t := by
    simp only [List.mem_cons, List.not_mem_nil, or_false] at hf
    rcases hf with h | h | h | h | h | h | h <;> exact ⟨_, _, rfl, by decide, h⟩
  obtain ⟨id, t, ht, hr, rfl⟩ := hf'
  have hp : paramsFor (normalize2For id t) 1 = some [(t, 1)] := by cases t <;> first | rfl | cases ht
  have ha : (normalize2For id t).args ≠ [.raw] := by simp [normalize2For, hr]
  rw [List.length_singleton, hp, if_neg ha]
  cases ho : outCost (normalize2For id t).out expected with
  | none => simp
  | some co =>
    have h5 : co ≤ 5 := by
      cases expected with
      | none => cases ho; omega
      | some t => exact coercionCost_le (a := .ident) (b := t) ho
    simp only [overflowsArgs, overflows, check, hk, Option.getD_some, Bool.false_or]
    cases h : coercionCost k.ty t with
    | none => simp
    | some c =>
      have := coercionCost_le h
      have : ¬ 2 ^ 32 ≤ co + c * 1 := by omega
      simp only [decide_eq_false this, Bool.or_false, Bool.false_eq_true, not_false_eq_true]

theorem eval_free_val {E : Ext} {seed : Nat} {ρ : Str → Option VKind} {k : VKind} (h : ∀ s, k = .ident s → ρ s = none) :
    TExpr.eval E seed ρ (.val k k.ty) = .ok k := by
  cases k with
  | ident s => simp only [TExpr.eval, h s rfl, Option.getD_none, tryCast_refl rfl]
  | _ => simp only [TExpr.eval, tryCast_refl rfl]

theorem check_normalize {Γ : TyEnv} {i : Nat} {args : List Expr} {r : Nat} {ts : Toks} (expected : Option Ty) :
    (outCost .ident expected = none ∧ ∃ x, check builtinFuncs Γ (.call i (S "normalize") args (some (r, ts))) expected = .error x) ∨
    ∃ co, outCost .ident expected = some co ∧ check builtinFuncs Γ (.call i (S "normalize") args (some (r, ts))) expected =
      .ok (co, .call (normalizeFunc 10) [.val (.raw ts) .raw] (expected.getD .ident)) := by
  have hb : builtinFuncs (S "normalize") = _ := builtin_normalize
  simp only [check, hb]
  cases ho : outCost .ident expected with
  | none =>
    refine .inl ⟨rfl, ?_⟩
    have ho' : outCost (normalizeFunc 10).out expected = none := ho
    simp only [List.filterMap_cons, List.filterMap_nil, usable, ho', Option.bind_eq_bind, Option.bind_none, best]
    exact ⟨_, rfl⟩
  | some co =>
    refine .inr ⟨co, rfl, ?_⟩
    have ho' : outCost (normalizeFunc 10).out expected = some co := ho
    have ha : (normalizeFunc 10).args = [.raw] := rfl
    simp only [List.filterMap_cons, List.filterMap_nil, usable, ho', ha, if_true, Option.bind_eq_bind, Option.bind_some, best]
    rfl

theorem overflows_normalize {Γ : TyEnv} {i : Nat} {args : List Expr} {r : Nat} {ts : Toks} (expected : Option Ty) :
    overflows builtinFuncs Γ (.call i (S "normalize") args (some (r, ts))) expected = false := by
  have hb : builtinFuncs (S "normalize") = _ := builtin_normalize
  have ha : (normalizeFunc 10).args = [.raw] := rfl
  simp only [overflows, hb, List.any_cons, List.any_nil, ha, if_true]
  cases outCost (normalizeFunc 10).out expected <;> rfl

theorem normalize2Text_contents (E : Ext) (k : VKind) : normalize2Text E k = contents E k := by
  cases k <;> rfl

theorem denormalized_interchangeable {E : Ext} {seed : Nat} {F : Str → Prop} {e e' : Expr} (h : Denormalized E F e e') :
    Interchangeable E seed F e e' := by
  cases h with
  | @mk i i' j ts k raw args r hw hk h =>
    have hr : k.ty ≠ .raw := by cases hw <;> (intro h; cases h)
    have hnat : ∀ Γ, Free F Γ → natural Γ k = k.ty := by
      intro Γ hΓ
      cases k with
      | ident s => simp only [natural, hΓ s (hk s rfl)]; rfl
      | _ => rfl
    constructor
    · refine ⟨fun Γ hΓ expected => ?_⟩
      rcases check_normalize2 (i := i) (j := j) (raw := raw) (hnat Γ hΓ) hr expected with ⟨ho, x, hx⟩ | ⟨co, ho, hx⟩
      · rcases check_normalize (Γ := Γ) (i := i') (args := args) (r := r) (ts := ts) expected with ⟨-, y, hy⟩ | ⟨co, ho', -⟩
        · rw [hx, hy]
          intro h
          subst h
          cases ho
        · rw [ho] at ho'; cases ho'
      · rcases check_normalize (Γ := Γ) (i := i') (args := args) (r := r) (ts := ts) expected with ⟨ho', -⟩ | ⟨co', ho', hy⟩
        · rw [ho] at ho'; cases ho'
        · rw [ho] at ho'
          cases ho'
          rw [hx, hy]
          refine ⟨rfl, rfl, fun ρ hρ => ?_⟩
          have hv : TExpr.eval E seed ρ (.val k k.ty) = .ok k := eval_free_val fun s hs => hρ s (hk s hs)
          have hv' : TExpr.eval E seed ρ (.val (.raw ts) .raw) = .ok (.raw ts) := eval_free_val (k := .raw ts) (fun s hs => nomatch hs)
          rw [TExpr.eval, TExpr.eval, TExpr.evalL, TExpr.evalL, TExpr.evalL, hv, hv']
          simp only [TExpr.evalL, Res.bind_eq, Res.bind_ok, normalize2For, normalizeFunc, if_true, normalize2Text_contents, h]
    · intro Γ hΓ expected
      rw [overflows_normalize2 (hnat Γ hΓ), overflows_normalize]

end Verif
