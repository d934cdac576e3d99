import Verif.Spec.Numbers
import Verif.Proofs.Respelled
/-! # The spelling of numbers: proofs -/

namespace Verif
open Spec

theorem check_int (Γ : TyEnv) (j : Nat) (i : IntLit) (t : Ty) :
    check builtinFuncs Γ (.value j (.litInt i)) (some t) =
      match coercionCost .litInt t with
      | some c => .ok (c, .val (.litInt i) t)
      | none => .error (.typeError (.coercion .litInt t)) := by
  simp only [check, natural, VKind.ty, Option.getD_some]
  cases coercionCost .litInt t <;> rfl

theorem sameNumbers_length {es es' : List Expr} (h : SameNumbers es es') : es.length = es'.length := by
  induction h with
  | nil => rfl
  | cons _ _ _ _ ih => simp [ih]

theorem overflowsArgs_numbers {Γ : TyEnv} {es es' : List Expr} (h : SameNumbers es es') (ps : List (Ty × Nat)) (c : Nat) :
    overflowsArgs builtinFuncs Γ es ps c = overflowsArgs builtinFuncs Γ es' ps c := by
  induction h generalizing ps c with
  | nil => rfl
  | cons j j' hi _ ih =>
    cases ps with
    | nil => rfl
    | cons p ps =>
      obtain ⟨t, m⟩ := p
      simp only [overflowsArgs, overflows, check_int]
      cases coercionCost .litInt t with
      | none => rfl
      | some ce => simp only [ih]

/-- Whether costs overflow does not depend on how numbers are spelled. -/
theorem overflows_numbers {Γ : TyEnv} {n : Str} {fs : List Func} (hb : builtinFuncs n = some fs) (hr : ∀ f ∈ fs, f.args ≠ [.raw]) {es es' : List Expr}
    (h : SameNumbers es es') (i i' : Nat) (raw raw' : Option (Nat × Toks)) (expected : Option Ty) :
    overflows builtinFuncs Γ (.call i n es raw) expected = overflows builtinFuncs Γ (.call i' n es' raw') expected := by
  simp only [overflows, hb]
  rw [Bool.eq_iff_iff, List.any_eq_true, List.any_eq_true]
  refine exists_congr fun f => and_congr_right fun hf => ?_
  simp only [if_neg (hr f hf), sameNumbers_length h]
  cases outCost f.out expected with
  | none => simp
  | some co =>
    cases paramsFor f es'.length with
    | none => simp
    | some ps => simp only [overflowsArgs_numbers h]

theorem checkArgs_numbers {Γ : TyEnv} {es es' : List Expr} (h : SameNumbers es es') {t : Ty} {c m : Nat} (hc : coercionCost .litInt t = some c) :
    checkArgs builtinFuncs Γ es (List.replicate es.length (t, m)) = some (es.length * (c * m), strValues es t) := by
  induction h with
  | nil => simp [checkArgs, strValues]
  | cons j j' hi _ ih =>
    simp only [List.length_cons, List.replicate_succ, checkArgs, check_int, hc, ih, Option.map_some, strValues, Nat.add_mul, Nat.one_mul]
    rw [Nat.add_comm]

theorem sameNumbers_refl {es es' : List Expr} (h : SameNumbers es es') : SameNumbers es es ∧ SameNumbers es' es' := by
  induction h with
  | nil => exact ⟨.nil, .nil⟩
  | cons j j' hi _ ih => exact ⟨.cons _ _ ⟨rfl, rfl⟩ ih.1, .cons _ _ ⟨rfl, rfl⟩ ih.2⟩

theorem outCost_tokens_of_int {expected : Option Ty} (h : outCost .litInt expected = none) : outCost .tokens expected = none := by
  cases expected with
  | none => cases h
  | some t => cases t <;> first | rfl | cases h

theorem sameNumber_digits {i i' : IntLit} (h : SameNumber i i') : i.digits = i'.digits := by
  unfold IntLit.digits
  rw [h.1, h.2]

/-- `concat` of numbers is the one for numbers, whatever is expected. -/
theorem check_concat_numbers {Γ : TyEnv} {es es' : List Expr} (h : SameNumbers es es') (hne : es ≠ []) (k : Nat) (raw : Option (Nat × Toks)) (expected : Option Ty) :
    check builtinFuncs Γ (.call k (S "concat") es raw) expected =
      match outCost .litInt expected with
      | some co => .ok (co, .call (concatLitInts 24) (strValues es .litInt) (expected.getD .litInt))
      | none => .error (refusal [concatIdents 21, concatIdentTokens 22, concatLitStrs 23, concatLitInts 24, concatTokens 25] (.call k (S "concat") es raw)) := by
  have hb : builtinFuncs (S "concat") = _ := builtin_concat
  cases h with
  | nil => exact absurd rfl hne
  | @cons j j' i i' hi es es' h =>
    have hs := SameNumbers.cons j j' hi h
    have h1 := checkArgs_numbers (Γ := Γ) (t := .litInt) (c := 0) (m := 2) hs rfl
    have h2 := checkArgs_numbers (Γ := Γ) (t := .tokens) (c := 4) (m := 2) hs rfl
    simp only [check, hb, List.filterMap_cons, List.filterMap_nil]
    have u1 : ∀ ps m, checkArgs builtinFuncs Γ (.value j (.litInt i) :: es) ((.ident, m) :: ps) = none := by
      intro ps m; simp only [checkArgs, check_int]; rfl
    have u2 : ∀ ps m, checkArgs builtinFuncs Γ (.value j (.litInt i) :: es) ((.litStr, m) :: ps) = none := by
      intro ps m; simp only [checkArgs, check_int]; rfl
    have hl : (Expr.value j (.litInt i) :: es).length = es.length + 1 := rfl
    rw [hl] at h1 h2
    rw [hl, usable_of_params (f := concatIdents 21) (by decide) (paramsFor_many rfl _), usable_of_params (f := concatLitInts 24) (by decide) (paramsFor_many rfl _),
      usable_of_params (f := concatLitStrs 23) (by decide) (paramsFor_many rfl _), usable_of_params (f := concatTokens 25) (by decide) (paramsFor_many rfl _), h1, h2]
    have a2 : usable raw (es.length + 1) expected (fun ps => checkArgs builtinFuncs Γ (.value j (.litInt i) :: es) ps) (concatIdentTokens 22) = none := by
      cases hp : paramsFor (concatIdentTokens 22) (es.length + 1) with
      | none =>
        have ha : (concatIdentTokens 22).args ≠ [.raw] := by decide
        simp only [usable, if_neg ha, hp, Option.bind_eq_bind]
        cases outCost (concatIdentTokens 22).out expected <;> rfl
      | some ps =>
        have h3 : (concatIdentTokens 22).variadicArg = some .tokens := rfl
        have h4 : (concatIdentTokens 22).fixedArgs = [.ident] := rfl
        simp only [paramsFor, h3, h4] at hp
        split at hp
        · cases hp
          rw [usable_of_params (by decide) (by simp only [paramsFor, h3, h4]; rw [if_pos (by assumption)])]
          simp only [List.map_cons, List.cons_append, u1, Option.map_none]
          cases outCost (concatIdentTokens 22).out expected <;> rfl
        · cases hp
    simp only [a2, List.replicate_succ, u1, u2, Option.map_none, Option.map_some]
    have o1 : (concatLitInts 24).out = .litInt := rfl
    have o2 : (concatTokens 25).out = .tokens := rfl
    rw [o1, o2]
    have hn : ∀ o : Option Nat, (o.bind fun _ => (none : Option Choice)) = none := by intro o; cases o <;> rfl
    cases ho : outCost .litInt expected with
    | none => simp only [outCost_tokens_of_int ho, Option.bind_none, hn, best]
    | some co =>
      have h5 : co ≤ 5 := by
        cases expected with
        | none => cases ho; omega
        | some t => exact coercionCost_le (a := .litInt) (b := t) ho
      simp only [hn, Option.bind_some, Nat.zero_mul, Nat.mul_zero, Nat.add_zero]
      cases outCost .tokens expected with
      | none => simp only [Option.bind_none, best, o1]
      | some co' =>
        have hbt : ¬ Choice.better ⟨co' + (es.length + 1) * (4 * 2), concatTokens 25, strValues (.value j (.litInt i) :: es) .tokens⟩
            ⟨co, concatLitInts 24, strValues (.value j (.litInt i) :: es) .litInt⟩ := by
          unfold Choice.better
          simp only
          omega
        simp only [Option.bind_some, best, if_neg hbt, o1]

theorem evalL_numbers {E : Ext} {seed : Nat} {ρ : Str → Option VKind} {es es' : List Expr} (h : SameNumbers es es') :
    ∃ is is' : List IntLit, TExpr.evalL E seed ρ (strValues es .litInt) = .ok (is.map .litInt) ∧
      TExpr.evalL E seed ρ (strValues es' .litInt) = .ok (is'.map .litInt) ∧ is.map IntLit.digits = is'.map IntLit.digits := by
  have hc : ∀ i, tryCast E (.litInt i) .litInt = .ok (.litInt i) := fun _ => tryCast_refl rfl
  induction h with
  | nil => exact ⟨[], [], by simp [strValues, TExpr.evalL], by simp [strValues, TExpr.evalL], rfl⟩
  | @cons j j' i i' hi es es' _ ih =>
    obtain ⟨is, is', h1, h2, h3⟩ := ih
    refine ⟨i :: is, i' :: is', ?_, ?_, by simp only [List.map_cons, h3, sameNumber_digits hi]⟩
    · simp [strValues, TExpr.evalL, TExpr.eval, hc, h1]
    · simp [strValues, TExpr.evalL, TExpr.eval, hc, h2]

theorem allOf_ints : ∀ is : List IntLit, allOf VKind.asLitInt (is.map .litInt) = .ok is
  | [] => rfl
  | i :: is => by simp only [List.map_cons, allOf, VKind.asLitInt, allOf_ints is, Res.map]

theorem rewritten_interchangeable {E : Ext} {seed : Nat} {F : Str → Prop} {e e' : Expr} (h : Rewritten e e') : Interchangeable E seed F e e' := by
  have hcs : ∀ i, tryCast E (.litInt i) .litInt = .ok (.litInt i) := fun _ => tryCast_refl rfl
  cases h with
  | @normalized k k' j j' i i' hi raw raw' =>
    refine ⟨⟨fun Γ _ expected => ?_⟩, fun Γ _ expected => by rw [overflows_normalize2 rfl, overflows_normalize2 rfl]⟩
    rcases check_normalize2 (Γ := Γ) (i := k) (j := j) (k := .litInt i) (raw := raw) rfl (fun h => nomatch h) expected with ⟨ho, x, hx⟩ | ⟨co, ho, hx⟩ <;>
      rcases check_normalize2 (Γ := Γ) (i := k') (j := j') (k := .litInt i') (raw := raw') rfl (fun h => nomatch h) expected with ⟨ho', y, hy⟩ | ⟨co', ho', hy⟩
    · rw [hx, hy]
      rintro rfl
      cases ho
    · rw [ho] at ho'; cases ho'
    · rw [ho] at ho'; cases ho'
    · rw [ho] at ho'
      cases ho'
      rw [hx, hy]
      refine ⟨rfl, rfl, fun ρ _ => ?_⟩
      simp [TExpr.eval, TExpr.evalL, hcs, VKind.ty, normalize2Id, normalize2For, normalize2Text, sameNumber_digits hi]
  | @joined k k' raw raw' es es' h =>
    refine ⟨⟨fun Γ _ expected => ?_⟩, fun Γ _ expected => overflows_numbers builtin_concat (by simp [concatIdents, concatIdentTokens, concatLitStrs, concatLitInts, concatTokens]) h _ _ _ _ _⟩
    by_cases hne : es = []
    · subst hne
      cases h
      have hr := renumbered_interchangeable (E := E) (seed := seed) (F := F) (.call k k' (S "concat") raw raw' (by decide) (by decide) .nil)
      exact hr.check Γ (by assumption) expected
    · have hne' : es' ≠ [] := by
        intro h'
        subst h'
        exact hne (List.length_eq_zero_iff.1 (sameNumbers_length h))
      rw [check_concat_numbers (sameNumbers_refl h).1 hne, check_concat_numbers (sameNumbers_refl h).2 hne']
      cases outCost .litInt expected with
      | none => exact fun _ => blur_refusal _ _ _
      | some co =>
        refine ⟨rfl, rfl, fun ρ _ => ?_⟩
        obtain ⟨is, is', h1, h2, h3⟩ := evalL_numbers (E := E) (seed := seed) (ρ := ρ) h
        rw [TExpr.eval, TExpr.eval, h1, h2]
        simp only [Res.bind_eq, Res.bind_ok, concatLitInts, allOf_ints, h3]

end Verif
