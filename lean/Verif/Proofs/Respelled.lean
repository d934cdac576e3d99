import Verif.Spec.Respelled
import Verif.Proofs.Twice
/-! # The spelling of strings: proofs -/

namespace Verif
open Spec

theorem check_str (Γ : TyEnv) (j : Nat) (r s : Str) (t : Ty) :
    check builtinFuncs Γ (.value j (.litStr r s)) (some t) =
      match coercionCost .litStr t with
      | some c => .ok (c, .val (.litStr r s) t)
      | none => .error (.typeError (.coercion .litStr t)) := by
  simp only [check, natural, VKind.ty, Option.getD_some]
  cases coercionCost .litStr t <;> rfl

theorem sameTexts_length {es es' : List Expr} (h : SameTexts es es') : es.length = es'.length := by
  induction h with
  | nil => rfl
  | cons _ _ _ _ _ _ ih => simp [ih]

theorem overflowsArgs_texts {Γ : TyEnv} {es es' : List Expr} (h : SameTexts es es') (ps : List (Ty × Nat)) (c : Nat) :
    overflowsArgs builtinFuncs Γ es ps c = overflowsArgs builtinFuncs Γ es' ps c := by
  induction h generalizing ps c with
  | nil => rfl
  | cons j j' r r' s _ ih =>
    cases ps with
    | nil => rfl
    | cons p ps =>
      obtain ⟨t, m⟩ := p
      simp only [overflowsArgs, overflows, check_str]
      cases coercionCost .litStr t with
      | none => rfl
      | some ce => simp only [ih]

/-- Whether costs overflow does not depend on how strings are spelled. -/
theorem overflows_texts {Γ : TyEnv} {n : Str} {fs : List Func} (hb : builtinFuncs n = some fs) (hr : ∀ f ∈ fs, f.args ≠ [.raw]) {es es' : List Expr}
    (h : SameTexts es es') (i i' : Nat) (raw raw' : Option (Nat × Toks)) (expected : Option Ty) :
    overflows builtinFuncs Γ (.call i n es raw) expected = overflows builtinFuncs Γ (.call i' n es' raw') expected := by
  simp only [overflows, hb]
  rw [Bool.eq_iff_iff, List.any_eq_true, List.any_eq_true]
  refine exists_congr fun f => and_congr_right fun hf => ?_
  simp only [if_neg (hr f hf), sameTexts_length h]
  cases outCost f.out expected with
  | none => simp
  | some co =>
    cases paramsFor f es'.length with
    | none => simp
    | some ps => simp only [overflowsArgs_texts h]

/-- The strings among values. -/
def strValues : List Expr → Ty → List TExpr
  | [], _ => []
  | .value _ k :: es, t => .val k t :: strValues es t
  | _ :: es, t => strValues es t

theorem checkArgs_texts {Γ : TyEnv} {es es' : List Expr} (h : SameTexts es es') {t : Ty} {c m : Nat} (hc : coercionCost .litStr t = some c) :
    checkArgs builtinFuncs Γ es (List.replicate es.length (t, m)) = some (es.length * (c * m), strValues es t) := by
  induction h with
  | nil => simp [checkArgs, strValues]
  | cons j j' r r' s _ ih =>
    simp only [List.length_cons, List.replicate_succ, checkArgs, check_str, hc, ih, Option.map_some, strValues, Nat.add_mul, Nat.one_mul]
    rw [Nat.add_comm]

theorem sameTexts_refl {es es' : List Expr} (h : SameTexts es es') : SameTexts es es ∧ SameTexts es' es' := by
  induction h with
  | nil => exact ⟨.nil, .nil⟩
  | cons j j' r r' s _ ih => exact ⟨.cons _ _ _ _ _ ih.1, .cons _ _ _ _ _ ih.2⟩

theorem usable_of_params {f : Func} {raw : Option (Nat × Toks)} {n : Nat} {expected : Option Ty} {args : List (Ty × Nat) → Option (Nat × List TExpr)}
    (hr : f.args ≠ [.raw]) {ps : List (Ty × Nat)} (hp : paramsFor f n = some ps) :
    usable raw n expected args f = (outCost f.out expected).bind fun co => (args ps).map fun r => ⟨co + r.1, f, r.2⟩ := by
  simp only [usable, if_neg hr, hp, Option.bind_eq_bind]
  cases outCost f.out expected with
  | none => rfl
  | some co =>
    simp only [Option.bind_some]
    cases args ps <;> rfl

theorem paramsFor_many {f : Func} {t : Ty} (h : f.args = [.variadic t]) (n : Nat) : paramsFor f (n + 1) = some (List.replicate (n + 1) (t, 2)) := by
  have h1 : f.variadicArg = some t := by unfold Func.variadicArg; rw [h]; rfl
  have h2 : f.fixedArgs = [] := by unfold Func.fixedArgs; rw [h]; rfl
  simp [paramsFor, h1, h2, h]

theorem outCost_tokens_none {expected : Option Ty} (h : outCost .litStr expected = none) : outCost .tokens expected = none := by
  cases expected with
  | none => cases h
  | some t => cases t <;> first | rfl | cases h

/-- `concat` of strings is the one for strings, whatever is expected. -/
theorem check_concat_texts {Γ : TyEnv} {es es' : List Expr} (h : SameTexts es es') (hne : es ≠ []) (i : Nat) (raw : Option (Nat × Toks)) (expected : Option Ty) :
    check builtinFuncs Γ (.call i (S "concat") es raw) expected =
      match outCost .litStr expected with
      | some co => .ok (co, .call (concatLitStrs 23) (strValues es .litStr) (expected.getD .litStr))
      | none => .error (refusal [concatIdents 21, concatIdentTokens 22, concatLitStrs 23, concatLitInts 24, concatTokens 25] (.call i (S "concat") es raw)) := by
  have hb : builtinFuncs (S "concat") = _ := builtin_concat
  cases h with
  | nil => exact absurd rfl hne
  | @cons j j' r r' s es es' h =>
    have hs := SameTexts.cons j j' r r' s h
    have h1 := checkArgs_texts (Γ := Γ) (t := .litStr) (c := 0) (m := 2) hs rfl
    have h2 := checkArgs_texts (Γ := Γ) (t := .tokens) (c := 4) (m := 2) hs rfl
    simp only [check, hb, List.filterMap_cons, List.filterMap_nil]
    have u1 : ∀ ps m, checkArgs builtinFuncs Γ (.value j (.litStr r s) :: es) ((.ident, m) :: ps) = none := by
      intro ps m; simp only [checkArgs, check_str]; rfl
    have u2 : ∀ ps m, checkArgs builtinFuncs Γ (.value j (.litStr r s) :: es) ((.litInt, m) :: ps) = none := by
      intro ps m; simp only [checkArgs, check_str]; rfl
    have hl : (Expr.value j (.litStr r s) :: es).length = es.length + 1 := rfl
    rw [hl] at h1 h2
    rw [hl, usable_of_params (f := concatIdents 21) (by decide) (paramsFor_many rfl _), usable_of_params (f := concatLitStrs 23) (by decide) (paramsFor_many rfl _),
      usable_of_params (f := concatLitInts 24) (by decide) (paramsFor_many rfl _), usable_of_params (f := concatTokens 25) (by decide) (paramsFor_many rfl _), h1, h2]
    have a2 : usable raw (es.length + 1) expected (fun ps => checkArgs builtinFuncs Γ (.value j (.litStr r s) :: es) ps) (concatIdentTokens 22) = none := by
      cases hp : paramsFor (concatIdentTokens 22) (es.length + 1) with
      | none =>
        have ha : (concatIdentTokens 22).args ≠ [.raw] := by decide
        simp only [usable, if_neg ha, hp, Option.bind_eq_bind]
        cases outCost (concatIdentTokens 22).out expected <;> rfl
      | some ps =>
        have h3 : (concatIdentTokens 22).variadicArg = some .tokens := rfl
        have h4 : (concatIdentTokens 22).fixedArgs = [.ident] := rfl
        simp only [paramsFor, h3, h4] at hp
        split at hp
        · cases hp
          rw [usable_of_params (by decide) (by simp only [paramsFor, h3, h4]; rw [if_pos (by assumption)])]
          simp only [List.map_cons, List.cons_append, u1, Option.map_none]
          cases outCost (concatIdentTokens 22).out expected <;> rfl
        · cases hp
    simp only [a2, List.replicate_succ, u1, u2, Option.map_none, Option.map_some]
    have o1 : (concatLitStrs 23).out = .litStr := rfl
    have o2 : (concatTokens 25).out = .tokens := rfl
    rw [o1, o2]
    have hn : ∀ o : Option Nat, (o.bind fun _ => (none : Option Choice)) = none := by intro o; cases o <;> rfl
    cases ho : outCost .litStr expected with
    | none => simp only [outCost_tokens_none ho, Option.bind_none, hn, best]
    | some co =>
      have h5 : co ≤ 5 := by
        cases expected with
        | none => cases ho; omega
        | some t => exact coercionCost_le (a := .litStr) (b := t) ho
      simp only [hn, Option.bind_some, Nat.zero_mul, Nat.mul_zero, Nat.add_zero]
      cases outCost .tokens expected with
      | none => simp only [Option.bind_none, best, o1]
      | some co' =>
        have hbt : ¬ Choice.better ⟨co' + (es.length + 1) * (4 * 2), concatTokens 25, strValues (.value j (.litStr r s) :: es) .tokens⟩
            ⟨co, concatLitStrs 23, strValues (.value j (.litStr r s) :: es) .litStr⟩ := by
          unfold Choice.better
          simp only
          omega
        simp only [Option.bind_some, best, if_neg hbt, o1]

theorem evalL_texts {E : Ext} {seed : Nat} {ρ : Str → Option VKind} {es es' : List Expr} (h : SameTexts es es') :
    ∃ vs vs', TExpr.evalL E seed ρ (strValues es .litStr) = .ok vs ∧ TExpr.evalL E seed ρ (strValues es' .litStr) = .ok vs' ∧
      allOf VKind.asLitStr vs = allOf VKind.asLitStr vs' := by
  have hc : ∀ r s, tryCast E (.litStr r s) .litStr = .ok (.litStr r s) := fun _ _ => tryCast_refl rfl
  induction h with
  | nil => exact ⟨[], [], by simp [strValues, TExpr.evalL], by simp [strValues, TExpr.evalL], rfl⟩
  | cons j j' r r' s _ ih =>
    obtain ⟨vs, vs', h1, h2, h3⟩ := ih
    refine ⟨.litStr r s :: vs, .litStr r' s :: vs', ?_, ?_, by simp only [allOf, VKind.asLitStr, h3]⟩
    · simp [strValues, TExpr.evalL, TExpr.eval, hc, h1]
    · simp [strValues, TExpr.evalL, TExpr.eval, hc, h2]

theorem respelled_interchangeable {E : Ext} {seed : Nat} {F : Str → Prop} {e e' : Expr} (h : Respelled e e') : Interchangeable E seed F e e' := by
  have hcs : ∀ r s, tryCast E (.litStr r s) .litStr = .ok (.litStr r s) := fun _ _ => tryCast_refl rfl
  cases h with
  | @word i i' j j' r r' s raw raw' f G hf =>
    obtain ⟨idf, hbf⟩ := wordFunction_builtin hf
    refine ⟨⟨fun Γ _ expected => ?_⟩, fun Γ _ expected => overflows_texts hbf (by simp [strOf, identOf]) (.cons _ _ _ _ _ .nil) _ _ _ _ _⟩
    have h1 : coercionCost .litStr .litStr = some 0 := rfl
    have h2 : coercionCost .litStr .ident = none := rfl
    rw [check_word hbf, check_word hbf, check_str, check_str, check_str, check_str, h1, h2]
    simp only [Except.toOption, wordChoice, Option.map_none, Option.map_some]
    have hn : ((outCost .ident expected).bind fun _ => (none : Option (Nat × TExpr))) = none := by cases outCost .ident expected <;> rfl
    rw [hn]
    cases outCost .litStr expected with
    | none => exact fun _ => blur_refusal _ _ _
    | some co =>
      refine ⟨rfl, rfl, fun ρ _ => ?_⟩
      simp [TExpr.eval, TExpr.evalL, hcs, strOf]
  | normalized i i' j j' r r' s raw raw' =>
    refine ⟨⟨fun Γ _ expected => ?_⟩, fun Γ _ expected => by rw [overflows_normalize2 rfl, overflows_normalize2 rfl]⟩
    rcases check_normalize2 (Γ := Γ) (i := i) (j := j) (k := .litStr r s) (raw := raw) rfl (fun h => nomatch h) expected with ⟨ho, x, hx⟩ | ⟨co, ho, hx⟩ <;>
      rcases check_normalize2 (Γ := Γ) (i := i') (j := j') (k := .litStr r' s) (raw := raw') rfl (fun h => nomatch h) expected with ⟨ho', y, hy⟩ | ⟨co', ho', hy⟩
    · rw [hx, hy]
      rintro rfl
      cases ho
    · rw [ho] at ho'; cases ho'
    · rw [ho] at ho'; cases ho'
    · rw [ho] at ho'
      cases ho'
      rw [hx, hy]
      refine ⟨rfl, rfl, fun ρ _ => ?_⟩
      simp [TExpr.eval, TExpr.evalL, hcs, VKind.ty, normalize2Id, normalize2For, normalize2Text]
  | named i i' j j' r r' s raw raw' =>
    refine ⟨⟨fun Γ _ expected => ?_⟩, fun Γ _ expected => overflows_texts builtin_to_ident (by simp [castFunc]) (.cons _ _ _ _ _ .nil) _ _ _ _ _⟩
    rw [check_cast builtin_to_ident rfl, check_cast builtin_to_ident rfl, check_str, check_str]
    cases outCost (castFunc 26 c! "to_ident" .ident).out expected with
    | none => exact fun _ => blur_refusal _ _ _
    | some co =>
      refine ⟨rfl, rfl, fun ρ _ => ?_⟩
      simp [TExpr.eval, TExpr.evalL, castFunc, tryCast, VKind.ty, VKind.toTokens, parseLitStr]
  | @joined i i' raw raw' es es' h =>
    refine ⟨⟨fun Γ _ expected => ?_⟩, fun Γ _ expected => overflows_texts builtin_concat (by simp [concatIdents, concatIdentTokens, concatLitStrs, concatLitInts, concatTokens]) h _ _ _ _ _⟩
    by_cases hne : es = []
    · subst hne
      cases h
      have hr := renumbered_interchangeable (E := E) (seed := seed) (F := F) (.call i i' (S "concat") raw raw' (by decide) (by decide) .nil)
      exact hr.check Γ (by assumption) expected
    · have hne' : es' ≠ [] := by
        intro h'
        subst h'
        exact hne (List.length_eq_zero_iff.1 (sameTexts_length h))
      rw [check_concat_texts (sameTexts_refl h).1 hne, check_concat_texts (sameTexts_refl h).2 hne']
      cases outCost .litStr expected with
      | none => exact fun _ => blur_refusal _ _ _
      | some co =>
        refine ⟨rfl, rfl, fun ρ _ => ?_⟩
        obtain ⟨vs, vs', h1, h2, h3⟩ := evalL_texts (E := E) (seed := seed) (ρ := ρ) h
        rw [TExpr.eval, TExpr.eval, h1, h2]
        simp only [Res.bind_eq, Res.bind_ok, concatLitStrs, h3]

/-- `hash` of a string, where nothing in particular is expected, is the one for strings. -/
theorem check_hash_text (Γ : TyEnv) (i j : Nat) (r s : Str) (raw : Option (Nat × Toks)) :
    ∃ c f, check builtinFuncs Γ (.call i (S "hash") [.value j (.litStr r s)] raw) none = .ok (c, .call f [.val (.litStr r s) .litStr] .litStr) ∧
      ∀ E seed, f.impl E seed [.litStr r s] = .ok (newLitStr E (hashStr seed s)) := by
  simp only [check, builtin_hash]
  exact ⟨_, _, rfl, fun _ _ => rfl⟩

theorem hash_text_same {E : Ext} {seed : Nat} {F : Str → Prop} {ra rb : Except Err (Nat × TExpr)} {r r' s : Str}
    (ha : ∃ c f, ra = .ok (c, .call f [.val (.litStr r s) .litStr] .litStr) ∧ ∀ E seed, f.impl E seed [.litStr r s] = .ok (newLitStr E (hashStr seed s)))
    (hb : ∃ c f, rb = .ok (c, .call f [.val (.litStr r' s) .litStr] .litStr) ∧ ∀ E seed, f.impl E seed [.litStr r' s] = .ok (newLitStr E (hashStr seed s))) :
    AlikeValues E seed F ra rb := by
  have hcs : ∀ r s, tryCast E (.litStr r s) .litStr = .ok (.litStr r s) := fun _ _ => tryCast_refl rfl
  obtain ⟨c, f, rfl, h1⟩ := ha
  obtain ⟨c', f', rfl, h2⟩ := hb
  refine ⟨rfl, fun ρ _ => ?_⟩
  simp only [TExpr.eval, TExpr.evalL, hcs, Res.bind_eq, Res.bind_ok, Res.pure_eq, h1, h2]

theorem respelledValue_same {E : Ext} {seed : Nat} {F : Str → Prop} {e e' : Expr} (h : RespelledValue e e') : SameValue E seed F e e' := by
  cases h with
  | parts h => exact (exchanged_interchangeable (fun _ _ h => respelled_interchangeable h) h).toSameMeaning.value
  | hashed i i' j j' r r' s raw raw' => exact fun Γ _ => hash_text_same (check_hash_text Γ i j r s raw) (check_hash_text Γ i' j' r' s raw')

end Verif
