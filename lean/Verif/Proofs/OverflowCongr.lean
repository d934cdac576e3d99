import Verif.Proofs.Denote
/-! # What overflows of costs depend on -/

namespace Verif
open Spec

/-! ## The aliases used -/

mutual
theorem overflows_agree {T} {Γ Γ' : TyEnv} : ∀ (e : Expr), (∀ n ∈ used e, Γ n = Γ' n) → ∀ expected,
    overflows T Γ e expected = overflows T Γ' e expected
  | .value id k, _, expected => by simp only [overflows]
  | .call id name args raw, h, expected => by
    have := overflowsArgs_agree (T := T) args (fun n hn => h n (by simpa [used] using hn))
    simp only [overflows, this]
theorem overflowsArgs_agree {T} {Γ Γ' : TyEnv} : ∀ (es : List Expr), (∀ n ∈ usedL es, Γ n = Γ' n) →
    ∀ (ps : List (Ty × Nat)) (c : Nat), overflowsArgs T Γ es ps c = overflowsArgs T Γ' es ps c
  | [], _, _, _ => by simp only [overflowsArgs]
  | _ :: _, _, [], _ => by simp only [overflowsArgs]
  | e :: es, h, (t, m) :: ps, c => by
    simp only [usedL, List.mem_append] at h
    simp only [overflowsArgs]
    rw [overflows_agree e (fun n hn => h n (Or.inl hn)), check_agree e (fun n hn => h n (Or.inl hn))]
    congr 1
    split
    · rw [overflowsArgs_agree es (fun n hn => h n (Or.inr hn))]
    · rfl
end

/-! ## Definition lists -/

theorem overflowsSpec_append {T} : ∀ (xs ys : List (Str × Expr)) (Γ : TyEnv), overflowsSpec T (xs ++ ys) Γ =
    (overflowsSpec T xs Γ ||
      match checkSpec T xs Γ with
      | .error _ => false
      | .ok tes => overflowsSpec T ys (tyEnv Γ tes))
  | [], ys, Γ => by simp only [List.nil_append, overflowsSpec, checkSpec, tyEnv, Bool.false_or]
  | (n, e) :: xs, ys, Γ => by
    simp only [List.cons_append, overflowsSpec, checkSpec]
    cases check T Γ e none with
    | error x => simp
    | ok p =>
      obtain ⟨c, te⟩ := p
      simp only
      cases (Γ n).isSome with
      | true => simp
      | false =>
        simp only [Bool.not_false, Bool.true_and, Bool.false_eq_true, if_false, overflowsSpec_append xs ys]
        cases checkSpec T xs (extend Γ n te.target) <;> simp [tyEnv, Bool.or_assoc]

/-- The types after definitions with known values. -/
theorem tyEnv_denote {E : Ext} {env : Env} (henv : env.funcs = builtinFuncs) {pre : List (Str × Expr)}
    {vs : Subs} (h : denote E env pre = .ok vs) : ∃ tes, checkSpec env.funcs pre (fun _ => none) = .ok tes ∧
      tyEnv (fun _ => none) tes = fun n => (vs.get n).map (·.ty) := by
  have hnd := (denote_names h).2
  unfold denote at h
  cases hc : checkSpec env.funcs pre (fun _ => none) with
  | error x => rw [hc] at h; cases h
  | ok tes =>
    rw [hc] at h
    simp only at h
    have hv : valEnv (fun _ => none) vs = vs.get := by
      funext n; rw [valEnv_get hnd]; simp
    refine ⟨tes, rfl, ?_⟩
    rcases evalSpecT_sound (E := E) henv hc typed_empty with ⟨vs', hvs, hts⟩ | ⟨x, hx, -⟩ | ⟨hp, -⟩
    · rw [h] at hvs
      cases hvs
      have := typed_envs hts typed_empty
      funext n
      rw [← this n, hv]
    · rw [h] at hx; cases hx
    · rw [h] at hp; cases hp

/-- Definitions after a list with known values. -/
theorem outcome_append {E : Ext} {env : Env} (henv : env.funcs = builtinFuncs) {pre : List (Str × Expr)}
    {vs : Subs} (h : outcome E env pre = .ok vs) (post : List (Str × Expr)) : outcome E env (pre ++ post) =
    if overflowsSpec env.funcs post (fun n => (vs.get n).map (·.ty)) then .panic else
    match checkSpec env.funcs post (fun n => (vs.get n).map (·.ty)) with
    | .error x => .err x
    | .ok tes => (evalSpecT E env.seed tes vs.get).bind fun ws => .ok (vs ++ ws) := by
  unfold outcome at h
  split at h
  · cases h
  · rename_i ho
    obtain ⟨tes, h1, h2⟩ := tyEnv_denote henv h
    unfold outcome
    rw [overflowsSpec_append, h1, denote_append henv h]
    simp only [Bool.not_eq_true] at ho
    simp only [ho, h2, Bool.false_or]
    cases overflowsSpec env.funcs post fun n => (vs.get n).map (·.ty) with
    | true => rfl
    | false => cases checkSpec env.funcs post fun n => (vs.get n).map (·.ty) <;> rfl

theorem outcome_ok {E : Ext} {env : Env} {items : List (Str × Expr)} {vs : Subs} :
    outcome E env items = .ok vs ↔ overflowsSpec env.funcs items (fun _ => none) = false ∧ denote E env items = .ok vs := by
  unfold outcome
  cases overflowsSpec env.funcs items (fun _ => none) <;> simp

theorem outcome_prefix {E : Ext} {env : Env} {pre post : List (Str × Expr)} {vs : Subs}
    (h : outcome E env (pre ++ post) = .ok vs) : ∃ ws us, outcome E env pre = .ok ws ∧ vs = ws ++ us := by
  rw [outcome_ok, overflowsSpec_append, Bool.or_eq_false_iff] at h
  obtain ⟨⟨h1, -⟩, h2⟩ := h
  obtain ⟨ws, us, h3, h4⟩ := denote_prefix h2
  exact ⟨ws, us, outcome_ok.2 ⟨h1, h3⟩, h4⟩

/-- The value of one more definition — or its error, or its panic — depends only on the values of the aliases it uses. -/
theorem outcome_last {E : Ext} {env : Env} (henv : env.funcs = builtinFuncs) {pre pre' : List (Str × Expr)} {vs vs' : Subs}
    (h : outcome E env pre = .ok vs) (h' : outcome E env pre' = .ok vs') {e : Expr}
    (hu : ∀ n ∈ used e, vs.get n = vs'.get n) {a a' : Str} (ha : a ∉ pre.map (·.1)) (ha' : a' ∉ pre'.map (·.1)) :
    ∃ o : Res VKind, outcome E env (pre ++ [(a, e)]) = o.bind (fun v => .ok (vs ++ [(a, v)])) ∧
      outcome E env (pre' ++ [(a', e)]) = o.bind (fun v => .ok (vs' ++ [(a', v)])) := by
  have hag : Subs.get vs a = none := Subs.get_eq_none.2 (by rw [(denote_names (outcome_ok.1 h).2).1]; exact ha)
  have hag' : Subs.get vs' a' = none := Subs.get_eq_none.2 (by rw [(denote_names (outcome_ok.1 h').2).1]; exact ha')
  rw [outcome_append henv h, outcome_append henv h']
  have hty : ∀ n ∈ used e, (fun n => (Subs.get vs n).map (·.ty)) n = (fun n => (Subs.get vs' n).map (·.ty)) n := by
    intro n hn; simp only [hu n hn]
  simp only [checkSpec, overflowsSpec, hag, hag', Option.map_none, Option.isSome_none, Bool.false_eq_true, if_false,
    Bool.not_false, Bool.true_and]
  rw [← overflows_agree e hty, ← check_agree e hty]
  cases ho : overflows env.funcs (fun n => (Subs.get vs n).map (·.ty)) e none with
  | true => exact ⟨.panic, by simp, by simp⟩
  | false =>
    cases hc : check env.funcs (fun n => (Subs.get vs n).map (·.ty)) e none with
    | error x => exact ⟨.err x, by simp, by simp⟩
    | ok p =>
      obtain ⟨c, te⟩ := p
      refine ⟨te.eval E env.seed vs.get, ?_, ?_⟩
      · simp only [Bool.false_or, Bool.false_eq_true, if_false, evalSpecT, Res.bind_eq]
        cases te.eval E env.seed vs.get <;> rfl
      · simp only [Bool.false_or, Bool.false_eq_true, if_false, evalSpecT, Res.bind_eq]
        rw [← eval_agree te (ρ := vs.get) (ρ' := vs'.get) (fun n hn => hu n (check_used e hc n hn))]
        cases te.eval E env.seed vs.get <;> rfl

/-! ## Replacing an alias by its value -/

mutual
theorem overflows_inline {T} {Γ : TyEnv} {s : Str} {v : VKind} (hs : Γ s = some v.ty) (hv : natural Γ v = v.ty) :
    ∀ (e : Expr) (expected : Option Ty), overflows T Γ (replaceAlias s v e) expected = overflows T Γ e expected
  | .value id k, expected => by simp only [replaceAlias, overflows]
  | .call id name args raw, expected => by
    simp only [replaceAlias, overflows, inlineL_length, overflowsArgs_inline hs hv args]
theorem overflowsArgs_inline {T} {Γ : TyEnv} {s : Str} {v : VKind} (hs : Γ s = some v.ty) (hv : natural Γ v = v.ty) :
    ∀ (es : List Expr) (ps : List (Ty × Nat)) (c : Nat),
    overflowsArgs T Γ (replaceAliasL s v es) ps c = overflowsArgs T Γ es ps c
  | [], _, _ => by simp only [replaceAliasL, overflowsArgs]
  | _ :: _, [], _ => by simp only [replaceAliasL, overflowsArgs]
  | e :: es, (t, m) :: ps, c => by
    simp only [replaceAliasL, overflowsArgs, overflows_inline hs hv e]
    have hc := check_inline (T := T) hs hv e (some t)
    cases h : check T Γ e (some t) with
    | error x =>
      rw [h] at hc
      rcases blurE_cases hc with ⟨p, -, h2⟩ | ⟨x', y, h1, -⟩
      · cases h2
      · rw [h1]
    | ok p =>
      rw [h] at hc
      rcases blurE_cases hc with ⟨p, h1, h2⟩ | ⟨x', y, -, h2, -⟩
      · rw [h1]
        cases h2
        simp only [overflowsArgs_inline hs hv es]
      · cases h2
end

theorem outcome_inline {E : Ext} {env : Env} (henv : env.funcs = builtinFuncs) {pre : List (Str × Expr)} {vs : Subs}
    (h : outcome E env pre = .ok vs) {s : Str} {v : VKind} (hs : vs.get s = some v)
    (hv : ∀ n, v = .ident n → vs.get n = none) (a : Str) (e : Expr) (post : List (Str × Expr)) :
    blurR (outcome E env (pre ++ (a, replaceAlias s v e) :: post)) = blurR (outcome E env (pre ++ (a, e) :: post)) := by
  obtain ⟨h1, h2⟩ := outcome_ok.1 h
  have hd := denote_inline henv h2 hs hv a e post
  suffices ho : overflowsSpec env.funcs (pre ++ (a, replaceAlias s v e) :: post) (fun _ => none) =
      overflowsSpec env.funcs (pre ++ (a, e) :: post) (fun _ => none) by
    unfold outcome
    rw [ho]
    split
    · rfl
    · exact hd
  obtain ⟨tes, h3, h4⟩ := tyEnv_denote henv h2
  rw [overflowsSpec_append, overflowsSpec_append, h3]
  simp only [h4, overflowsSpec]
  have hn : natural (fun n => (vs.get n).map (·.ty)) v = v.ty := by
    cases v <;> try rfl
    rename_i n
    simp [natural, hv n rfl, VKind.ty]
  have hs' : (fun n => (Subs.get vs n).map (·.ty)) s = some v.ty := by simp [hs]
  rw [overflows_inline hs' hn]
  have hc := check_inline (T := env.funcs) hs' hn e none
  cases h : check env.funcs (fun n => (Subs.get vs n).map (·.ty)) e none with
  | error x =>
    rw [h] at hc
    rcases blurE_cases hc with ⟨p, -, h2⟩ | ⟨x', y, h1, -⟩
    · cases h2
    · rw [h1]
  | ok p =>
    rw [h] at hc
    rcases blurE_cases hc with ⟨p, h1, h2⟩ | ⟨x', y, -, h2, -⟩
    · rw [h1]
      cases h2
      simp only [TExpr.replaceAlias_target]
    · cases h2

/-! ## Raw arguments -/

mutual
theorem overflows_dropUnused {Γ : TyEnv} : ∀ (e : Expr) (expected : Option Ty),
    overflows builtinFuncs Γ (dropUnused e) expected = overflows builtinFuncs Γ e expected
  | .value id k, _ => by simp only [dropUnused]
  | .call id name args raw, expected => by
    simp only [dropUnused]
    split
    · rename_i h
      obtain ⟨hn, hr⟩ := h
      obtain ⟨p, rfl⟩ := Option.isSome_iff_exists.1 hr
      simp only [overflows]
      rcases hn with rfl | rfl
      · simp [builtin_raw, rawFunc]
      · simp [builtin_normalize, normalizeFunc]
    · have hl : ∀ es : List Expr, (dropUnusedL es).length = es.length := by
        intro es
        induction es with
        | nil => rfl
        | cons e es ih => simp [dropUnusedL, ih]
      simp only [overflows, hl, overflowsArgs_dropUnused args]
theorem overflowsArgs_dropUnused {Γ : TyEnv} : ∀ (es : List Expr) (ps : List (Ty × Nat)) (c : Nat),
    overflowsArgs builtinFuncs Γ (dropUnusedL es) ps c = overflowsArgs builtinFuncs Γ es ps c
  | [], _, _ => by simp only [dropUnusedL]
  | _ :: _, [], _ => by simp only [dropUnusedL, overflowsArgs]
  | e :: es, (t, m) :: ps, c => by
    simp only [dropUnusedL, overflowsArgs, overflows_dropUnused e, overflowsArgs_dropUnused es]
    rcases blurE_cases (check_dropUnused (Γ := Γ) e (some t)) with ⟨p, h1, h2⟩ | ⟨x, y, h1, h2, -⟩ <;> rw [h1, h2]
end

theorem overflowsSpec_dropUnused : ∀ (items : List (Str × Expr)) (Γ : TyEnv),
    overflowsSpec builtinFuncs (items.map (fun p => (p.1, dropUnused p.2))) Γ = overflowsSpec builtinFuncs items Γ
  | [], _ => rfl
  | (n, e) :: items, Γ => by
    simp only [List.map_cons, overflowsSpec, overflows_dropUnused, overflowsSpec_dropUnused items]
    rcases blurE_cases (check_dropUnused (Γ := Γ) e none) with ⟨p, h1, h2⟩ | ⟨x, y, h1, h2, -⟩ <;> rw [h1, h2]

end Verif
