import Verif.Spec.Size
import Verif.Proofs.Twice
import Verif.Proofs.Seed
import Verif.Proofs.Subst
import Verif.Proofs.CrossProduct
/-! # How values and code grow -/

namespace Verif
open Spec

theorem count_flat : ∀ (a b : Toks), count (a ++ b) = count a + count b
  | [], b => by simp [count]
  | t :: a, b => by simp [count, count_flat a b, Nat.add_assoc]

theorem bulk_int (i : IntLit) : bulk (.litInt i) ≤ 2 := by
  simp only [bulk, VKind.toTokens, IntLit.toTokens]
  cases i.neg <;> simp [count, countTok]

theorem parseIdent_bulk {ts : Toks} {s : Str} (h : parseIdent ts = some s) : count ts = 1 := by
  unfold parseIdent at h
  split at h
  · rfl
  · cases h

theorem parseLitStr_bulk {ts : Toks} {p : Str × Str} (h : parseLitStr ts = some p) : count ts = 1 := by
  unfold parseLitStr at h
  split at h
  · rfl
  · cases h

theorem parseLitInt_bulk {ts : Toks} {i : IntLit} (h : parseLitInt ts = some i) : bulk (.litInt i) = count ts := by
  unfold parseLitInt at h
  split at h <;> first | (cases h; rfl) | cases h

theorem ofOption_ok {α : Type} {e : Err} {o : Option α} {g : α → VKind} {b : VKind} (h : (Res.ofOption e o).map g = .ok b) : ∃ a, o = some a ∧ b = g a := by
  cases o with
  | none => cases h
  | some a => cases h; exact ⟨a, rfl, rfl⟩

/-- A cast keeps the number of tokens. -/
theorem tryCast_bulk {E : Ext} {v w : VKind} {t : Ty} (h : tryCast E v t = .ok w) : bulk w = bulk v := by
  unfold tryCast at h
  split at h
  · cases h; rfl
  · split at h
    all_goals first
      | (cases h; rfl)
      | (cases h; done)
      | (obtain ⟨a, ha, rfl⟩ := ofOption_ok h; first | rfl | exact parseLitInt_bulk ha)
      | (split at h <;> first | (cases h; rfl) | (cases h; done) | skip)
    · next hp =>
      obtain ⟨a, ha, rfl⟩ := ofOption_ok h
      exact (parseLitStr_bulk hp).symm
    · obtain ⟨a, ha, rfl⟩ := ofOption_ok h
      exact (parseIdent_bulk ha).symm
    · next hp =>
      cases h
      exact (parseIdent_bulk hp).symm
    · obtain ⟨a, ha, rfl⟩ := ofOption_ok h
      exact (parseLitStr_bulk ha).symm

theorem newIdent_bulk {E : Ext} {s : Str} {v : VKind} (h : newIdent E s = .ok v) : bulk v = 1 := by
  unfold newIdent at h
  split at h <;> cases h
  rfl

theorem allOf_tokens_bulk : ∀ {vs : List VKind} {tss : List Toks}, allOf VKind.asTokens vs = .ok tss → count tss.flatten = bulkL vs
  | [], _, h => by cases h; rfl
  | v :: vs, _, h => by
    rw [allOf] at h
    cases v <;> simp only [VKind.asTokens] at h <;> try (cases h; done)
    next ts =>
    cases hr : allOf VKind.asTokens vs with
    | ok l => rw [hr] at h; cases h; rw [List.flatten_cons, count_flat, allOf_tokens_bulk hr]; rfl
    | err x => rw [hr] at h; cases h
    | panic => rw [hr] at h; cases h

theorem bulkL_nonempty_ints : ∀ {vs : List VKind} {is : List IntLit}, allOf VKind.asLitInt vs = .ok is → is ≠ [] → 1 ≤ bulkL vs
  | [], _, h, hn => by cases h; exact absurd rfl hn
  | v :: vs, _, h, _ => by
    rw [allOf] at h
    cases v <;> simp only [VKind.asLitInt] at h <;> try (cases h; done)
    next i =>
    have : 1 ≤ bulk (.litInt i) := by
      simp only [bulk, VKind.toTokens, IntLit.toTokens]
      cases i.neg <;> simp [count, countTok]
    simp only [bulkL]
    omega

/-- A function gives at most one token more than its arguments have. -/
theorem builtins_bulk {E : Ext} {seed : Nat} {f : Func} (hf : f ∈ builtins) {vs : List VKind} {r : VKind} (h : f.impl E seed vs = .ok r) :
    bulk r ≤ 1 + bulkL vs := by
  have one : bulk r = 1 → bulk r ≤ 1 + bulkL vs := by omega
  have casts : ∀ id name t, (castFunc id name t).impl E seed vs = .ok r → bulk r ≤ 1 + bulkL vs := by
    intro id name t h
    simp only [castFunc] at h
    split at h
    · have := tryCast_bulk h
      simp only [bulkL]
      omega
    · cases h
  have norms : ∀ id t, (normalize2For id t).impl E seed vs = .ok r → bulk r ≤ 1 + bulkL vs := by
    intro id t h
    simp only [normalize2For] at h
    split at h
    · split at h
      · exact one (newIdent_bulk h)
      · cases h
    · cases h
  have strs : ∀ id name g, f ∈ strFuncs id name g → bulk r ≤ 1 + bulkL vs := by
    intro id name g hf
    simp only [strFuncs, List.mem_cons, List.not_mem_nil, or_false] at hf
    rcases hf with rfl | rfl <;> (simp only at h; split at h)
    · cases h; exact one rfl
    · cases h
    · exact one (newIdent_bulk h)
    · cases h
  simp only [builtins, hashFuncs, List.mem_append, List.mem_cons, List.not_mem_nil, or_false] at hf
  rcases hf with ((((((hf | hf) | hf) | hf) | hf) | hf) | hf) | hf
  · exact strs _ _ _ hf
  · exact strs _ _ _ hf
  · exact strs _ _ _ hf
  · exact strs _ _ _ hf
  · exact strs _ _ _ hf
  · rcases hf with rfl | hf
    · simp only [normalizeFunc] at h
      split at h
      · exact one (newIdent_bulk h)
      · cases h
    · rcases hf with rfl | rfl | rfl | rfl | rfl | rfl | rfl <;> exact norms _ _ h
  · rcases hf with rfl | rfl | rfl <;> (simp only at h; split at h)
    · cases h; exact one rfl
    · cases h
    · exact one (newIdent_bulk h)
    · cases h
    · exact one (newIdent_bulk h)
    · cases h
  · rcases hf with rfl | rfl | rfl | rfl | rfl | rfl | rfl | rfl | rfl | rfl | rfl | rfl | rfl
    · simp only [concatIdents, Res.bind_eq] at h
      obtain ⟨l, -, h⟩ := Res.bind_eq_ok.1 h
      exact one (newIdent_bulk h)
    · simp only [concatIdentTokens] at h
      split at h
      · cases h
      · simp only [Res.bind_eq] at h
        obtain ⟨l, -, h⟩ := Res.bind_eq_ok.1 h
        split at h
        · cases h; exact one rfl
        · cases h
    · simp only [concatLitStrs, Res.bind_eq] at h
      obtain ⟨l, -, h⟩ := Res.bind_eq_ok.1 h
      cases h
      exact one rfl
    · simp only [concatLitInts, Res.bind_eq] at h
      obtain ⟨l, hl, h⟩ := Res.bind_eq_ok.1 h
      obtain ⟨i, hi, h⟩ := Res.bind_eq_ok.1 h
      cases h
      have h1 := bulk_int i
      have h2 : l ≠ [] := by
        rintro rfl
        cases hi
      have h3 := bulkL_nonempty_ints hl h2
      omega
    · simp only [concatTokens, Res.bind_eq] at h
      obtain ⟨l, hl, h⟩ := Res.bind_eq_ok.1 h
      cases h
      have := allOf_tokens_bulk hl
      simp only [bulk, VKind.toTokens]
      omega
    all_goals first
      | exact casts _ _ _ h
      | (simp only [rawFunc] at h
         split at h
         · cases h; simp [bulkL, bulk, VKind.toTokens]
         · cases h)

mutual
/-- The same bound for typed expressions. -/
def TExpr.grown (σ : Str → Option Nat) : TExpr → Nat
  | .val (.ident s) _ => (σ s).getD 1
  | .val k _ => bulk k
  | .call _ args _ => 1 + TExpr.grownL σ args
def TExpr.grownL (σ : Str → Option Nat) : List TExpr → Nat
  | [] => 0
  | te :: tes => TExpr.grown σ te + TExpr.grownL σ tes
end

mutual
theorem check_grown {Γ : TyEnv} {σ : Str → Option Nat} {e : Expr} {expected : Option Ty} {c : Nat} {te : TExpr}
    (h : check builtinFuncs Γ e expected = .ok (c, te)) : TExpr.grown σ te ≤ grown σ e := by
  match e with
  | .value id k =>
    simp only [check] at h
    split at h
    · cases h; cases k <;> simp [TExpr.grown, grown]
    · cases h
  | .call id name args raw =>
    simp only [check] at h
    split at h
    · cases h
    · rename_i fs hfs
      split at h
      · rename_i ch hb
        cases h
        have hm := best_mem hb
        rw [List.mem_filterMap] at hm
        obtain ⟨f, hf, hu⟩ := hm
        obtain ⟨hcf, co, -, hr⟩ := usable_cost hu
        obtain ⟨hfb, rfl⟩ := (builtinFuncs_mem hfs).1 hf
        rw [TExpr.grown, grown]
        rcases hr with ⟨ha, i, ts, rfl, -, hca⟩ | ⟨hn, ps, cc, tes, -, hck, -, hca⟩
        · rw [hca, if_pos (show f.name = S "raw" ∨ f.name = S "normalize" from builtins_raw_names f hfb ha)]
          simp [TExpr.grownL, TExpr.grown, bulk, VKind.toTokens]
        · rw [hca]
          have hck := checkArgs_grown (σ := σ) hck
          have : (if f.name = S "raw" ∨ f.name = S "normalize" then raw else none) = none := by
            split
            · next hp =>
              have ha := builtins_text f hfb hp
              cases raw with
              | none => rfl
              | some p => exact absurd ⟨ha, rfl⟩ hn
            · rfl
          rw [this]
          simp only
          omega
      · cases h
theorem checkArgs_grown {Γ : TyEnv} {σ : Str → Option Nat} {es : List Expr} {ps : List (Ty × Nat)} {c : Nat} {tes : List TExpr}
    (h : checkArgs builtinFuncs Γ es ps = some (c, tes)) : TExpr.grownL σ tes ≤ grownL σ es := by
  match es, ps with
  | [], _ => simp only [checkArgs] at h; cases h; simp [TExpr.grownL]
  | _ :: _, [] => simp only [checkArgs] at h; cases h; simp [TExpr.grownL]
  | e :: es, (t, m) :: ps =>
    simp only [checkArgs] at h
    split at h
    · rename_i c0 te hc
      simp only [Option.map_eq_some_iff, Prod.mk.injEq] at h
      obtain ⟨⟨c1, tes1⟩, hr, -, rfl⟩ := h
      have h1 := check_grown (σ := σ) hc
      have h2 := checkArgs_grown (σ := σ) hr
      simp only [TExpr.grownL, grownL]
      omega
    · cases h
end

/-- The sizes of the values of aliases. -/
def sizesOf (ρ : Str → Option VKind) (n : Str) : Option Nat := (ρ n).map bulk

mutual
theorem eval_grown {E : Ext} {seed : Nat} {ρ : Str → Option VKind} {te : TExpr} (hf : ∀ f ∈ TExpr.funcs te, f ∈ builtins) {v : VKind}
    (h : te.eval E seed ρ = .ok v) : bulk v ≤ TExpr.grown (sizesOf ρ) te := by
  match te with
  | .val k t =>
    rw [TExpr.eval.eq_def] at h
    simp only at h
    split at h
    · next hc =>
      cases h
      rw [tryCast_bulk hc]
      cases k <;> simp only [TExpr.grown, Nat.le_refl]
      next s =>
      unfold sizesOf
      cases hρ : ρ s <;> simp [bulk, VKind.toTokens, count, countTok]
    · cases h
  | .call f args t =>
    rw [TExpr.eval] at h
    simp only [Res.bind_eq] at h
    obtain ⟨vs, h1, h⟩ := Res.bind_eq_ok.1 h
    obtain ⟨r, h2, h⟩ := Res.bind_eq_ok.1 h
    rw [tryCast_bulk h, TExpr.grown]
    have h3 := evalL_grown (fun g hg => hf g (by simp [TExpr.funcs, hg])) h1
    have h4 := builtins_bulk (hf f (by simp [TExpr.funcs])) h2
    omega
theorem evalL_grown {E : Ext} {seed : Nat} {ρ : Str → Option VKind} {tes : List TExpr} (hf : ∀ f ∈ TExpr.funcsL tes, f ∈ builtins) {vs : List VKind}
    (h : TExpr.evalL E seed ρ tes = .ok vs) : bulkL vs ≤ TExpr.grownL (sizesOf ρ) tes := by
  match tes with
  | [] => rw [TExpr.evalL] at h; cases h; simp [bulkL]
  | te :: tes =>
    simp only [TExpr.evalL] at h
    obtain ⟨v, h1, h⟩ := Res.bind_eq_ok.1 h
    obtain ⟨ws, h2, h⟩ := Res.bind_eq_ok.1 h
    cases h
    have h3 := eval_grown (fun g hg => hf g (by simp [TExpr.funcsL, hg])) h1
    have h4 := evalL_grown (fun g hg => hf g (by simp [TExpr.funcsL, hg])) h2
    simp only [bulkL, TExpr.grownL]
    omega
end

mutual
/-- When the values have at most `B` tokens, the expression is at most `B` times as large as it is written. -/
theorem grown_le {σ : Str → Option Nat} {B : Nat} (hB : 1 ≤ B) (hσ : ∀ n k, σ n = some k → k ≤ B) (e : Expr) :
    grown σ e ≤ B * grown (fun _ => none) e := by
  match e with
  | .value _ k =>
    cases k <;> simp only [grown] <;> try exact Nat.le_mul_of_pos_left _ hB
    next s =>
    cases h : σ s with
    | none => simpa using hB
    | some k => simpa using hσ s k h
  | .call _ n args raw =>
    have ih := grownL_le hB hσ args
    rw [grown, grown, Nat.mul_add]
    generalize (if n = S "raw" ∨ n = S "normalize" then raw else none) = o
    cases o with
    | none => simp only; omega
    | some p =>
      have := Nat.le_mul_of_pos_left (count p.2) hB
      simp only; omega
theorem grownL_le {σ : Str → Option Nat} {B : Nat} (hB : 1 ≤ B) (hσ : ∀ n k, σ n = some k → k ≤ B) (es : List Expr) :
    grownL σ es ≤ B * grownL (fun _ => none) es := by
  match es with
  | [] => simp [grownL]
  | e :: es =>
    have h1 := grown_le hB hσ e
    have h2 := grownL_le hB hσ es
    rw [grownL, grownL, Nat.mul_add]
    omega
end

theorem growth_snoc (ds : List (Str × Expr)) (d : Str × Expr) : growth (ds ++ [d]) = growth ds * written d.2 := by
  rw [growth, List.map_append, CrossProduct.product_append]
  simp [growth, product]

theorem growth_pos (ds : List (Str × Expr)) : 1 ≤ growth ds := by
  induction ds with
  | nil => simp [growth, product]
  | cons d ds ih =>
    have : growth (d :: ds) = written d.2 * growth ds := rfl
    rw [this]
    have : 1 ≤ written d.2 := Nat.le_max_left _ _
    exact Nat.mul_le_mul this ih

/-- The value of a definition is at most as large as its text with the values of aliases put in. -/
theorem outcome_grown {E : Ext} {env : Env} (henv : env.funcs = builtinFuncs) {pre : List (Str × Expr)} {vs : Subs} (h : outcome E env pre = .ok vs)
    {y : Str} {e : Expr} {r : Subs} (hr : outcome E env (pre ++ [(y, e)]) = .ok r) :
    ∃ v, r = vs ++ [(y, v)] ∧ bulk v ≤ grown (fun n => (vs.get n).map bulk) e := by
  obtain ⟨c, te, v, h1, h2, rfl⟩ := outcome_final henv h hr
  exact ⟨v, rfl, Nat.le_trans (eval_grown (fun f hf => (check_funcs h1 f hf).1) h2) (check_grown h1)⟩

theorem lookup_mem' {vs : Subs} {n : Str} {v : VKind} (h : List.lookup n vs = some v) : (n, v) ∈ vs := by
  induction vs with
  | nil => cases h
  | cons p vs ih =>
    rw [List.lookup_cons] at h
    split at h
    · next he => cases h; simp [eq_of_beq he]
    · simp [ih h]

/-- No value is larger than the product of the sizes of the definitions. -/
theorem outcome_growth {E : Ext} {env : Env} (henv : env.funcs = builtinFuncs) {ds : List (Str × Expr)} {vs : Subs} (h : outcome E env ds = .ok vs) :
    ∀ p ∈ vs, bulk p.2 ≤ growth ds := by
  generalize hn : ds.length = n
  induction n generalizing ds vs with
  | zero =>
    have : ds = [] := List.length_eq_zero_iff.1 hn
    subst this
    have h : Res.ok ([] : Subs) = .ok vs := h
    cases h
    simp
  | succ n ih =>
    rcases CrossProduct.snoc_cases ds with rfl | ⟨pre, ⟨y, e⟩, rfl⟩
    · cases hn
    have hn : pre.length = n := by simpa using hn
    obtain ⟨us, -, hu, -⟩ := outcome_prefix h
    obtain ⟨v, rfl, hv⟩ := outcome_grown henv hu h
    have ihp := ih hu hn
    have h1 : growth pre ≤ growth (pre ++ [(y, e)]) := by
      rw [growth_snoc]
      exact Nat.le_mul_of_pos_right _ (Nat.le_max_left _ _)
    intro p hp
    rcases List.mem_append.1 hp with hp | hp
    · exact Nat.le_trans (ihp p hp) h1
    · cases List.mem_singleton.1 hp
      refine Nat.le_trans hv ?_
      rw [growth_snoc]
      refine Nat.le_trans (grown_le (growth_pos pre) ?_ e) (Nat.mul_le_mul_left _ (Nat.le_max_right _ _))
      intro n k hk
      simp only [Option.map_eq_some_iff] at hk
      obtain ⟨w, hw, rfl⟩ := hk
      rw [get_eq_lookup] at hw
      exact ihp _ (lookup_mem' hw)

/-! ## Code -/

mutual
theorem substTok_count {look : Str → Option Toks} {str : Str → Lit} (t : Tok) : count (substTok look str t) = filledTok (fun n => (look n).map count) t := by
  match t with
  | .ident n =>
    rw [substTok, filledTok]
    cases look n <;> simp [count, countTok]
  | .group d ts =>
    have ih := substAll_count (look := look) (str := str) ts
    rw [substTok, filledTok, ← ih]
    simp [count, countTok]
  | .punct _ _ => rfl
  | .lit l => cases l <;> rfl
theorem substAll_count {look : Str → Option Toks} {str : Str → Lit} (ts : Toks) : count (substAll look str ts) = filled (fun n => (look n).map count) ts := by
  match ts with
  | [] => rfl
  | t :: ts =>
    have h1 := substTok_count (look := look) (str := str) t
    have h2 := substAll_count (look := look) (str := str) ts
    rw [substAll, count_flat, filled, h1, h2]
end

mutual
theorem filledTok_le {σ : Str → Option Nat} {B : Nat} (hB : 1 ≤ B) (hσ : ∀ n k, σ n = some k → k ≤ B) (t : Tok) : filledTok σ t ≤ B * countTok t := by
  match t with
  | .ident n =>
    rw [filledTok, countTok]
    cases h : σ n with
    | none => simpa using hB
    | some k => simpa using hσ n k h
    all_goals exact nofun
  | .group d ts =>
    have ih := filled_le hB hσ ts
    rw [filledTok, countTok, Nat.mul_add]
    omega
  | .punct _ _ => simpa [filledTok, countTok] using hB
  | .lit l => simpa [filledTok, countTok] using hB
theorem filled_le {σ : Str → Option Nat} {B : Nat} (hB : 1 ≤ B) (hσ : ∀ n k, σ n = some k → k ≤ B) (ts : Toks) : filled σ ts ≤ B * count ts := by
  match ts with
  | [] => simp [filled]
  | t :: ts =>
    have h1 := filledTok_le hB hσ t
    have h2 := filled_le hB hσ ts
    rw [filled, count, Nat.mul_add]
    omega
end

/-! ## Doubling -/

/-- `concat` of an alias whose value is a sequence of tokens with itself. -/
theorem check_concat_tokens {Γ : TyEnv} {a b : Str} (ha : Γ a = some .tokens) (hb : Γ b = some .tokens) (i j k : Nat) (raw : Option (Nat × Toks)) :
    check builtinFuncs Γ (.call i (S "concat") [.value j (.ident a), .value k (.ident b)] raw) none =
      .ok (0, .call (concatTokens 25) [.val (.ident a) .tokens, .val (.ident b) .tokens] .tokens) := by
  simp only [check, builtin_concat, List.length_cons, List.length_nil, List.filterMap_cons, List.filterMap_nil]
  simp [usable, outCost, paramsFor, concatIdents, concatIdentTokens, concatLitStrs, concatLitInts, concatTokens, Func.variadicArg, Func.fixedArgs, checkArgs,
    check, natural, ha, hb, coercionCost, coercionCostBasic, best, List.replicate, Ty.isVariadic]

theorem overflows_concat_tokens {Γ : TyEnv} {a b : Str} (ha : Γ a = some .tokens) (hb : Γ b = some .tokens) (i j k : Nat) (raw : Option (Nat × Toks)) :
    overflows builtinFuncs Γ (.call i (S "concat") [.value j (.ident a), .value k (.ident b)] raw) none = false := by
  simp only [overflows, builtin_concat]
  simp [outCost, paramsFor, concatIdents, concatIdentTokens, concatLitStrs, concatLitInts, concatTokens, Func.variadicArg, Func.fixedArgs, overflowsArgs, overflows,
    check, natural, ha, hb, coercionCost, coercionCostBasic, List.replicate, Ty.isVariadic]

/-- One more definition which doubles the value of another. -/
theorem outcome_doubled {E : Ext} {env : Env} (henv : env.funcs = builtinFuncs) {pre : List (Str × Expr)} {vs : Subs} (h : outcome E env pre = .ok vs)
    {a y : Str} {ts : Toks} (ha : vs.get a = some (.tokens ts)) (hy : vs.get y = none) (i j k : Nat) (raw : Option (Nat × Toks)) :
    outcome E env (pre ++ [(y, .call i (S "concat") [.value j (.ident a), .value k (.ident a)] raw)]) = .ok (vs ++ [(y, .tokens (ts ++ ts))]) := by
  have hΓ : (vs.get a).map (·.ty) = some .tokens := by rw [ha]; rfl
  have h1 := overflows_concat_tokens (Γ := fun n => (vs.get n).map (·.ty)) hΓ hΓ i j k raw
  have h2 := check_concat_tokens (Γ := fun n => (vs.get n).map (·.ty)) hΓ hΓ i j k raw
  have h3 : ∀ u, tryCast E (.tokens u) .tokens = .ok (.tokens u) := fun _ => tryCast_refl rfl
  rw [outcome_append henv h, henv]
  simp only [overflowsSpec, checkSpec, h1, h2, hy, Option.map_none]
  simp [evalSpecT, TExpr.eval, TExpr.evalL, ha, h3, concatTokens, allOf, VKind.asTokens, Res.bind_eq, Res.map, Res.bind]

end Verif
