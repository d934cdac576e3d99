import Verif.Proofs.Eval
import Verif.Proofs.Funcs
/-! # Evaluation respects the types; with the built-in functions no cast of a value can fail -/

namespace Verif
open Spec

/-- Coercions that succeed for every value. -/
def Plainly (a b : Ty) : Prop := a = b ∨ b = .tokens ∨ b = .raw

/-- The types of the values are those of the parameters. -/
def TypesFit (f : Func) (vs : List VKind) : Prop :=
  ∃ ps, paramsFor f vs.length = some ps ∧ vs.map (·.ty) = ps.map (·.1)

/-- A typed expression that is well typed: its functions are in the table, its arguments fit, and all coercions are
plain ones. -/
inductive WT (F : Func → Prop) (Γ : TyEnv) : TExpr → Prop
  | val {k t} : Plainly (natural Γ k) t → WT F Γ (.val k t)
  | call {f tes t} : F f → Plainly f.out t →
      (∃ ps, paramsFor f tes.length = some ps ∧ tes.map (·.target) = ps.map (·.1)) →
      (∀ te, te ∈ tes → WT F Γ te) → WT F Γ (.call f tes t)

/-- The evaluation of the typed expression applies `f` to `vs`. -/
inductive Applied (E : Ext) (seed : Nat) (ρ : Str → Option VKind) : TExpr → Func → List VKind → Prop
  | here {f tes t vs} : TExpr.evalL E seed ρ tes = .ok vs → Applied E seed ρ (.call f tes t) f vs
  | arg {f tes t te g vs} : te ∈ tes → Applied E seed ρ te g vs → Applied E seed ρ (.call f tes t) g vs

/-- The values of the aliases have the types of the environment. -/
def Typed (Γ : TyEnv) (ρ : Str → Option VKind) : Prop := ∀ n, (ρ n).map (·.ty) = Γ n

theorem Typed.extend {Γ : TyEnv} {ρ : Str → Option VKind} (h : Typed Γ ρ) (n : Str) (v : VKind) :
    Typed (extend Γ n v.ty) (Spec.extend ρ n v) := by
  intro m
  simp only [Spec.extend]
  split
  · rfl
  · exact h m

/-- The value a leaf stands for. -/
def leaf (ρ : Str → Option VKind) (k : VKind) : VKind := match k with | .ident s => (ρ s).getD k | _ => k

theorem leaf_ty {Γ : TyEnv} {ρ : Str → Option VKind} (h : Typed Γ ρ) (k : VKind) : (leaf ρ k).ty = natural Γ k := by
  cases k <;> try rfl
  rename_i s
  simp only [leaf, natural, ← h s]
  cases ρ s <;> rfl

theorem tryCast_plainly {E : Ext} {v : VKind} {t : Ty} (h : Plainly v.ty t) : ∃ w, tryCast E v t = .ok w ∧ w.ty = t := by
  unfold tryCast
  split
  · exact ⟨v, rfl, by assumption⟩
  · rename_i hne
    rcases h with h | rfl | rfl
    · exact absurd h hne
    · cases v <;> exact ⟨_, rfl, rfl⟩
    · cases v <;> exact ⟨_, rfl, rfl⟩

/-- What a function has to do on arguments of its parameter types. -/
def Sound (E : Ext) (seed : Nat) (f : Func) : Prop :=
  ∀ vs, TypesFit f vs → f.impl E seed vs ≠ .err .internal ∧ ∀ v, f.impl E seed vs = .ok v → v.ty = f.out

theorem eval_val {E : Ext} {seed : Nat} {ρ : Str → Option VKind} {k : VKind} {t : Ty} :
    (TExpr.val k t).eval E seed ρ = match tryCast E (leaf ρ k) t with | .ok v => .ok v | _ => .panic := by
  cases k <;> (simp only [TExpr.eval, leaf]; rfl)

/-- What can be said about the evaluation of a well-typed expression. -/
def Outcome (E : Ext) (seed : Nat) (ρ : Str → Option VKind) (te : TExpr) : Prop :=
  (∃ v, te.eval E seed ρ = .ok v ∧ v.ty = te.target) ∨
  (∃ x, te.eval E seed ρ = .err x ∧ x ≠ .internal) ∨
  (te.eval E seed ρ = .panic ∧ ∃ f vs, Applied E seed ρ te f vs ∧ TypesFit f vs ∧ f.impl E seed vs = .panic)

theorem evalL_sound {E : Ext} {seed : Nat} {ρ : Str → Option VKind} : ∀ {tes : List TExpr},
    (∀ te, te ∈ tes → Outcome E seed ρ te) →
    (∃ vs, TExpr.evalL E seed ρ tes = .ok vs ∧ vs.map (·.ty) = tes.map (·.target)) ∨
    (∃ x, TExpr.evalL E seed ρ tes = .err x ∧ x ≠ .internal) ∨
    (TExpr.evalL E seed ρ tes = .panic ∧ ∃ te ∈ tes, ∃ f vs, Applied E seed ρ te f vs ∧ TypesFit f vs ∧
      f.impl E seed vs = .panic)
  | [], _ => Or.inl ⟨[], by simp [TExpr.evalL]⟩
  | te :: tes, h => by
    simp only [TExpr.evalL, Res.bind_eq]
    rcases h te (by simp) with ⟨v, hv, ht⟩ | ⟨x, hx, hi⟩ | ⟨hp, f, vs, h1⟩
    · rw [hv, Res.bind_ok]
      rcases evalL_sound (tes := tes) (fun t ht => h t (by simp [ht])) with ⟨vs, hvs, hts⟩ | ⟨x, hx, hi⟩ | ⟨hp, t, hm, h1⟩
      · exact Or.inl ⟨v :: vs, by rw [hvs, Res.bind_ok], by simp [ht, hts]⟩
      · exact Or.inr (Or.inl ⟨x, by rw [hx, Res.bind_err], hi⟩)
      · exact Or.inr (Or.inr ⟨by rw [hp, Res.bind_panic], t, by simp [hm], h1⟩)
    · exact Or.inr (Or.inl ⟨x, by rw [hx, Res.bind_err], hi⟩)
    · exact Or.inr (Or.inr ⟨by rw [hp, Res.bind_panic], te, by simp, f, vs, h1⟩)

theorem eval_sound {E : Ext} {seed : Nat} {F : Func → Prop} (hF : ∀ f, F f → Sound E seed f) {Γ : TyEnv}
    {ρ : Str → Option VKind} (hρ : Typed Γ ρ) {te : TExpr} (h : WT F Γ te) : Outcome E seed ρ te := by
  induction h with
  | val h =>
    rw [← leaf_ty hρ] at h
    obtain ⟨w, hw, ht⟩ := tryCast_plainly (E := E) h
    exact Or.inl ⟨w, by rw [eval_val, hw], ht⟩
  | @call f tes t hf hp hfit _ ih =>
    unfold Outcome
    simp only [TExpr.eval, Res.bind_eq]
    rcases evalL_sound ih with ⟨vs, hvs, hts⟩ | ⟨x, hx, hi⟩ | ⟨hpn, te, hm, g, ws, h1⟩
    · have hl : vs.length = tes.length := by
        have := congrArg List.length hts; simpa using this
      have hfit' : TypesFit f vs := by
        obtain ⟨ps, h1, h2⟩ := hfit
        exact ⟨ps, hl ▸ h1, hts.trans h2⟩
      obtain ⟨hni, hty⟩ := hF f hf vs hfit'
      rw [hvs, Res.bind_ok]
      cases hr : f.impl E seed vs with
      | ok r =>
        rw [Res.bind_ok]
        have := hty r hr
        obtain ⟨w, hw, ht⟩ := tryCast_plainly (E := E) (v := r) (t := t) (this ▸ hp)
        exact Or.inl ⟨w, hw, ht⟩
      | err x => exact Or.inr (Or.inl ⟨x, rfl, fun h => hni (h ▸ hr)⟩)
      | panic => exact Or.inr (Or.inr ⟨rfl, f, vs, .here hvs, hfit', hr⟩)
    · exact Or.inr (Or.inl ⟨x, by rw [hx, Res.bind_err], hi⟩)
    · exact Or.inr (Or.inr ⟨by rw [hpn, Res.bind_panic], g, ws, .arg hm h1.1, h1.2⟩)

/-! ## Typing yields well-typed expressions -/

/-- The types an identifier can be coerced to by parsing it again. -/
def Ty.parsed (t : Ty) : Prop := t = .path ∨ t = .type ∨ t = .expr

/-- What the table of functions has to satisfy for all coercions to be plain ones: parameters are no variadics of
variadics, and a function with a parameter that identifiers are re-parsed for has no other parameters and an overload
for identifiers. -/
structure Tame (T : Str → Option (List Func)) : Prop where
  simple : ∀ {name fs f t}, T name = some fs → f ∈ fs → (t ∈ f.fixedArgs ∨ f.variadicArg = some t) →
    t.isVariadic = false
  overload : ∀ {name fs f t}, T name = some fs → f ∈ fs → (t ∈ f.fixedArgs ∨ f.variadicArg = some t) →
    t.parsed → f.args = [t] ∧ ∃ g ∈ fs, g.args = [.ident] ∧ g.out = f.out

theorem coercion_cases {a b : Ty} {c : Nat} (hb : b.isVariadic = false) (h : coercionCost a b = some c) :
    Plainly a b ∨ (a = .ident ∧ b.parsed ∧ 0 < c) := by
  have : coercionCost a b = coercionCostBasic a b := by
    unfold coercionCost
    split
    · simp [Ty.isVariadic] at hb
    · rfl
  rw [this] at h
  unfold coercionCostBasic at h
  split at h
  · exact Or.inl (Or.inl (by assumption))
  · split at h
    · cases h; exact Or.inr ⟨rfl, Or.inl rfl, by decide⟩
    · cases h; exact Or.inr ⟨rfl, Or.inr (Or.inl rfl), by decide⟩
    · cases h; exact Or.inr ⟨rfl, Or.inr (Or.inr rfl), by decide⟩
    · exact Or.inl (Or.inr (Or.inl rfl))
    · exact Or.inl (Or.inr (Or.inr rfl))
    · cases h

theorem paramsFor_mem {f : Func} {n : Nat} {ps : List (Ty × Nat)} (h : paramsFor f n = some ps) {p : Ty × Nat}
    (hp : p ∈ ps) : p.1 ∈ f.fixedArgs ∨ f.variadicArg = some p.1 := by
  unfold paramsFor at h
  split at h
  · rename_i hn
    split at h
    · cases h
      have hv := variadicArg_isSome f
      rw [hn] at hv
      rw [fixedArgs_of_not_variadic hv.symm]
      obtain ⟨t, ht, rfl⟩ := List.mem_map.1 hp
      exact Or.inl ht
    · cases h
  · rename_i t ht
    split at h
    · cases h
      rcases List.mem_append.1 hp with h | h
      · obtain ⟨t, ht, rfl⟩ := List.mem_map.1 h
        exact Or.inl ht
      · obtain ⟨-, rfl⟩ := List.mem_replicate.1 h
        exact Or.inr ht
    · cases h

theorem paramsFor_length {f : Func} {n : Nat} {ps : List (Ty × Nat)} (h : paramsFor f n = some ps) : ps.length = n := by
  unfold paramsFor at h
  split at h
  · split at h
    · cases h; simpa
    · cases h
  · split at h
    · cases h
      have := fixedArgs_length_le f
      simp; omega
    · cases h

theorem paramsFor_single {g : Func} {t : Ty} (h : g.args = [t]) (ht : t.isVariadic = false) :
    paramsFor g 1 = some [(t, 1)] := by
  have : g.variadicArg = none := by
    have := variadicArg_isSome g
    simp only [Func.isVariadic, h, List.any_cons, ht, List.any_nil, Bool.or_self] at this
    simpa using this
  simp [paramsFor, this, h]

/-- In `l`, one choice is at least as cheap as every listed one. -/
theorem best_le {l : List Choice} {ch x : Choice} (h : best l = some ch) (hx : x ∈ l) : ch.cost ≤ x.cost := by
  have := best_not_better h x hx
  unfold Choice.better at this
  omega

theorem best_isSome {l : List Choice} {x : Choice} (hx : x ∈ l) : ∃ ch, best l = some ch := by
  cases h : best l with
  | some ch => exact ⟨ch, rfl⟩
  | none => rw [best_eq_none.1 h] at hx; cases hx

theorem usable_eq {raw n args f co} {expected : Option Ty} (ho : outCost f.out expected = some co) :
    usable raw n expected args f = (match if f.args = [.raw] then raw else none with
      | some (_, ts) => some ⟨co, f, [.val (.raw ts) .raw]⟩
      | none => (paramsFor f n).bind fun ps => (args ps).bind fun r => some ⟨co + r.1, f, r.2⟩) := by
  unfold usable
  simp only [ho, Option.bind_eq_bind, Option.bind_some]
  rfl

/-- The context expects a type that is not variadic. -/
def simpleTy (expected : Option Ty) : Prop := ∀ t, expected = some t → t.isVariadic = false

/-- The function is in the table. -/
def InTable (T : Str → Option (List Func)) (f : Func) : Prop := ∃ name fs, T name = some fs ∧ f ∈ fs

/-- Either well typed, or cheaper as an identifier. -/
def Good (T : Str → Option (List Func)) (Γ : TyEnv) (e : Expr) (expected : Option Ty) (c : Nat) (te : TExpr) : Prop :=
  (WT (InTable T) Γ te ∧ ∀ t, expected = some t → te.target = t) ∨
  (∃ t, expected = some t ∧ t.parsed ∧ ∃ c' te', check T Γ e (some .ident) = .ok (c', te') ∧ c' < c)

mutual
theorem check_good {T : Str → Option (List Func)} (hT : Tame T) {Γ : TyEnv} : ∀ (e : Expr) {expected c te},
    simpleTy expected → check T Γ e expected = .ok (c, te) → Good T Γ e expected c te
  | .value id k, expected, c, te, hs, h => by
    simp only [check] at h
    split at h
    · rename_i c0 hc
      cases h
      cases expected with
      | none => exact Or.inl ⟨.val (Or.inl rfl), by simp⟩
      | some t =>
        simp only [Option.getD_some] at hc ⊢
        rcases coercion_cases (hs t rfl) hc with hp | ⟨hi, hp, hpos⟩
        · exact Or.inl ⟨.val hp, by simp [TExpr.target]⟩
        · refine Or.inr ⟨t, rfl, hp, 0, .val k .ident, ?_, hpos⟩
          simp only [check, Option.getD_some, hi, coercionCost_self]
    · cases h
  | .call id name args raw, expected, c, te, hs, h => by
    simp only [check] at h
    split at h
    · cases h
    · rename_i fs hfs
      split at h
      · rename_i ch hb
        cases h
        have hm := best_mem hb
        rw [List.mem_filterMap] at hm
        obtain ⟨f, hf, hu⟩ := hm
        obtain ⟨hcf, co, hco, hr⟩ := usable_cost hu
        -- the arguments are well typed
        have hargs : (∀ te, te ∈ ch.args → WT (InTable T) Γ te) ∧
            ∃ ps, paramsFor f ch.args.length = some ps ∧ ch.args.map (·.target) = ps.map (·.1) := by
          rcases hr with ⟨ha, i, ts, -, -, hca⟩ | ⟨hnr, ps, cc, tes, hps, hck, hcost, hca⟩
          · rw [hca]
            refine ⟨?_, [(.raw, 1)], paramsFor_single ha rfl, rfl⟩
            intro te hte
            simp only [List.mem_singleton] at hte
            subst hte
            exact .val (Or.inl rfl)
          · have hg := checkArgs_good hT args (fun p hp => hT.simple hfs hf (paramsFor_mem hps hp)) hck
            rw [hca]
            rcases hg with ⟨hw, htg, hlen⟩ | ⟨p, hp, hpar, e, he, c1, te1, h1, c', te', h', hlt⟩
            · have hl := (paramsFor_some hps).2.1
              refine ⟨hw, ps, ?_, htg ?_⟩
              · have hex := paramsFor_length hps
                rw [hlen hex]
                exact hps
              · exact paramsFor_length hps
            · -- contradiction: the overload for identifiers is cheaper
              exfalso
              obtain ⟨ha, g, hg, hga, hgo⟩ := hT.overload hfs hf (paramsFor_mem hps hp) hpar
              have hv : p.1.isVariadic = false := by rcases hpar with h | h | h <;> rw [h] <;> rfl
              have hl : args.length = 1 := by
                have hl := paramsFor_length hps
                unfold paramsFor at hps
                have hvn : f.variadicArg = none := by
                  have := variadicArg_isSome f
                  simp only [Func.isVariadic, ha, List.any_cons, hv, List.any_nil, Bool.or_self] at this
                  simpa using this
                rw [hvn, ha] at hps
                simp only at hps
                split at hps
                · rename_i h1; exact h1.symm
                · cases hps
              obtain ⟨e0, rfl⟩ : ∃ e0, args = [e0] := by
                match args, hl with
                | [e0], _ => exact ⟨e0, rfl⟩
              have hps' := paramsFor_single ha hv
              rw [List.length_singleton, hps'] at hps
              cases hps
              simp only [List.mem_singleton] at he
              subst he
              simp only [checkArgs, h1, Option.map_some, Option.some.injEq, Prod.mk.injEq] at hck
              have hug : usable raw 1 expected (fun ps => checkArgs T Γ [e] ps) g
                  = some ⟨co + (c' * 1 + 0), g, [te']⟩ := by
                rw [usable_eq (hgo ▸ hco), hga]
                simp only [reduceCtorEq, List.cons.injEq, and_true, if_false, paramsFor_single hga rfl, Option.bind_some, checkArgs,
                  h', Option.map_some]
              have := best_le hb (List.mem_filterMap.2 ⟨g, hg, hug⟩)
              simp only at this
              omega
        obtain ⟨hw, hfit⟩ := hargs
        have hin : InTable T ch.func := ⟨name, fs, hfs, hcf ▸ hf⟩
        cases expected with
        | none => exact Or.inl ⟨.call hin (Or.inl rfl) (hcf ▸ hfit) hw, by simp⟩
        | some t =>
          simp only [outCost] at hco
          simp only [Option.getD_some]
          rcases coercion_cases (hs t rfl) hco with hp | ⟨hi, hp, hpos⟩
          · exact Or.inl ⟨.call hin (hcf ▸ hp) (hcf ▸ hfit) hw, by simp [TExpr.target]⟩
          · right
            refine ⟨t, rfl, hp, ?_⟩
            -- the same overload can be used where an identifier is expected
            have hco' : outCost f.out (some .ident) = some 0 := by simp [outCost, hi, coercionCost_self]
            obtain ⟨x, hx, hxc⟩ : ∃ x, usable raw args.length (some .ident) (fun ps => checkArgs T Γ args ps) f = some x ∧
                x.cost + co = ch.cost := by
              rw [usable_eq hco']
              rw [usable_eq (expected := some t) (co := co) (by simpa [outCost] using hco)] at hu
              cases hra : (if f.args = [.raw] then raw else none) with
              | some r =>
                rw [hra] at hu
                cases hu
                exact ⟨_, rfl, by simp⟩
              | none =>
                rw [hra] at hu
                simp only at hu ⊢
                cases hp : paramsFor f args.length with
                | none => rw [hp] at hu; cases hu
                | some ps =>
                  rw [hp] at hu
                  simp only [Option.bind_some] at hu ⊢
                  cases hk : checkArgs T Γ args ps with
                  | none => rw [hk] at hu; cases hu
                  | some r =>
                    rw [hk] at hu
                    cases hu
                    exact ⟨_, rfl, by simp; omega⟩
            have hmem := List.mem_filterMap.2 ⟨f, hf, hx⟩
            obtain ⟨ch', hb'⟩ := best_isSome hmem
            have := best_le hb' hmem
            refine ⟨ch'.cost, .call ch'.func ch'.args .ident, ?_, by omega⟩
            simp only [check, hfs, hb', Option.getD_some]
      · cases h
theorem checkArgs_good {T : Str → Option (List Func)} (hT : Tame T) {Γ : TyEnv} : ∀ (es : List Expr)
    {ps : List (Ty × Nat)} {c tes}, (∀ p ∈ ps, p.1.isVariadic = false) → checkArgs T Γ es ps = some (c, tes) →
    ((∀ te, te ∈ tes → WT (InTable T) Γ te) ∧ (ps.length = es.length → tes.map (·.target) = ps.map (·.1)) ∧
      (ps.length = es.length → tes.length = es.length)) ∨
    (∃ p ∈ ps, p.1.parsed ∧ ∃ e ∈ es, ∃ c1 te1, check T Γ e (some p.1) = .ok (c1, te1) ∧
      ∃ c' te', check T Γ e (some .ident) = .ok (c', te') ∧ c' < c1)
  | [], ps, c, tes, _, h => by
    simp only [checkArgs] at h
    cases h
    refine Or.inl ⟨by simp, ?_, by simp⟩
    intro hl
    rw [List.length_nil, List.length_eq_zero_iff] at hl
    simp [hl]
  | e :: es, [], c, tes, _, h => by
    simp only [checkArgs] at h
    cases h
    exact Or.inl ⟨by simp, by simp, by simp⟩
  | e :: es, (t, m) :: ps, c, tes, hv, h => by
    simp only [checkArgs] at h
    split at h
    · rename_i c1 te h1
      cases hr : checkArgs T Γ es ps with
      | none => rw [hr] at h; cases h
      | some r =>
        obtain ⟨c2, tes2⟩ := r
        rw [hr] at h
        cases h
        have hvt : simpleTy (some t) := by intro t' ht'; cases ht'; exact hv (t, m) (by simp)
        rcases check_good hT e hvt h1 with ⟨hw, htg⟩ | ⟨t', ht', hp, c', te', h', hlt⟩
        · rcases checkArgs_good hT es (fun p hp => hv p (by simp [hp])) hr with ⟨h2, h3, h4⟩ | ⟨p, hp, hpar, e', he, hx⟩
          · refine Or.inl ⟨?_, ?_, ?_⟩
            · intro x hx
              rcases List.mem_cons.1 hx with rfl | hx
              · exact hw
              · exact h2 x hx
            · intro hl
              simp only [List.length_cons, Nat.add_right_cancel_iff] at hl
              simp [htg t rfl, h3 hl]
            · intro hl
              simp only [List.length_cons, Nat.add_right_cancel_iff] at hl
              simp [h4 hl]
          · exact Or.inr ⟨p, by simp [hp], hpar, e', by simp [he], hx⟩
        · cases ht'
          exact Or.inr ⟨(t, m), by simp, hp, e, by simp, c1, te, h1, c', te', h', hlt⟩
    · cases h
end

end Verif
