import Verif.Proofs.Twice
import Verif.Proofs.WriteOut
/-! # The value of a definition cast -/

namespace Verif
open Spec

theorem coercionCost_any_tokens (t : Ty) : ∃ c, coercionCost t .tokens = some c := by
  cases t <;> simp [coercionCost, coercionCostBasic]

mutual
theorem noStrHash_of_calls (Γ : TyEnv) : ∀ e : Expr, S "hash" ∉ calls e → noStrHash Γ e
  | .value _ _, _ => by simp only [noStrHash]
  | .call _ n args _, h => by
    simp only [calls, List.mem_cons, not_or] at h
    simp only [noStrHash]
    exact ⟨fun hn => absurd hn.symm h.1, noStrHashL_of_calls Γ args h.2⟩
theorem noStrHashL_of_calls (Γ : TyEnv) : ∀ es : List Expr, S "hash" ∉ callsL es → noStrHashL Γ es
  | [], _ => by simp only [noStrHashL]
  | e :: es, h => by
    simp only [callsL, List.mem_append, not_or] at h
    simp only [noStrHashL]
    exact ⟨noStrHash_of_calls Γ e h.1, noStrHashL_of_calls Γ es h.2⟩
end

/-- Higher costs overflow before lower ones. -/
theorem overflowsArgs_mono {T : Str → Option (List Func)} {Γ : TyEnv} : ∀ (es : List Expr) (ps : List (Ty × Nat)) {c c' : Nat}, c ≤ c' →
    overflowsArgs T Γ es ps c = true → overflowsArgs T Γ es ps c' = true
  | [], _, _, _, _, h => by simp [overflowsArgs] at h
  | _ :: _, [], _, _, _, h => by simp [overflowsArgs] at h
  | e :: es, (t, m) :: ps, c, c', hc, h => by
    simp only [overflowsArgs, Bool.or_eq_true] at h ⊢
    refine h.imp id fun h => ?_
    cases hk : check T Γ e (some t) with
    | error x => rw [hk] at h; exact h
    | ok p =>
      obtain ⟨ce, te⟩ := p
      rw [hk] at h
      simp only [Bool.or_eq_true, decide_eq_true_eq] at h ⊢
      exact h.imp (fun h => by omega) (overflowsArgs_mono es ps (by omega))

/-- Where tokens are expected the costs are not lower than where nothing is. -/
theorem overflows_tokens {T : Str → Option (List Func)} {Γ : TyEnv} {e : Expr} (h : overflows T Γ e none = true) :
    overflows T Γ e (some .tokens) = true := by
  cases e with
  | value _ _ => simp [overflows] at h
  | call i n args raw =>
    simp only [overflows] at h ⊢
    cases hT : T n with
    | none => rw [hT] at h; exact h
    | some fs =>
      rw [hT] at h
      simp only [List.any_eq_true] at h ⊢
      obtain ⟨f, hf, h⟩ := h
      refine ⟨f, hf, ?_⟩
      obtain ⟨co, hco⟩ := coercionCost_any_tokens f.out
      simp only [outCost, hco] at h ⊢
      generalize (if f.args = [.raw] then raw else none) = r at h ⊢
      generalize paramsFor f args.length = ps at h ⊢
      cases r with
      | some _ => simp at h
      | none =>
        cases ps with
        | none => simp at h
        | some ps => exact overflowsArgs_mono args ps (Nat.zero_le _) h

/-- A cast that keeps the tokens. -/
theorem tryCast_tokens_ok {E : Ext} {v : VKind} : ∃ w, tryCast E v .tokens = .ok w ∧ w = .tokens v.toTokens := by
  cases v <;> exact ⟨_, rfl, rfl⟩

theorem Spec.CodeCast.cast {f : Str} {t : Ty} (h : CodeCast f t) : CastFunction f t := by cases h <;> constructor

theorem Spec.CodeCast.keeps {E : Ext} {f : Str} {t : Ty} (h : CodeCast f t) {ts : Toks} {w : VKind} (hw : tryCast E (.tokens ts) t = .ok w) :
    w.toTokens = ts ∧ w.ty = t := by
  cases h with
  | tokens => cases hw; exact ⟨rfl, rfl⟩
  | path =>
    have hw : (if E.isPath ts = true then Res.ok (VKind.path ts) else .err (castError .tokens .path)) = .ok w := hw
    by_cases hp : E.isPath ts = true
    · rw [if_pos hp] at hw; cases hw; exact ⟨rfl, rfl⟩
    · rw [if_neg hp] at hw; cases hw
  | type =>
    have hw : (if E.isType ts = true then Res.ok (VKind.type ts) else .err (castError .tokens .type)) = .ok w := hw
    by_cases hp : E.isType ts = true
    · rw [if_pos hp] at hw; cases hw; exact ⟨rfl, rfl⟩
    · rw [if_neg hp] at hw; cases hw
  | expr =>
    have hw : (if E.isExpr ts = true then Res.ok (VKind.expr ts) else .err (castError .tokens .expr)) = .ok w := hw
    by_cases hp : E.isExpr ts = true
    · rw [if_pos hp] at hw; cases hw; exact ⟨rfl, rfl⟩
    · rw [if_neg hp] at hw; cases hw

section
variable {E : Ext} {env : Env} (henv : env.funcs = builtinFuncs) {pre : List (Str × Expr)} {y : Str} {e : Expr} {i : Nat} {raw : Option (Nat × Toks)}
  {f : Str} {t : Ty} (hf : CodeCast f t)
include henv hf

/-- The value of a definition without its cast. -/
theorem outcome_uncast (hh : S "hash" ∉ calls e) {vs : Subs} (h : outcome E env pre = .ok vs) {w : VKind}
    (hw : outcome E env (pre ++ [(y, .call i f [e] raw)]) = .ok (vs ++ [(y, w)])) :
    ∃ v, outcome E env (pre ++ [(y, e)]) = .ok (vs ++ [(y, v)]) ∧ w.toTokens = v.toTokens ∧ w.ty = t := by
  rw [outcome_append henv h] at hw ⊢
  rw [henv] at hw ⊢
  generalize hΓ : (fun n => (Subs.get vs n).map (·.ty)) = Γ at hw ⊢
  have hρ : Typed Γ vs.get := by intro n; rw [← hΓ]
  obtain ⟨g, hg, ha, ho, hi⟩ := castFunction_builtin hf.cast
  obtain ⟨o, hp⟩ := princ Γ e (noStrHash_of_calls Γ e hh)
  have hco : overflows builtinFuncs Γ (.call i f [e] raw) none = true ∨ overflows builtinFuncs Γ e none = false := by
    cases hv : overflows builtinFuncs Γ e none with
    | false => exact .inr rfl
    | true =>
      refine .inl ?_
      simp only [overflows, hg, List.any_cons, List.any_nil, Bool.or_false, List.length_singleton]
      refine (overflows_one (Γ := Γ) (e := e) (raw := raw) (expected := none) ha rfl (by decide)).trans ?_
      simp only [outCost, Option.any_some, overflows_tokens hv, Bool.true_or]
  simp only [overflowsSpec, checkSpec, check_cast hg ha, outCost, ho] at hw ⊢
  rcases hco with hco | hco
  · rw [hco] at hw; simp at hw
  generalize overflows builtinFuncs Γ (.call i f [e] raw) none = bo at hw
  cases hp with
  | fails hp =>
    obtain ⟨x, hx⟩ := hp (some .tokens) (by intro t h; cases h; rfl)
    rw [hx] at hw
    simp only [Except.toOption, Option.map_none, Option.bind_some] at hw
    cases bo <;> simp at hw
  | types c te hc hs _ =>
    obtain ⟨co, hcc⟩ := coercionCost_any_tokens te.target
    rw [hs _ _ rfl hcc] at hw
    simp only [Except.toOption, Option.map_some, Option.bind_some] at hw
    simp only [hc, hco]
    cases bo with
    | true => simp at hw
    | false => ?_
    cases hy : (Γ y).isSome with
    | true => rw [hy] at hw; simp at hw
    | false =>
      rw [hy] at hw
      simp only [Bool.false_eq_true, if_false, evalSpecT, Res.bind_eq, TExpr.eval, TExpr.evalL, Option.getD_none, Bool.not_false, Bool.true_and, Bool.or_false] at hw ⊢
      obtain ⟨ws, h1, h2⟩ := Res.bind_eq_ok.1 hw
      obtain ⟨w', h3, h4⟩ := Res.bind_eq_ok.1 h1
      obtain ⟨us, h5, h6⟩ := Res.bind_eq_ok.1 h3
      obtain ⟨r, h7, h8⟩ := Res.bind_eq_ok.1 h6
      obtain ⟨u, h9, h10⟩ := Res.bind_eq_ok.1 h5
      simp only [Res.bind_ok, Res.ok.injEq] at h10 h4 h2
      subst h10 h4
      obtain ⟨b, h11, h12⟩ := eval_as.1 h9
      obtain ⟨u', h13, h14⟩ := tryCast_tokens_ok (E := E) (v := b)
      rw [h12] at h13
      cases h13
      subst h14
      rw [hi] at h7
      obtain ⟨k1, k2⟩ := hf.keeps h7
      have hr : w' = r := by
        rw [tryCast_refl k2] at h8
        cases h8; rfl
      subst hr
      have hww : w' = w := by simpa using List.append_cancel_left h2
      subst hww
      have hb : te.eval E env.seed vs.get = .ok b := by
        have := (eval_as (E := E) (seed := env.seed) (ρ := vs.get) (te := te) (t := te.target)).2 ⟨b, h11, tryCast_refl (base_ty hρ hc h11)⟩
        rwa [as_target] at this
      refine ⟨b, ?_, k1, k2⟩
      rw [hb]
      rfl

/-- The values of definitions where one is without its cast, and nothing after it uses it. -/
theorem outcome_uncast_post {post : List (Str × Expr)} (hh : S "hash" ∉ calls e) (hu : y ∉ usedIn post) {ws : Subs}
    (hw : outcome E env (pre ++ (y, .call i f [e] raw) :: post) = .ok ws) :
    ∃ vs : Subs, outcome E env (pre ++ (y, e) :: post) = .ok vs ∧ (∀ n, n ≠ y → vs.get n = ws.get n) ∧
      ∃ v w, vs.get y = some v ∧ ws.get y = some w ∧ w.toTokens = v.toTokens ∧ w.ty = t := by
  have hnd := denote_names (outcome_ok.1 hw).2
  have e1 : ∀ d, pre ++ d :: post = (pre ++ [d]) ++ post := by simp
  rw [e1] at hw ⊢
  obtain ⟨ws1, us, h1, rfl⟩ := outcome_prefix hw
  obtain ⟨vs0, us0, h0, -⟩ := outcome_prefix h1
  obtain ⟨w, rfl, hy⟩ := outcome_one henv h0 h1
  obtain ⟨v, h2, h3, h4⟩ := outcome_uncast henv hf hh h0 h1
  have hap : y ∉ post.map (·.1) := by
    have := hnd.2
    rw [hnd.1, List.map_append, List.map_cons, List.nodup_append, List.nodup_cons] at this
    exact this.2.1.1
  have hget : ∀ n, n ≠ y → Subs.get (vs0 ++ [(y, w)]) n = Subs.get (vs0 ++ [(y, v)]) n := by
    intro n hn
    have hne : ¬ y = n := fun h => hn h.symm
    simp only [Subs.get_append, Subs.get_cons, Subs.get_nil, hne, if_false]
  obtain ⟨o, h5, h6⟩ := outcome_post henv h1 h2 (post := post) (by
    intro n hn
    refine hget n ?_
    rintro rfl
    exact hn.elim hu hap)
  rw [hw] at h5
  obtain ⟨us', rfl, h7⟩ := Res.bind_eq_ok.1 h5.symm
  simp only [Res.bind_ok] at h6
  have h8 : us = us' := by simpa using h7.symm
  subst h8
  have h0y : Subs.get vs0 y = none := by
    have := (denote_names (outcome_ok.1 h0).2).1
    rw [← this] at hy
    exact Subs.get_eq_none.2 hy
  refine ⟨_, h6, fun n hn => ?_, v, w, ?_, ?_, h3, h4⟩
  · rw [Subs.get_append (vs0 ++ [(y, v)]), Subs.get_append (vs0 ++ [(y, w)]), hget n hn]
  · simp [Subs.get_append, Subs.get_cons, h0y]
  · simp [Subs.get_append, Subs.get_cons, h0y]
end

/-- The tokens of a value have the grammar of the type. -/
theorem Spec.CodeCast.cases {E : Ext} {f : Str} {t : Ty} (h : CodeCast f t) (ts : Toks) :
    (∃ w, tryCast E (.tokens ts) t = .ok w) ∨ t ≠ .tokens ∧ tryCast E (.tokens ts) t = .err (castError .tokens t) := by
  cases h with
  | tokens => exact .inl ⟨_, rfl⟩
  | path =>
    by_cases hp : E.isPath ts = true
    · exact .inl ⟨_, if_pos hp⟩
    · exact .inr ⟨by simp, if_neg hp⟩
  | type =>
    by_cases hp : E.isType ts = true
    · exact .inl ⟨_, if_pos hp⟩
    · exact .inr ⟨by simp, if_neg hp⟩
  | expr =>
    by_cases hp : E.isExpr ts = true
    · exact .inl ⟨_, if_pos hp⟩
    · exact .inr ⟨by simp, if_neg hp⟩

section
variable {E : Ext} {env : Env} (henv : env.funcs = builtinFuncs) {pre : List (Str × Expr)} {y : Str} {e : Expr} {i : Nat} {raw : Option (Nat × Toks)}
  {f : Str} {t : Ty} (hf : CodeCast f t)
include henv hf

/-- A cast added to a definition that nothing after it uses: there are still values, unless the cast is refused or the costs overflow. -/
theorem outcome_recast_post {post : List (Str × Expr)} (hh : S "hash" ∉ calls e) (hu : y ∉ usedIn post) {vs : Subs}
    (h : outcome E env (pre ++ (y, e) :: post) = .ok vs) :
    outcome E env (pre ++ (y, .call i f [e] raw) :: post) = .panic ∨
    ∃ v, vs.get y = some v ∧ ((∃ w ws, tryCast E (.tokens v.toTokens) t = .ok w ∧ outcome E env (pre ++ (y, .call i f [e] raw) :: post) = .ok ws) ∨
      t ≠ .tokens ∧ tryCast E (.tokens v.toTokens) t = .err (castError .tokens t) ∧
        outcome E env (pre ++ (y, .call i f [e] raw) :: post) = .err (castError .tokens t)) := by
  have hnd := denote_names (outcome_ok.1 h).2
  have hap : y ∉ post.map (·.1) := by
    have := hnd.2
    rw [hnd.1, List.map_append, List.map_cons, List.nodup_append, List.nodup_cons] at this
    exact this.2.1.1
  obtain ⟨vs0, us0, h0, -⟩ := outcome_prefix h
  rw [outcome_append henv h0] at h ⊢
  rw [henv] at h ⊢
  generalize hΓ : (fun n => (Subs.get vs0 n).map (·.ty)) = Γ at h ⊢
  have hρ : Typed Γ (Subs.get vs0) := by intro n; rw [← hΓ]
  cases ho : overflowsSpec builtinFuncs ((y, .call i f [e] raw) :: post) Γ with
  | true => exact .inl (if_pos rfl)
  | false =>
    refine .inr ?_
    simp only [Bool.false_eq_true, if_false]
    cases ho' : overflowsSpec builtinFuncs ((y, e) :: post) Γ with
    | true => rw [ho'] at h; simp at h
    | false =>
      rw [ho'] at h
      simp only [Bool.false_eq_true, if_false] at h
      obtain ⟨g, hg, ha, hout, hi⟩ := castFunction_builtin hf.cast
      obtain ⟨o, hp⟩ := princ Γ e (noStrHash_of_calls Γ e hh)
      simp only [checkSpec, check_cast hg ha, outCost, hout] at h ⊢
      cases hp with
      | fails hp =>
        obtain ⟨x, hx⟩ := hp none (by intro t h; cases h)
        rw [hx] at h
        cases h
      | types c te hc hs _ =>
        obtain ⟨co, hcc⟩ := coercionCost_any_tokens te.target
        rw [hs _ _ rfl hcc]
        rw [hc] at h
        simp only [Except.toOption, Option.map_some, Option.bind_some] at h ⊢
        cases hy : (Γ y).isSome with
        | true => rw [hy] at h; cases h
        | false =>
          rw [hy] at h
          simp only [Bool.false_eq_true, if_false, Option.getD_none] at h ⊢
          have hagree := (checkSpec_agree (T := builtinFuncs) post (Γ := extend Γ y te.target) (Γ' := extend Γ y t) (by
            intro n hn
            have : n ≠ y := by rintro rfl; exact hn.elim hu hap
            simp only [extend, this, if_false])).1
          have htt : (TExpr.call g [te.as .tokens] t).target = t := rfl
          rw [htt, ← hagree]
          cases hcs : checkSpec builtinFuncs post (extend Γ y te.target) with
          | error x => rw [hcs] at h; cases h
          | ok tes =>
            rw [hcs] at h
            simp only [evalSpecT, Res.bind_eq] at h ⊢
            obtain ⟨ws, h1, h2⟩ := Res.bind_eq_ok.1 h
            obtain ⟨v, h3, h4⟩ := Res.bind_eq_ok.1 h1
            obtain ⟨us, h5, h6⟩ := Res.bind_eq_ok.1 h4
            cases h6
            cases h2
            have h0y : Subs.get vs0 y = none := by
              have : Γ y = none := by simpa using hy
              rw [← hΓ] at this
              simpa using this
            refine ⟨v, by simp [Subs.get_append, Subs.get_cons, h0y], ?_⟩
            have h3' := h3
            rw [← as_target te] at h3'
            obtain ⟨b, h7, h8⟩ := eval_as.1 h3'
            rw [tryCast_refl (base_ty hρ hc h7)] at h8
            cases h8
            obtain ⟨_, h9, rfl⟩ := tryCast_tokens_ok (E := E) (v := v)
            have h10 := (eval_as (te := te)).2 ⟨v, h7, h9⟩
            have h11 : (TExpr.call g [te.as .tokens] t).eval E env.seed (Subs.get vs0) =
                (tryCast E (.tokens v.toTokens) t).bind fun r => tryCast E r t := by
              simp only [TExpr.eval, TExpr.evalL, Res.bind_eq, h10, Res.bind_ok, hi]
            rw [h11]
            rcases hf.cases (E := E) v.toTokens with ⟨w, hw⟩ | ⟨ht, hw⟩
            · refine .inl ⟨w, vs0 ++ (y, w) :: us, hw, ?_⟩
              rw [hw, Res.bind_ok, tryCast_refl (hf.keeps hw).2, Res.bind_ok]
              have : evalSpecT E env.seed tes (extend (Subs.get vs0) y w) = evalSpecT E env.seed tes (extend (Subs.get vs0) y v) :=
                evalSpecT_agree tes fun te hte n hn => by
                  have : n ≠ y := by rintro rfl; exact hu (checkSpec_used post hcs te hte _ hn)
                  simp only [extend, this, if_false]
              rw [this, h5]
              rfl
            · refine .inr ⟨ht, hw, ?_⟩
              rw [hw]
              rfl
end

end Verif
