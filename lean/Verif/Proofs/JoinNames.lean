import Verif.Proofs.Flatten
import Verif.Spec.JoinNames
/-! # Names joined by `concat` -/

namespace Verif
open Spec

variable {Γ : TyEnv} {E : Ext} {seed : Nat} {ρ : Str → Option VKind}

/-- What an argument which joins names is: an identifier, at no cost. -/
def FreeName (o : Option (Nat × TExpr)) : Prop := ∃ te, o = some (0, te) ∧ te.target = .ident

theorem costs_idents {es : List Expr} {ts : List Ty} {os : List (Option (Nat × TExpr))} (ho : Own Γ es os ts) (hz : ∀ o ∈ os, FreeName o) :
    (∃ tes, Costs os (List.replicate es.length (.ident, 2)) 0 tes) ∧
    ∀ {n c tes}, Costs os (List.replicate (n + 1) (.tokens, 2)) c tes → 0 < c := by
  induction ho with
  | nil => exact ⟨⟨[], .nil⟩, by intro n c tes h; rw [List.replicate_succ] at h; cases h⟩
  | @cons e es c te os ts hp _ ih =>
    obtain ⟨⟨tes, h1⟩, -⟩ := ih fun e he => hz e (List.mem_cons_of_mem _ he)
    obtain ⟨te', he, ht'⟩ := hz _ List.mem_cons_self
    cases he
    have hc : coercionCost te.target .ident = some 0 := by rw [ht']; exact coercionCost_refl _
    refine ⟨⟨_, by simpa [List.replicate_succ] using Costs.cons (m := 2) (ce := 0) hc h1⟩, ?_⟩
    intro n c tes h
    rw [List.replicate_succ] at h
    cases h with
    | cons h2 h3 =>
      rw [ht', coercionCost_to_tokens] at h2
      cases h2
      omega

theorem no_other {es : List Expr} {ts : List Ty} {os : List (Option (Nat × TExpr))} (ho : Own Γ es os ts) (hz : ∀ o ∈ os, FreeName o) (hl : 1 ≤ es.length)
    {t : Ty} (ht : t.strict) (hne : t ≠ .ident) {n c : Nat} {tes : List TExpr} (h : Costs os (List.replicate es.length (t, n)) c tes) : False := by
  cases ho with
  | nil => simp at hl
  | cons hp ho =>
    obtain ⟨te', he, ht'⟩ := hz _ List.mem_cons_self
    cases he
    rw [List.length_cons, List.replicate_succ] at h
    cases h with
    | cons h1 h2 => exact hne ((coercionCost_strict ht h1).1.symm.trans ht')

/-- `concat` of such arguments is such an argument, and joins their values. -/
theorem concat_idents (hρ : Typed Γ ρ) {es : List Expr} {ts : List Ty} {os : List (Option (Nat × TExpr))} (ho : Own Γ es os ts) (hz : ∀ o ∈ os, FreeName o)
    (hne : es ≠ []) {i : Nat} {raw : Option (Nat × Toks)} {c : Nat} {te : TExpr}
    (h : check builtinFuncs Γ (.call i (c! "concat") es raw) none = .ok (c, te)) :
    c = 0 ∧ ∀ b, te.base E seed ρ = .ok b → ∃ ss : List Str, All2 (HasBase E seed ρ) os (ss.map VKind.ident) ∧ b = .ident ss.flatten := by
  simp only [check] at h
  split at h
  · cases h
  · rename_i fs hfs
    have hm21 : concatIdents 21 ∈ builtins := by simp [builtins]
    have hlen : 1 ≤ es.length := by cases es with | nil => exact absurd rfl hne | cons => simp
    have hps' : paramsFor (concatIdents 21) es.length = some (List.replicate es.length (.ident, 2)) := by
      simp [paramsFor, Func.variadicArg, Func.fixedArgs, concatIdents, List.filter, Ty.isVariadic, hlen]
    obtain ⟨⟨tes, h1⟩, -⟩ := costs_idents ho hz
    have hck := (checkArgs_costs ho.all (paramsFor_length hps')
      (fun p hp => builtins_simple _ hm21 p.1 (mem_paramTypes.2 (paramsFor_mem hps' hp)))).2 h1
    have hu' : usable raw es.length none (fun ps => checkArgs builtinFuncs Γ es ps) (concatIdents 21) = some ⟨0 + 0, concatIdents 21, tes⟩ := by
      rw [usable_eq (co := 0) rfl, if_neg (by simp [concatIdents])]
      simp only [hps', Option.bind_some, hck]
    have hmem := List.mem_filterMap.2 ⟨concatIdents 21, (builtinFuncs_mem hfs).2 ⟨hm21, rfl⟩, hu'⟩
    split at h
    · rename_i ch hbest
      cases h
      have hcost : ch.cost = 0 := by
        have := best_not_better hbest _ hmem
        unfold Choice.better at this
        have : ¬ 0 + 0 < ch.cost := fun h => this (.inl h)
        omega
      obtain ⟨f, hfm, hu⟩ := List.mem_filterMap.1 (best_mem hbest)
      obtain ⟨hf, hn⟩ := (builtinFuncs_mem hfs).1 hfm
      have hfun := usable_func hu
      have hr : f.args ≠ [.raw] := by
        rcases concat_funcs hf hn with rfl | rfl | rfl | rfl | rfl <;> simp [concatIdents, concatIdentTokens, concatLitStrs, concatLitInts, concatTokens]
      obtain ⟨ps, hps, hc⟩ := usable_costs ho.all hf hr hu
      refine ⟨by simp [hcost], fun b hb => ?_⟩
      simp only [TExpr.base] at hb
      obtain ⟨vs, hv, hi⟩ := Res.bind_eq_ok.1 hb
      rw [hfun] at hi
      rw [hcost] at hc
      rcases concat_funcs hf hn with rfl | rfl | rfl | rfl | rfl
      · obtain ⟨-, rfl⟩ := paramsFor_variadic (t := .ident) rfl hps
        obtain ⟨ss, h1, h2⟩ := Res.bind_eq_ok.1 hi
        cases all_idents h1
        refine ⟨ss, costs_strict hρ (.inl rfl) ho hc hv, ?_⟩
        simp only [newIdent] at h2
        split at h2
        · cases h2
          rfl
        · cases h2
      · exfalso
        obtain ⟨m, hm, rfl⟩ := paramsFor_ident_tokens rfl hps
        generalize hk : 0 = cost at hc
        generalize ch.args = tes at hc
        cases hc with
        | cons k1 k2 =>
          cases ho with
          | cons hp ho =>
            have := (costs_idents ho fun o he => hz o (List.mem_cons_of_mem _ he)).2 k2
            omega
      · exfalso
        obtain ⟨-, rfl⟩ := paramsFor_variadic (t := .litStr) rfl hps
        exact no_other ho hz hlen (.inr (.inl rfl)) (by simp) hc
      · exfalso
        obtain ⟨-, rfl⟩ := paramsFor_variadic (t := .litInt) rfl hps
        exact no_other ho hz hlen (.inr (.inr rfl)) (by simp) hc
      · exfalso
        obtain ⟨-, rfl⟩ := paramsFor_variadic (t := .tokens) rfl hps
        obtain ⟨m, hm⟩ : ∃ m, es.length = m + 1 := ⟨es.length - 1, by omega⟩
        rw [hm] at hc
        have := (costs_idents ho hz).2 hc
        omega
    · cases h

theorem isName_type (hρ : Typed Γ ρ) {n : Str} (h : IsName ρ n) : natural Γ (.ident n) = .ident := by
  have := hρ n
  cases hr : ρ n with
  | none => rw [hr] at this; simp [natural, ← this]
  | some v =>
    obtain ⟨s, rfl⟩ := h v hr
    rw [hr] at this
    simp [natural, ← this, VKind.ty]

theorem isName_leaf {n : Str} (h : IsName ρ n) : leaf ρ (.ident n) = .ident (standsFor ρ n) := by
  unfold standsFor
  cases hr : ρ n with
  | none => simp [leaf, hr]
  | some v =>
    obtain ⟨s, rfl⟩ := h v hr
    simp [leaf, hr]

mutual
/-- Joined names are an identifier by the reference. -/
theorem join_hasType (hρ : Typed Γ ρ) : ∀ {e : Expr} {ns : List Str}, JoinOf e ns → (∀ n ∈ ns, IsName ρ n) → HasType Γ e .ident
  | _, _, .name id n, h => by
    have := HasType.value (Γ := Γ) id (.ident n)
    rwa [isName_type hρ (h n List.mem_cons_self)] at this
  | _, _, .concat id (args := args) raw hne hs, h => by
    have ih := join_hasTypes hρ hs h
    have h1 := concat_hasType ih (by cases args with | nil => exact absurd rfl hne | cons => simp [List.replicate_succ]) id raw
    have h2 : joinTy (List.replicate args.length .ident) = .ident := by
      cases args with
      | nil => exact absurd rfl hne
      | cons => simp [joinTy, List.replicate_succ]
    rwa [h2] at h1
theorem join_hasTypes (hρ : Typed Γ ρ) : ∀ {es : List Expr} {ns : List Str}, JoinOfL es ns → (∀ n ∈ ns, IsName ρ n) →
    HasTypes Γ es (List.replicate es.length .ident)
  | _, _, .nil, _ => .nil
  | _, _, .cons h hs, hn => by
    have h1 := join_hasType hρ h fun n hm => hn n (List.mem_append_left _ hm)
    have h2 := join_hasTypes hρ hs fun n hm => hn n (List.mem_append_right _ hm)
    exact .cons h1 h2
end

mutual
/-- The value of joined names is the names they stand for, one after the other. -/
theorem join_base (hρ : Typed Γ ρ) : ∀ {e : Expr} {ns : List Str}, JoinOf e ns → (∀ n ∈ ns, IsName ρ n) →
    ∃ te, Princ Γ e (some (0, te)) ∧ te.target = .ident ∧ ∀ b, te.base E seed ρ = .ok b → b = .ident (ns.map (standsFor ρ)).flatten
  | _, _, .name id n, h => by
    refine ⟨_, princ_value id (.ident n), isName_type hρ (h n List.mem_cons_self), ?_⟩
    intro b hb
    cases hb
    rw [isName_leaf (h n List.mem_cons_self)]
    simp
  | _, _, .concat id (args := args) raw hne hs, h => by
    obtain ⟨os, ts, ho, hz, hv⟩ := join_bases hρ hs h
    obtain ⟨c, te, hp, ht⟩ := hasType_princ (join_hasType hρ (.concat id raw hne hs) h)
    have hp' := hp
    cases hp with
    | types _ _ hc =>
      obtain ⟨rfl, hb⟩ := concat_idents (E := E) (seed := seed) hρ ho hz hne hc
      refine ⟨te, hp', ht, fun b h => ?_⟩
      obtain ⟨ss, h1, rfl⟩ := hb b h
      rw [hv ss h1]
theorem join_bases (hρ : Typed Γ ρ) : ∀ {es : List Expr} {ns : List Str}, JoinOfL es ns → (∀ n ∈ ns, IsName ρ n) →
    ∃ os ts, Own Γ es os ts ∧ (∀ o ∈ os, FreeName o) ∧
      ∀ ss : List Str, All2 (HasBase E seed ρ) os (ss.map VKind.ident) → ss.flatten = (ns.map (standsFor ρ)).flatten
  | _, _, .nil, _ => by
    refine ⟨[], [], .nil, (by intro o h; cases h), ?_⟩
    intro ss h
    cases ss with
    | nil => rfl
    | cons => cases h
  | _, _, .cons h hs, hn => by
    obtain ⟨te, h1, h2, h3⟩ := join_base hρ h fun n hm => hn n (List.mem_append_left _ hm)
    obtain ⟨os, ts, h4, h5, h6⟩ := join_bases hρ hs fun n hm => hn n (List.mem_append_right _ hm)
    refine ⟨_, _, .cons h1 h4, ?_, ?_⟩
    · intro o ho
      rcases List.mem_cons.1 ho with rfl | ho
      · exact ⟨te, rfl, h2⟩
      · exact h5 o ho
    · intro ss hss
      cases ss with
      | nil => cases hss
      | cons s ss =>
        cases hss with
        | cons ha hb =>
          obtain ⟨c, te', he, hb'⟩ := ha
          cases he
          have := h3 _ hb'
          cases this
          simp [h6 ss hb]
end

/-- The value of a definition which joins names. -/
theorem join_outcome {env : Env} (henv : env.funcs = builtinFuncs) {pre post : List (Str × Expr)} {vs : Subs} (h : outcome E env pre = .ok vs)
    {y : Str} {e : Expr} {r : Subs} (hr : outcome E env (pre ++ (y, e) :: post) = .ok r) {ns : List Str} (he : JoinOf e ns)
    (hn : ∀ n ∈ ns, IsName (Subs.get vs) n) : Subs.get r y = some (.ident (ns.map (standsFor (Subs.get vs))).flatten) := by
  have e2 : pre ++ (y, e) :: post = (pre ++ [(y, e)]) ++ post := by simp
  rw [e2] at hr
  obtain ⟨rs, zs, h2, rfl⟩ := outcome_prefix hr
  obtain ⟨c, te, v, hck, hev, rfl⟩ := outcome_final henv h h2
  obtain ⟨te', hp, ht, hb⟩ := join_base (E := E) (seed := env.seed) (Γ := fun n => (Subs.get vs n).map (·.ty)) (ρ := Subs.get vs) (fun _ => rfl) he hn
  cases hp with
  | types _ _ hc =>
    rw [hc] at hck
    cases hck
    rw [← as_target te] at hev
    obtain ⟨b, hb1, hb2⟩ := eval_as.1 hev
    have := hb b hb1
    subst this
    rw [tryCast_refl (by rw [ht]; rfl)] at hb2
    cases hb2
    have hy : Subs.get vs y = none := by
      have h3 := (denote_names (outcome_ok.1 h2).2).2
      rw [Subs.get_eq_none]
      simp only [List.map_append, List.map_cons, List.map_nil] at h3
      rw [List.nodup_append] at h3
      exact fun hm => h3.2.2 y hm y (by simp) rfl
    rw [Subs.get_append, Subs.get_append, hy]
    simp [Subs.get_cons]

/-! ## Words -/

theorem flatten_lengths {f g : Str → Str} {x : Str} {ns : List Str} (h : ∀ n ∈ ns, n ≠ x → f n = g n) :
    (ns.map f).flatten.length + ns.count x * (g x).length = (ns.map g).flatten.length + ns.count x * (f x).length := by
  induction ns with
  | nil => simp
  | cons n ns ih =>
    have ih := ih fun m hm => h m (List.mem_cons_of_mem _ hm)
    by_cases hx : n = x
    · subst hx
      simp only [List.map_cons, List.flatten_cons, List.length_append, List.count_cons_self, Nat.add_mul, Nat.one_mul]
      omega
    · have := h n List.mem_cons_self hx
      simp only [List.map_cons, List.flatten_cons, List.length_append, this, List.count_cons_of_ne hx]
      omega

/-- Words with the same parts but one, which is there, are the same only if that part is. -/
theorem flatten_inj {f g : Str → Str} {x : Str} {ns : List Str} (hx : x ∈ ns) (h : ∀ n ∈ ns, n ≠ x → f n = g n)
    (he : (ns.map f).flatten = (ns.map g).flatten) : f x = g x := by
  have hl : (f x).length = (g x).length := by
    have h1 := flatten_lengths h
    rw [he] at h1
    have h2 : ns.count x * (g x).length = ns.count x * (f x).length := by omega
    exact (Nat.eq_of_mul_eq_mul_left (List.count_pos_iff.2 hx) h2).symm
  induction ns with
  | nil => cases hx
  | cons n ns ih =>
    simp only [List.map_cons, List.flatten_cons] at he
    have hn : (f n).length = (g n).length := by
      by_cases hne : n = x
      · rw [hne]; exact hl
      · rw [h n List.mem_cons_self hne]
    obtain ⟨h1, h2⟩ := List.append_inj he hn
    rcases List.mem_cons.1 hx with rfl | hm
    · exact h1
    · exact ih hm (fun m hm => h m (List.mem_cons_of_mem _ hm)) h2

end Verif
