import Verif.Proofs.Principal
import Verif.Proofs.Independence
/-! # Writing definitions out -/

namespace Verif
open Spec

/-! ## The value before the last cast -/

/-- The value of a typed expression before it is cast to the expected type. -/
def Spec.TExpr.base (E : Ext) (seed : Nat) (ρ : Str → Option VKind) : TExpr → Res VKind
  | .val k _ => .ok (leaf ρ k)
  | .call f args _ => (TExpr.evalL E seed ρ args).bind (f.impl E seed)

theorem eval_as {E : Ext} {seed : Nat} {ρ : Str → Option VKind} {te : TExpr} {t : Ty} {v : VKind} :
    (te.as t).eval E seed ρ = .ok v ↔ ∃ b, te.base E seed ρ = .ok b ∧ tryCast E b t = .ok v := by
  cases te with
  | val k s =>
    rw [TExpr.as, eval_val]
    simp only [TExpr.base, Res.ok.injEq, exists_eq_left']
    cases tryCast E (leaf ρ k) t <;> simp
  | call f args s =>
    simp only [TExpr.as, TExpr.eval, TExpr.base, Res.bind_eq]
    cases TExpr.evalL E seed ρ args with
    | err => simp
    | panic => simp
    | ok vs =>
      simp only [Res.bind_ok]
      cases f.impl E seed vs <;> simp

theorem as_target (te : TExpr) : te.as te.target = te := by cases te <;> rfl

theorem tryCast_refl {E : Ext} {v : VKind} {t : Ty} (h : v.ty = t) : tryCast E v t = .ok v := by
  unfold tryCast; rw [if_pos h]

/-- The value before the last cast has the type the expression has. -/
theorem base_ty {E : Ext} {seed : Nat} {Γ : TyEnv} {ρ : Str → Option VKind} (hρ : Typed Γ ρ) {e : Expr} {c : Nat} {te : TExpr}
    (h : check builtinFuncs Γ e none = .ok (c, te)) {b : VKind} (hb : te.base E seed ρ = .ok b) : b.ty = te.target := by
  have hw : WT (InTable builtinFuncs) Γ te := by
    rcases check_good builtins_tame e (expected := none) (by intro t h; cases h) h with ⟨h, -⟩ | ⟨t, h, -⟩
    · exact h
    · cases h
  cases e with
  | value i k =>
    simp only [check, Option.getD_none, coercionCost_refl] at h
    cases h
    cases hb
    exact leaf_ty hρ k
  | call i name args raw =>
    simp only [check] at h
    split at h
    · cases h
    · split at h
      · rename_i ch _
        cases h
        simp only [TExpr.base] at hb
        obtain ⟨vs, h1, h2⟩ := Res.bind_eq_ok.1 hb
        obtain ⟨hF, hfit⟩ := applied_fits (E := E) (seed := seed) (fun f hf => builtins_sound (inTable_builtin hf)) hρ hw (.here h1)
        exact (builtins_sound (inTable_builtin hF) vs hfit).2 b h2
      · cases h

theorem princ_fun {Γ : TyEnv} {e : Expr} {o o' : Option (Nat × TExpr)} (h : Princ Γ e o) (h' : Princ Γ e o') : o = o' := by
  cases h with
  | fails h =>
    cases h' with
    | fails => rfl
    | types c te h1 =>
      obtain ⟨x, hx⟩ := h none (by intro t h; cases h)
      rw [hx] at h1; cases h1
  | types c te h1 =>
    cases h' with
    | fails h =>
      obtain ⟨x, hx⟩ := h none (by intro t h; cases h)
      rw [hx] at h1; cases h1
    | types c' te' h1' => rw [h1] at h1'; cases h1'; rfl

/-! ## Two versions of an expression -/

/-- Two typings with the same type, and the same value if there is one in both cases. -/
inductive Match (E : Ext) (seed : Nat) (ρ : Str → Option VKind) : Option (Nat × TExpr) → Option (Nat × TExpr) → Prop
  | fails : Match E seed ρ none none
  | types {c c' te te'} (ht : te.target = te'.target) (hb : ∀ b, te.base E seed ρ = .ok b → b.ty = te.target)
      (hb' : ∀ b, te'.base E seed ρ = .ok b → b.ty = te'.target)
      (h : ∀ b b', te.base E seed ρ = .ok b → te'.base E seed ρ = .ok b' → b = b') : Match E seed ρ (some (c, te)) (some (c', te'))

theorem Match.refl {E : Ext} {seed : Nat} {Γ : TyEnv} {ρ : Str → Option VKind} (hρ : Typed Γ ρ) {e : Expr} {o : Option (Nat × TExpr)}
    (h : Princ Γ e o) : Match E seed ρ o o := by
  cases h with
  | fails => exact .fails
  | types c te h =>
    have := fun b => base_ty (E := E) (seed := seed) hρ (b := b) h
    exact .types rfl this this (fun b b' h1 h2 => by rw [h1] at h2; exact Res.ok.inj h2)

theorem Match.symm {E : Ext} {seed : Nat} {ρ : Str → Option VKind} {o o' : Option (Nat × TExpr)} (h : Match E seed ρ o o') :
    Match E seed ρ o' o := by
  cases h with
  | fails => exact .fails
  | types ht hb hb' h => exact .types ht.symm hb' hb (fun b b' h1 h2 => (h b' b h2 h1).symm)

section
variable {E : Ext} {seed : Nat} {ρ : Str → Option VKind}

theorem costs_match {os os' : List (Option (Nat × TExpr))} (h : All2 (Match E seed ρ) os os') : ∀ {ps : List (Ty × Nat)} {c tes},
    Costs os ps c tes → ∃ c' tes', Costs os' ps c' tes' := by
  induction h with
  | nil => intro ps c tes h; cases h; exact ⟨_, _, .nil⟩
  | cons hm _ ih =>
    intro ps c tes h
    cases h with
    | cons h1 h2 =>
      obtain ⟨c', tes', h3⟩ := ih h2
      cases hm with
      | types ht => exact ⟨_, _, .cons (ht ▸ h1) h3⟩

theorem evalL_cons {te : TExpr} {tes : List TExpr} {vs : List VKind} : TExpr.evalL E seed ρ (te :: tes) = .ok vs ↔
    ∃ v ws, te.eval E seed ρ = .ok v ∧ TExpr.evalL E seed ρ tes = .ok ws ∧ vs = v :: ws := by
  simp only [TExpr.evalL, Res.bind_eq]
  cases te.eval E seed ρ with
  | err => simp
  | panic => simp
  | ok v =>
    cases TExpr.evalL E seed ρ tes with
    | err => simp
    | panic => simp
    | ok ws => simp [eq_comm]

/-- For the same parameters the arguments have the same values. -/
theorem costs_values {os os' : List (Option (Nat × TExpr))} (h : All2 (Match E seed ρ) os os') : ∀ {ps : List (Ty × Nat)} {c tes c' tes' vs vs'},
    Costs os ps c tes → Costs os' ps c' tes' → TExpr.evalL E seed ρ tes = .ok vs → TExpr.evalL E seed ρ tes' = .ok vs' → vs = vs' := by
  induction h with
  | nil => intro ps c tes c' tes' vs vs' h h' hv hv'; cases h; cases h'; rw [hv] at hv'; exact Res.ok.inj hv'
  | cons hm _ ih =>
    intro ps c tes c' tes' vs vs' h h' hv hv'
    cases h with
    | cons h1 h2 =>
      cases h' with
      | cons h1' h2' =>
        obtain ⟨v, ws, hv1, hv2, rfl⟩ := evalL_cons.1 hv
        obtain ⟨v', ws', hv1', hv2', rfl⟩ := evalL_cons.1 hv'
        cases hm with
        | types ht hb hb' h =>
          obtain ⟨b, hb1, hb2⟩ := eval_as.1 hv1
          obtain ⟨b', hb1', hb2'⟩ := eval_as.1 hv1'
          cases h b b' hb1 hb1'
          rw [hb2] at hb2'
          cases hb2'
          rw [ih h2 h2' hv2 hv2']

/-- Identifiers as identifiers and as tokens. -/
theorem costs_values_tokens {os os' : List (Option (Nat × TExpr))} (h : All2 (Match E seed ρ) os os') : ∀ {n : Nat} {c tes c' tes' vs vs'},
    Costs os (List.replicate n (.ident, 2)) c tes → Costs os' (List.replicate n (.tokens, 2)) c' tes' →
    TExpr.evalL E seed ρ tes = .ok vs → TExpr.evalL E seed ρ tes' = .ok vs' →
    ∃ ss : List Str, vs = ss.map .ident ∧ vs' = ss.map fun s => .tokens [.ident s] := by
  induction h with
  | nil =>
    intro n c tes c' tes' vs vs' h h' hv hv'
    cases n with
    | succ => cases h
    | zero => cases h; cases h'; cases hv; cases hv'; exact ⟨[], rfl, rfl⟩
  | cons hm _ ih =>
    intro n c tes c' tes' vs vs' h h' hv hv'
    cases n with
    | zero => cases h
    | succ n =>
      rw [List.replicate_succ] at h h'
      cases h with
      | cons h1 h2 =>
        cases h' with
        | cons h1' h2' =>
          obtain ⟨v, ws, hv1, hv2, rfl⟩ := evalL_cons.1 hv
          obtain ⟨v', ws', hv1', hv2', rfl⟩ := evalL_cons.1 hv'
          cases hm with
          | types ht hb hb' h =>
            obtain ⟨b, hb1, hb2⟩ := eval_as.1 hv1
            obtain ⟨b', hb1', hb2'⟩ := eval_as.1 hv1'
            cases h b b' hb1 hb1'
            have hty := (hb b hb1).trans (coercionCost_strict (.inl rfl) h1).1
            rw [tryCast_refl hty] at hb2
            cases hb2
            cases v <;> simp only [VKind.ty, reduceCtorEq] at hty
            rename_i s
            cases hb2'
            obtain ⟨ss, rfl, rfl⟩ := ih h2 h2' hv2 hv2'
            exact ⟨s :: ss, rfl, rfl⟩

end

/-! ## Which overloads compete -/

/-- One parameter, neither variadic nor raw. -/
def SingleParam (f : Func) : Prop := ∃ s ∈ f.args, f.args = [s] ∧ s.isVariadic = false

instance (f : Func) : Decidable (SingleParam f) := by unfold SingleParam; infer_instance

theorem builtins_rivals : ∀ f ∈ builtins, ∀ g ∈ builtins, f.name = g.name → f.id = g.id ∨ (SingleParam f ∧ SingleParam g) ∨ Exclusive f g ∨
    TokensRival f g ∨ TokensRival g f ∨ (f.args = [.variadic .ident] ∧ g.args = [.ident, .variadic .tokens]) ∨
    (g.args = [.variadic .ident] ∧ f.args = [.ident, .variadic .tokens]) := by
  decide +kernel

theorem builtins_raw_names : ∀ f ∈ builtins, f.args = [.raw] → f.name = c! "raw" ∨ f.name = c! "normalize" := by
  decide +kernel


theorem impl_concat_idents {f : Func} (hf : f ∈ builtins) (h : f.args = [.variadic .ident]) : f = concatIdents 21 := by
  have : f.id = 21 := by
    have : ∀ f ∈ builtins, f.args = [.variadic .ident] → f.id = 21 := by decide +kernel
    exact this f hf h
  exact eq_of_nodup_map (f := (·.id)) (l := builtins) (by decide) hf (by simp [builtins]) this

theorem impl_concat_ident_tokens {f : Func} (hf : f ∈ builtins) (h : f.args = [.ident, .variadic .tokens]) : f = concatIdentTokens 22 := by
  have : f.id = 22 := by
    have : ∀ f ∈ builtins, f.args = [.ident, .variadic .tokens] → f.id = 22 := by decide +kernel
    exact this f hf h
  exact eq_of_nodup_map (f := (·.id)) (l := builtins) (by decide) hf (by simp [builtins]) this

section
variable {E : Ext} {seed : Nat} {Γ : TyEnv} {ρ : Str → Option VKind}

/-- An overload that does not take raw tokens is usable in both versions. -/
theorem usable_match {es es' : List Expr} {os os' : List (Option (Nat × TExpr))} (hes : All2 (Princ Γ) es os) (hes' : All2 (Princ Γ) es' os')
    (hm : All2 (Match E seed ρ) os os') (raw raw' : Option (Nat × Toks)) {f : Func} (hf : f ∈ builtins) (hr : f.args ≠ [.raw])
    (hl : es.length = es'.length) {x : Choice}
    (h : usable raw es.length none (fun ps => checkArgs builtinFuncs Γ es ps) f = some x) :
    ∃ x', usable raw' es'.length none (fun ps => checkArgs builtinFuncs Γ es' ps) f = some x' := by
  obtain ⟨ps, hps, hc⟩ := usable_costs hes hf hr h
  obtain ⟨c', tes', hc'⟩ := costs_match hm hc
  rw [hl] at hps
  have := (checkArgs_costs hes' (paramsFor_length hps) (fun p hp => builtins_simple f hf p.1 (mem_paramTypes.2 (paramsFor_mem hps hp)))).2 hc'
  refine ⟨⟨0 + c', f, tes'⟩, ?_⟩
  rw [usable_eq (co := 0) rfl, if_neg hr]
  simp only [hps, Option.bind_some, this]

/-- The overloads chosen in the two versions are the same, or those of `concat` for identifiers and for an identifier and tokens. -/
theorem choice_match {es es' : List Expr} {os os' : List (Option (Nat × TExpr))} (hes : All2 (Princ Γ) es os) (hes' : All2 (Princ Γ) es' os')
    (hm : All2 (Match E seed ρ) os os') {raw raw' : Option (Nat × Toks)} (hl : es.length = es'.length) {fs : List Func} {name : Str}
    (hfs : builtinFuncs name = some fs) (hn : name ≠ c! "raw") (hn' : name ≠ c! "normalize") {x x' : Choice}
    (hx : best (fs.filterMap (usable raw es.length none (fun ps => checkArgs builtinFuncs Γ es ps))) = some x)
    (hx' : best (fs.filterMap (usable raw' es'.length none (fun ps => checkArgs builtinFuncs Γ es' ps))) = some x') :
    x.func = x'.func ∨ (x.func = concatIdents 21 ∧ x'.func = concatIdentTokens 22) ∨ (x.func = concatIdentTokens 22 ∧ x'.func = concatIdents 21) := by
  obtain ⟨f, hfm, hux⟩ := List.mem_filterMap.1 (best_mem hx)
  obtain ⟨g, hgm, huy'⟩ := List.mem_filterMap.1 (best_mem hx')
  obtain ⟨hf1, hf2⟩ := (builtinFuncs_mem hfs).1 hfm
  obtain ⟨hg1, hg2⟩ := (builtinFuncs_mem hfs).1 hgm
  have nr : ∀ {f : Func}, f ∈ builtins → f.name = name → f.args ≠ [.raw] := by
    intro f hf hfn ha
    rcases builtins_raw_names f hf ha with h | h
    · exact hn (hfn ▸ h)
    · exact hn' (hfn ▸ h)
  have hm' : All2 (Match E seed ρ) os' os := by
    clear hes hes' hx hx' hux huy'
    induction hm with
    | nil => exact .nil
    | cons h _ ih => exact .cons h.symm ih
  obtain ⟨x2, hux2⟩ := usable_match hes hes' hm raw raw' hf1 (nr hf1 hf2) hl hux
  obtain ⟨x2', huy2⟩ := usable_match hes' hes hm' raw' raw hg1 (nr hg1 hg2) hl.symm huy'
  have hxf := usable_func hux
  have hxg := usable_func huy'
  rw [hxf, hxg]
  have hb1 := best_not_better hx _ (List.mem_filterMap.2 ⟨g, hgm, huy2⟩)
  have hb2 := best_not_better hx' _ (List.mem_filterMap.2 ⟨f, hfm, hux2⟩)
  -- costs
  obtain ⟨ps, hps, hc1⟩ := usable_costs hes hf1 (nr hf1 hf2) hux
  obtain ⟨qs, hqs, hc2⟩ := usable_costs hes hg1 (nr hg1 hg2) huy2
  obtain ⟨ps', hps', hc1'⟩ := usable_costs hes' hf1 (nr hf1 hf2) hux2
  obtain ⟨qs', hqs', hc2'⟩ := usable_costs hes' hg1 (nr hg1 hg2) huy'
  have e1 : ps = ps' := by rw [← hl, hps] at hps'; cases hps'; rfl
  have e2 : qs = qs' := by rw [← hl, hqs] at hqs'; cases hqs'; rfl
  subst e1 e2
  rcases builtins_rivals f hf1 g hg1 (hf2.trans hg2.symm) with h | ⟨⟨s, -, h1, h2⟩, ⟨t, -, h3, h4⟩⟩ | h | h | h | ⟨h1, h2⟩ | ⟨h1, h2⟩
  · exact .inl (eq_of_nodup_map (f := (·.id)) (l := builtins) (by decide) hf1 hg1 h)
  · left
    have hid : f.id = g.id := by
      have p1 : ps = [(s, 1)] ∧ es.length = 1 := by
        have hv : f.variadicArg = none := by simp [Func.variadicArg, h1, h2]
        simp only [paramsFor, hv, h1] at hps
        split at hps
        · rename_i hl; cases hps; exact ⟨rfl, hl.symm⟩
        · cases hps
      have p2 : qs = [(t, 1)] := by
        have hv : g.variadicArg = none := by simp [Func.variadicArg, h3, h4]
        simp only [paramsFor, hv, h3] at hqs
        split at hqs
        · cases hqs; rfl
        · cases hqs
      obtain ⟨rfl, -⟩ := p1
      subst p2
      have hy2 := usable_func huy2
      have hx2 := usable_func hux2
      have key : ∀ {a b a' b' : Nat}, (∃ tes, Costs os [(s, 1)] a tes) → (∃ tes, Costs os [(t, 1)] b tes) → (∃ tes, Costs os' [(s, 1)] a' tes) →
          (∃ tes, Costs os' [(t, 1)] b' tes) → a' + b = a + b' := by
        rintro a b a' b' ⟨_, k1⟩ ⟨_, k2⟩ ⟨_, k3⟩ ⟨_, k4⟩
        cases k1 with
        | cons k1 n1 =>
          cases k2 with
          | cons k2 n2 =>
            cases k3 with
            | cons k3 n3 =>
              cases k4 with
              | cons k4 n4 =>
                cases n1; cases n2; cases n3; cases n4
                cases hm with
                | cons hm _ =>
                  cases hm with
                  | types ht =>
                    rw [← ht, k1] at k3
                    rw [← ht, k2] at k4
                    cases k3; cases k4
                    omega
      have hk := key ⟨_, hc1⟩ ⟨_, hc2⟩ ⟨_, hc1'⟩ ⟨_, hc2'⟩
      unfold Choice.better at hb1 hb2
      rw [hxf, hy2] at hb1
      rw [hxg, hx2] at hb2
      generalize f.isVariadic = vf at *
      generalize g.isVariadic = vg at *
      cases vf <;> cases vg <;> simp at hb1 hb2 <;> omega
    exact eq_of_nodup_map (f := (·.id)) (l := builtins) (by decide) hf1 hg1 hid
  · exact absurd h (exclusive_usable hes hf1 hg1 hux huy2)
  · have := tokens_dearer hes hf1 hg1 hux huy2 h
    unfold Choice.better at hb1
    omega
  · have := tokens_dearer hes' hg1 hf1 huy' hux2 h
    unfold Choice.better at hb2
    omega
  · exact .inr (.inl ⟨impl_concat_idents hf1 h1, impl_concat_ident_tokens hg1 h2⟩)
  · exact .inr (.inr ⟨impl_concat_ident_tokens hf1 h2, impl_concat_idents hg1 h1⟩)

/-- Both overloads of `concat` give the same identifier. -/
theorem concat_match (hE : PlainNames E) {os os' : List (Option (Nat × TExpr))} (hm : All2 (Match E seed ρ) os os') {m c c' : Nat} {tes tes' : List TExpr}
    {vs vs' : List VKind} {b b' : VKind} (hc : Costs os (List.replicate (m + 2) (.ident, 2)) c tes)
    (hc' : Costs os' ((.ident, 1) :: List.replicate (m + 1) (.tokens, 2)) c' tes') (hv : TExpr.evalL E seed ρ tes = .ok vs)
    (hv' : TExpr.evalL E seed ρ tes' = .ok vs') (hb : (concatIdents 21).impl E seed vs = .ok b)
    (hb' : (concatIdentTokens 22).impl E seed vs' = .ok b') : b = b' := by
  rw [List.replicate_succ] at hc
  cases hc with
  | cons h1 h2 =>
    cases hc' with
    | cons h1' h2' =>
      obtain ⟨v, ws, hv1, hv2, rfl⟩ := evalL_cons.1 hv
      obtain ⟨v', ws', hv1', hv2', rfl⟩ := evalL_cons.1 hv'
      cases hm with
      | cons hm hms =>
        obtain ⟨ss, rfl, rfl⟩ := costs_values_tokens hms h2 h2' hv2 hv2'
        cases hm with
        | types ht hbt hbt' h =>
          obtain ⟨b1, hb1, hb2⟩ := eval_as.1 hv1
          obtain ⟨b1', hb1', hb2'⟩ := eval_as.1 hv1'
          cases h b1 b1' hb1 hb1'
          rw [hb2] at hb2'
          cases hb2'
          have hty := tryCast_ty hb2
          cases v <;> simp only [VKind.ty, reduceCtorEq] at hty
          rename_i s
          have e1 : allOf VKind.asIdent (.ident s :: ss.map .ident) = .ok (s :: ss) :=
            allOf_map (sel := VKind.asIdent) (mk := .ident) (fun _ => rfl) (s :: ss)
          have e2 : allOf VKind.asTokens (ss.map fun s => .tokens [.ident s]) = .ok (ss.map fun s => [.ident s]) := by
            have := allOf_map (sel := VKind.asTokens) (mk := .tokens) (fun _ => rfl) (ss.map fun s => [Tok.ident s])
            rwa [List.map_map] at this
          have e3 : (ss.map fun s => [Tok.ident s]).map E.render = ss := by
            rw [List.map_map]
            conv => rhs; rw [← List.map_id ss]
            congr 1
            funext s
            exact hE.render s
          simp only [concatIdents, e1, Res.bind_eq, Res.bind_ok, newIdent] at hb
          simp only [concatIdentTokens, e2, Res.bind_eq, Res.bind_ok, VKind.toTokens, hE.render, e3] at hb'
          split at hb
          · rename_i hl
            cases hb
            simp only [parseStrIdent, hE.lex hl, Option.bind_some, parseIdent] at hb'
            split at hb'
            · rename_i hk
              split at hk
              · cases hk
              · cases hk; cases hb'; rfl
            · cases hb'
          · cases hb

theorem princ_value (i : Nat) (k : VKind) : Princ Γ (.value i k) (some (0, .val k (natural Γ k))) := by
  refine .types 0 (.val k (natural Γ k)) ?_ ?_ ?_
  · simp only [check, Option.getD_none, coercionCost_refl]
  · intro t co _ h
    have h : coercionCost (natural Γ k) t = some co := h
    simp only [check, Option.getD_some, h]; rfl
  · intro t _ h
    have h : coercionCost (natural Γ k) t = none := h
    exact ⟨_, by simp only [check, Option.getD_some, h]; rfl⟩

/-- No string among the arguments of one version, so none in the other. -/
theorem targets_match {es es' : List Expr} {os os' : List (Option (Nat × TExpr))} (hes : All2 (Princ Γ) es os) (hes' : All2 (Princ Γ) es' os')
    (hm : All2 (Match E seed ρ) os os') (h : ∀ a ∈ es, ∀ c te, check builtinFuncs Γ a none = .ok (c, te) → te.target ≠ .litStr) :
    ∀ a ∈ es', ∀ c te, check builtinFuncs Γ a none = .ok (c, te) → te.target ≠ .litStr := by
  induction hm generalizing es es' with
  | nil => cases hes'; intro a ha; cases ha
  | cons hm _ ih =>
    cases hes with
    | cons he hes =>
      cases hes' with
      | cons he' hes' =>
        intro a ha c te hck
        rcases List.mem_cons.1 ha with rfl | ha
        · cases hm with
          | fails =>
            cases he' with
            | fails h => obtain ⟨x, hx⟩ := h none (by intro t h; cases h); rw [hx] at hck; cases hck
          | types ht =>
            cases he' with
            | types _ _ h' =>
              rw [h'] at hck
              cases hck
              cases he with
              | types _ _ h'' =>
                rw [← ht]
                exact h _ (by simp) _ _ h''
        · exact ih hes hes' (fun a ha => h a (List.mem_cons_of_mem _ ha)) a ha c te hck

theorem writesOutL_length {x : Str} {d : Expr} : ∀ {es es' : List Expr}, WritesOutL x d es es' → es.length = es'.length
  | _, _, .nil => rfl
  | _, _, .cons _ h => by simp [writesOutL_length h]

/-- A call with arguments of the same types and values has the same type and value. -/
theorem call_match (hE : PlainNames E) (hρ : Typed Γ ρ) {i i' : Nat} {n : Str} {raw raw' : Option (Nat × Toks)} {args args' : List Expr}
    {os os' : List (Option (Nat × TExpr))} (hn : n ≠ S "raw") (hn' : n ≠ S "normalize") (hl : args.length = args'.length)
    (hh : n = c! "hash" → ∀ a ∈ args, ∀ c te, check builtinFuncs Γ a none = .ok (c, te) → te.target ≠ .litStr)
    (hargs : noStrHashL Γ args) (hargs' : noStrHashL Γ args') (hos : All2 (Princ Γ) args os) (hos' : All2 (Princ Γ) args' os')
    (hm : All2 (Match E seed ρ) os os') :
    noStrHash Γ (.call i' n args' raw') ∧ ∃ o o', Princ Γ (.call i n args raw) o ∧ Princ Γ (.call i' n args' raw') o' ∧ Match E seed ρ o o' := by
  have hh' : n = c! "hash" → ∀ a ∈ args', ∀ c te, check builtinFuncs Γ a none = .ok (c, te) → te.target ≠ .litStr :=
    fun hn => targets_match hos hos' hm (hh hn)
  have hs' : noStrHash Γ (.call i' n args' raw') := ⟨hh', hargs'⟩
  refine ⟨hs', ?_⟩
  obtain ⟨o, ho⟩ := princ Γ (.call i n args raw) ⟨hh, hargs⟩
  obtain ⟨o', ho'⟩ := princ Γ (.call i' n args' raw') hs'
  refine ⟨o, o', ho, ho', ?_⟩
  have hm' : All2 (Match E seed ρ) os' os := by
    clear hos hos' ho ho' hl
    induction hm with
    | nil => exact .nil
    | cons h _ ih => exact .cons h.symm ih
  cases hf : builtinFuncs n with
  | none =>
    have h1 : ∀ {i args raw o}, Princ Γ (.call i n args raw) o → o = none := by
      intro i args raw o h
      cases h with
      | fails => rfl
      | types _ _ h => simp only [check, hf] at h; cases h
    rw [h1 ho, h1 ho']
    exact .fails
  | some fs =>
    have nr : ∀ {f : Func}, f ∈ fs → f ∈ builtins ∧ f.args ≠ [.raw] := by
      intro f hfm
      obtain ⟨h1, h2⟩ := (builtinFuncs_mem hf).1 hfm
      refine ⟨h1, fun ha => ?_⟩
      rcases builtins_raw_names f h1 ha with h | h
      · exact hn (h2 ▸ h)
      · exact hn' (h2 ▸ h)
    cases ho with
    | fails h1 =>
      cases ho' with
      | fails => exact .fails
      | types c' te' h2 =>
        exfalso
        obtain ⟨x, hx⟩ := h1 none (by intro t h; cases h)
        simp only [check, hf] at hx h2
        split at h2
        · rename_i ch hb
          obtain ⟨g, hgm, hu⟩ := List.mem_filterMap.1 (best_mem hb)
          obtain ⟨x', hu'⟩ := usable_match hos' hos hm' raw' raw (nr hgm).1 (nr hgm).2 hl.symm hu
          obtain ⟨z, hz⟩ := best_isSome (List.mem_filterMap.2 ⟨g, hgm, hu'⟩)
          rw [hz] at hx
          cases hx
        · cases h2
    | types c te h1 =>
      cases ho' with
      | fails h2 =>
        exfalso
        obtain ⟨x, hx⟩ := h2 none (by intro t h; cases h)
        simp only [check, hf] at hx h1
        split at h1
        · rename_i ch hb
          obtain ⟨g, hgm, hu⟩ := List.mem_filterMap.1 (best_mem hb)
          obtain ⟨x', hu'⟩ := usable_match hos hos' hm raw raw' (nr hgm).1 (nr hgm).2 hl hu
          obtain ⟨z, hz⟩ := best_isSome (List.mem_filterMap.2 ⟨g, hgm, hu'⟩)
          rw [hz] at hx
          cases hx
        · cases h1
      | types c' te' h2 =>
        have hty := fun b => base_ty (E := E) (seed := seed) hρ h1 (b := b)
        have hty' := fun b => base_ty (E := E) (seed := seed) hρ h2 (b := b)
        simp only [check, hf] at h1 h2
        split at h1
        · rename_i ch hb
          cases h1
          split at h2
          · rename_i ch' hb'
            cases h2
            have hch := choice_match (E := E) (seed := seed) (ρ := ρ) hos hos' hm hl hf hn hn' hb hb'
            obtain ⟨f, hfm, hu⟩ := List.mem_filterMap.1 (best_mem hb)
            obtain ⟨f', hfm', hu'⟩ := List.mem_filterMap.1 (best_mem hb')
            obtain ⟨ps, hps, hc⟩ := usable_costs hos (nr hfm).1 (nr hfm).2 hu
            obtain ⟨ps', hps', hc'⟩ := usable_costs hos' (nr hfm').1 (nr hfm').2 hu'
            have hef := usable_func hu
            have hef' := usable_func hu'
            refine .types ?_ hty hty' ?_
            · show ch.func.out = ch'.func.out
              rcases hch with h | ⟨h, h'⟩ | ⟨h, h'⟩
              · rw [h]
              · rw [h, h']; rfl
              · rw [h, h']; rfl
            · intro b b' hb hb'
              simp only [TExpr.base] at hb hb'
              obtain ⟨vs, hv, hi⟩ := Res.bind_eq_ok.1 hb
              obtain ⟨vs', hv', hi'⟩ := Res.bind_eq_ok.1 hb'
              rcases hch with h | ⟨h, h'⟩ | ⟨h, h'⟩
              · have e : ps = ps' := by
                  rw [← hef, h, hef', hl, hps'] at hps
                  cases hps; rfl
                subst e
                cases costs_values hm hc hc' hv hv'
                rw [h, hi'] at hi
                exact (Res.ok.inj hi).symm
              · rw [h] at hi
                rw [h'] at hi'
                obtain ⟨m, hm1, rfl⟩ := paramsFor_ident_tokens (f := f') (by rw [← hef', h']; rfl) hps'
                obtain ⟨-, rfl⟩ := paramsFor_variadic (f := f) (t := .ident) (by rw [← hef, h]; rfl) hps
                rw [hl, hm1] at hc
                exact concat_match hE hm hc hc' hv hv' hi hi'
              · rw [h] at hi
                rw [h'] at hi'
                obtain ⟨m, hm1, rfl⟩ := paramsFor_ident_tokens (f := f) (by rw [← hef, h]; rfl) hps
                obtain ⟨-, rfl⟩ := paramsFor_variadic (f := f') (t := .ident) (by rw [← hef', h']; rfl) hps'
                rw [← hl, hm1] at hc'
                exact (concat_match hE hm' hc' hc hv' hv hi' hi).symm
          · cases h2
        · cases h1

mutual
/-- Writing out a definition keeps the type and, if there is one in both cases, the value. -/
theorem writesOut_match (hE : PlainNames E) (hρ : Typed Γ ρ) {x : Str} {d : Expr} {cd : Nat} {ted : TExpr} {w : VKind}
    (hd : Princ Γ d (some (cd, ted))) (hsd : noStrHash Γ d) (hdv : ted.eval E seed ρ = .ok w) (hx : ρ x = some w) :
    ∀ {e e' : Expr}, WritesOut x d e e' → noStrHash Γ e → noStrHash Γ e' ∧ ∃ o o', Princ Γ e o ∧ Princ Γ e' o' ∧ Match E seed ρ o o'
  | _, _, .here i, _ => by
    refine ⟨hsd, _, _, princ_value i (.ident x), hd, ?_⟩
    rw [← as_target ted] at hdv
    obtain ⟨b, hb1, hb2⟩ := eval_as.1 hdv
    have hbt : ∀ b, ted.base E seed ρ = .ok b → b.ty = ted.target := by
      cases hd with
      | types _ _ h => exact fun b hb => base_ty hρ h hb
    rw [tryCast_refl (hbt b hb1)] at hb2
    cases hb2
    have hn : natural Γ (.ident x) = ted.target := by
      rw [← hbt _ hb1, ← leaf_ty hρ]
      simp [leaf, hx]
    refine .types hn ?_ hbt ?_
    · intro b hb
      cases hb
      exact leaf_ty hρ _
    · intro b b' hb hb'
      cases hb
      rw [hb1] at hb'
      cases hb'
      simp [leaf, hx]
  | _, _, .same e, hs => by
    obtain ⟨o, ho⟩ := princ Γ e hs
    exact ⟨hs, o, o, ho, ho, .refl hρ ho⟩
  | _, _, .call i n raw raw' (args := args) (args' := args') hn hn' h, hs => by
    obtain ⟨hh, hargs⟩ := hs
    obtain ⟨hargs', os, os', hos, hos', hm⟩ := writesOutL_match hE hρ hd hsd hdv hx h hargs
    exact call_match hE hρ hn hn' (writesOutL_length h) hh hargs hargs' hos hos' hm
theorem writesOutL_match (hE : PlainNames E) (hρ : Typed Γ ρ) {x : Str} {d : Expr} {cd : Nat} {ted : TExpr} {w : VKind}
    (hd : Princ Γ d (some (cd, ted))) (hsd : noStrHash Γ d) (hdv : ted.eval E seed ρ = .ok w) (hx : ρ x = some w) :
    ∀ {es es' : List Expr}, WritesOutL x d es es' → noStrHashL Γ es → noStrHashL Γ es' ∧ ∃ os os', All2 (Princ Γ) es os ∧ All2 (Princ Γ) es' os' ∧
      All2 (Match E seed ρ) os os'
  | _, _, .nil, _ => ⟨trivial, [], [], .nil, .nil, .nil⟩
  | _, _, .cons h hs, hn => by
    obtain ⟨h1, o, o', h2, h3, h4⟩ := writesOut_match hE hρ hd hsd hdv hx h hn.1
    obtain ⟨h5, os, os', h6, h7, h8⟩ := writesOutL_match hE hρ hd hsd hdv hx hs hn.2
    exact ⟨⟨h1, h5⟩, o :: os, o' :: os', .cons h2 h6, .cons h3 h7, .cons h4 h8⟩
end

end

/-! ## Lists of definitions -/

/-- What a definition at the end is: it types, and its value is the last one. -/
theorem outcome_final {E : Ext} {env : Env} (henv : env.funcs = builtinFuncs) {pre : List (Str × Expr)} {vs : Subs} (h : outcome E env pre = .ok vs)
    {y : Str} {e : Expr} {r : Subs} (hr : outcome E env (pre ++ [(y, e)]) = .ok r) :
    ∃ c te v, check builtinFuncs (fun n => (vs.get n).map (·.ty)) e none = .ok (c, te) ∧ te.eval E env.seed vs.get = .ok v ∧ r = vs ++ [(y, v)] := by
  rw [outcome_append henv h] at hr
  split at hr
  · cases hr
  · split at hr
    · cases hr
    · rename_i tes hc
      simp only [checkSpec] at hc
      split at hc
      · cases hc
      · rename_i c te hck
        split at hc
        · cases hc
        · cases hc
          simp only [evalSpecT, Res.bind_eq] at hr
          rw [henv] at hck
          refine ⟨c, te, ?_⟩
          cases hv : te.eval E env.seed vs.get with
          | err => rw [hv] at hr; simp at hr
          | panic => rw [hv] at hr; simp at hr
          | ok v =>
            rw [hv] at hr
            simp only [Res.bind_ok, Res.ok.injEq] at hr
            exact ⟨v, hck, rfl, hr.symm⟩

/-- What is known about an earlier definition and the ones after it. -/
theorem written_setup {E : Ext} {env : Env} (henv : env.funcs = builtinFuncs) {d1 d2 : List (Str × Expr)} {x : Str} {d : Expr} (hu : x ∉ used d)
    (hu2 : ∀ n ∈ d2.map (·.1), n ∉ used d) {vs : Subs} (h0 : outcome E env (d1 ++ (x, d) :: d2) = .ok vs)
    (hsd : noStrHash (fun n => (vs.get n).map (·.ty)) d) :
    ∃ cd ted w, Princ (fun n => (vs.get n).map (·.ty)) d (some (cd, ted)) ∧ ted.eval E env.seed vs.get = .ok w ∧ vs.get x = some w := by
  have e2 : d1 ++ (x, d) :: d2 = (d1 ++ [(x, d)]) ++ d2 := by simp
  have h0' := h0
  rw [e2] at h0'
  obtain ⟨rs, zs, h2, rfl⟩ := outcome_prefix h0'
  obtain ⟨vs1, _, h3, -⟩ := outcome_prefix h2
  obtain ⟨cd, ted, w, hckd, hevd, rfl⟩ := outcome_final henv h3 h2
  obtain ⟨hn1, hn2⟩ := denote_names (outcome_ok.1 h0).2
  have hn3 := (denote_names (outcome_ok.1 h3).2).1
  have hzs : zs.map (·.1) = d2.map (·.1) := by
    simp only [List.map_append, hn3, List.map_cons, List.append_assoc, List.cons_append, List.nil_append] at hn1
    have := List.append_cancel_left hn1
    simpa using this
  have hxv : x ∉ vs1.map (·.1) := by
    simp only [List.map_append, List.map_cons, List.append_assoc, List.cons_append, List.nil_append] at hn2
    rw [List.nodup_append] at hn2
    exact fun hm => hn2.2.2 x hm x (by simp) rfl
  have hget : ∀ n ∈ used d, Subs.get (vs1 ++ [(x, w)] ++ zs) n = Subs.get vs1 n := by
    intro n hn
    have h1 : x ≠ n := by rintro rfl; exact hu hn
    have h2 : Subs.get zs n = none := by
      rw [Subs.get_eq_none, hzs]
      exact fun hm => hu2 n hm hn
    rw [Subs.get_append, Subs.get_append, h2]
    cases Subs.get vs1 n <;> simp [Subs.get_cons, Subs.get_nil, h1]
  have hx : Subs.get (vs1 ++ [(x, w)] ++ zs) x = some w := by
    rw [Subs.get_append, Subs.get_append, Subs.get_eq_none.2 hxv]
    simp [Subs.get_cons]
  have hckd' : check builtinFuncs (fun n => (Subs.get (vs1 ++ [(x, w)] ++ zs) n).map (·.ty)) d none = .ok (cd, ted) := by
    rw [← hckd]
    exact check_agree d (fun n hn => by rw [hget n hn]) none
  have hevd' : ted.eval E env.seed (Subs.get (vs1 ++ [(x, w)] ++ zs)) = .ok w := by
    rw [← hevd]
    exact eval_agree ted (fun n hn => hget n (check_used d hckd n hn))
  have hpd : Princ (fun n => (Subs.get (vs1 ++ [(x, w)] ++ zs) n).map (·.ty)) d (some (cd, ted)) := by
    obtain ⟨o, ho⟩ := princ _ d hsd
    cases ho with
    | fails h => obtain ⟨x, hx⟩ := h none (by intro t h; cases h); rw [hx] at hckd'; cases hckd'
    | types _ _ h hs hn => rw [h] at hckd'; cases hckd'; exact .types _ _ h hs hn
  exact ⟨cd, ted, w, hpd, hevd', hx⟩

/-- A definition may be written out in a later one. -/
theorem outcome_writeOut {E : Ext} (hE : PlainNames E) {env : Env} (henv : env.funcs = builtinFuncs) {d1 d2 d3 : List (Str × Expr)} {x y : Str}
    {d e e' : Expr} (hw : WritesOut x d e e') (hu : x ∉ used d) (hu2 : ∀ n ∈ d2.map (·.1), n ∉ used d)
    (hs : ∀ vs : Subs, outcome E env (d1 ++ (x, d) :: d2) = .ok vs →
      noStrHash (fun n => (vs.get n).map (·.ty)) d ∧ noStrHash (fun n => (vs.get n).map (·.ty)) e)
    {vs vs' : Subs} (h : outcome E env (d1 ++ (x, d) :: d2 ++ (y, e) :: d3) = .ok vs)
    (h' : outcome E env (d1 ++ (x, d) :: d2 ++ (y, e') :: d3) = .ok vs') : vs = vs' := by
  obtain ⟨vs0, us0, h0, rfl⟩ := outcome_prefix h
  have e1 : ∀ e : Expr, d1 ++ (x, d) :: d2 ++ (y, e) :: d3 = (d1 ++ (x, d) :: d2 ++ [(y, e)]) ++ d3 := by intro e; simp
  rw [e1] at h h'
  obtain ⟨ws, us, h1, hws⟩ := outcome_prefix h
  obtain ⟨ws', us', h1', rfl⟩ := outcome_prefix h'
  obtain ⟨c, te, v, hck, hev, rfl⟩ := outcome_final henv h0 h1
  obtain ⟨c', te', v', hck', hev', rfl⟩ := outcome_final henv h0 h1'
  obtain ⟨hsd, hse⟩ := hs _ h0
  obtain ⟨cd, ted, w, hpd, hevd, hx⟩ := written_setup henv hu hu2 h0 hsd
  have hρ : Typed (fun n => (Subs.get vs0 n).map (·.ty)) (Subs.get vs0) := fun n => rfl
  obtain ⟨-, o, o', ho, ho', hm⟩ := writesOut_match hE hρ hpd hsd hevd hx hw hse
  have hv : v = v' := by
    cases hm with
    | fails =>
      cases ho with
      | fails h => obtain ⟨x, hx⟩ := h none (by intro t h; cases h); rw [hx] at hck; cases hck
    | types ht hb hb' hm =>
      cases ho with
      | types _ _ hk =>
        cases ho' with
        | types _ _ hk' =>
          rw [hk] at hck
          rw [hk'] at hck'
          cases hck
          cases hck'
          rw [← as_target te] at hev
          rw [← as_target te'] at hev'
          obtain ⟨b, hb1, hb2⟩ := eval_as.1 hev
          obtain ⟨b', hb1', hb2'⟩ := eval_as.1 hev'
          cases hm b b' hb1 hb1'
          rw [ht, hb2'] at hb2
          exact (Res.ok.inj hb2).symm
  subst hv
  obtain ⟨o, h5, h6⟩ := outcome_post henv h1 h1' (post := d3) (fun _ _ => rfl)
  rw [h] at h5
  rw [h'] at h6
  rw [← h6] at h5
  exact Res.ok.inj h5

end Verif
