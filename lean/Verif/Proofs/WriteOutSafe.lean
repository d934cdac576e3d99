import Verif.Proofs.WriteOut
/-! # Writing definitions out: what can go wrong -/

namespace Verif
open Spec

/-- `concat` refuses its arguments, or there is a panic. -/
def GivesUp {α : Type} (r : Res α) : Prop := (∃ xs, r = .err (.evalError xs)) ∨ r = .panic

theorem GivesUp.bind {α β : Type} {r : Res α} (h : GivesUp r) (f : α → Res β) : GivesUp (r.bind f) := by
  rcases h with ⟨xs, rfl⟩ | rfl
  · exact .inl ⟨xs, rfl⟩
  · exact .inr rfl

/-- A value of the first version is that of the second one, unless that gives up. -/
def Safely (E : Ext) (seed : Nat) (ρ : Str → Option VKind) (o o' : Option (Nat × TExpr)) : Prop :=
  ∀ c te c' te', o = some (c, te) → o' = some (c', te') → ∀ b, te.base E seed ρ = .ok b → te'.base E seed ρ = .ok b ∨ GivesUp (te'.base E seed ρ)

theorem Safely.refl {E : Ext} {seed : Nat} {ρ : Str → Option VKind} (o : Option (Nat × TExpr)) : Safely E seed ρ o o := by
  rintro c te c' te' rfl h b hb
  cases h
  exact .inl hb

section
variable {E : Ext} {seed : Nat} {ρ : Str → Option VKind}

theorem eval_as_givesUp {te : TExpr} {t : Ty} (h : GivesUp (te.base E seed ρ)) : GivesUp ((te.as t).eval E seed ρ) := by
  cases te with
  | val k s => rcases h with ⟨xs, h⟩ | h <;> cases h
  | call f args s =>
    simp only [TExpr.base] at h
    simp only [TExpr.as, TExpr.eval, Res.bind_eq]
    have := h.bind fun r => tryCast E r t
    cases hl : TExpr.evalL E seed ρ args with
    | err => rw [hl] at this; exact this
    | panic => rw [hl] at this; exact this
    | ok vs => rw [hl] at this; exact this

theorem eval_givesUp {te : TExpr} (h : GivesUp (te.base E seed ρ)) : GivesUp (te.eval E seed ρ) := by
  rw [← as_target te]; exact eval_as_givesUp h

/-- Parameters for which values can be cast to the second type if they can be cast to the first. -/
def CastsToo (E : Ext) (p p' : Ty × Nat) : Prop :=
  ∀ (b v : VKind) (co : Nat), coercionCost b.ty p'.1 = some co → tryCast E b p.1 = .ok v → ∃ v', tryCast E b p'.1 = .ok v'

/-- Arguments with values in the first version have values in the second one, unless that gives up. -/
theorem costs_safe {os os' : List (Option (Nat × TExpr))} (hm : All2 (Match E seed ρ) os os') (hs : All2 (Safely E seed ρ) os os') :
    ∀ {ps ps' : List (Ty × Nat)} {c tes c' tes' vs}, All2 (CastsToo E) ps ps' → Costs os ps c tes → Costs os' ps' c' tes' →
      TExpr.evalL E seed ρ tes = .ok vs → (∃ vs', TExpr.evalL E seed ρ tes' = .ok vs') ∨ GivesUp (TExpr.evalL E seed ρ tes') := by
  induction hm with
  | nil => intro ps ps' c tes c' tes' vs _ h h' _; cases h'; exact .inl ⟨[], rfl⟩
  | cons hm _ ih =>
    intro ps ps' c tes c' tes' vs hp h h' hv
    cases hs with
    | cons hs hss =>
      cases h with
      | cons h1 h2 =>
        cases h' with
        | cons h1' h2' =>
          cases hp with
          | cons hp hps =>
            obtain ⟨v, ws, hv1, hv2, rfl⟩ := evalL_cons.1 hv
            obtain ⟨b, hb1, hb2⟩ := eval_as.1 hv1
            cases hm with
            | types ht hb hb' h =>
              simp only [TExpr.evalL, Res.bind_eq]
              rcases hs _ _ _ _ rfl rfl b hb1 with h3 | h3
              · obtain ⟨v', hv'⟩ := hp b v _ (by rw [hb' b h3]; exact h1') hb2
                rw [eval_as.2 ⟨b, h3, hv'⟩, Res.bind_ok]
                rcases ih hss hps h2 h2' hv2 with ⟨vs', h4⟩ | h4
                · rw [h4]; exact .inl ⟨_, rfl⟩
                · exact .inr (h4.bind _)
              · exact .inr ((eval_as_givesUp h3).bind _)

theorem castsToo_refl (ps : List (Ty × Nat)) : All2 (CastsToo E) ps ps := by
  induction ps with
  | nil => exact .nil
  | cons p ps ih => exact .cons (fun b v co _ h => ⟨v, h⟩) ih

theorem castsToo_tokens {p : Ty × Nat} {m : Nat} : CastsToo E p (.tokens, m) := by
  intro b v co _ _
  unfold tryCast
  split
  · exact ⟨_, rfl⟩
  · cases b <;> exact ⟨_, rfl⟩

theorem castsToo_ident {p : Ty × Nat} {m : Nat} : CastsToo E p (.ident, m) :=
  fun b _ _ h _ => ⟨b, tryCast_refl (coercionCost_strict (.inl rfl) h).1⟩

theorem castsToo_replicate {t t' : Ty} {m m' : Nat} (h : CastsToo E (t, m) (t', m')) (n : Nat) :
    All2 (CastsToo E) (List.replicate n (t, m)) (List.replicate n (t', m')) := by
  induction n with
  | zero => exact .nil
  | succ n ih => exact .cons h ih

theorem allOf_no_err {α : Type} {sel : VKind → Option α} {vs : List VKind} : (∃ l, allOf sel vs = .ok l) ∨ allOf sel vs = .panic := by
  induction vs with
  | nil => exact .inl ⟨[], rfl⟩
  | cons v vs ih =>
    simp only [allOf]
    split
    · rcases ih with ⟨l, h⟩ | h
      · rw [h]; exact .inl ⟨_, rfl⟩
      · rw [h]; exact .inr rfl
    · exact .inr rfl

theorem concatIdents_safe {i : Nat} {vs : List VKind} : (∃ b, (concatIdents i).impl E seed vs = .ok b) ∨ GivesUp ((concatIdents i).impl E seed vs) := by
  simp only [concatIdents, Res.bind_eq]
  rcases allOf_no_err (sel := VKind.asIdent) (vs := vs) with ⟨l, h⟩ | h
  · rw [h, Res.bind_ok]
    unfold newIdent
    split
    · exact .inl ⟨_, rfl⟩
    · exact .inr (.inr rfl)
  · rw [h]; exact .inr (.inr rfl)

theorem concatIdentTokens_safe {i : Nat} {vs : List VKind} :
    (∃ b, (concatIdentTokens i).impl E seed vs = .ok b) ∨ GivesUp ((concatIdentTokens i).impl E seed vs) := by
  cases vs with
  | nil => exact .inr (.inr rfl)
  | cons v vs =>
    simp only [concatIdentTokens, Res.bind_eq]
    rcases allOf_no_err (sel := VKind.asTokens) (vs := vs) with ⟨l, h⟩ | h
    · rw [h, Res.bind_ok]
      split
      · exact .inl ⟨_, rfl⟩
      · exact .inr (.inl ⟨_, rfl⟩)
    · rw [h]; exact .inr (.inr rfl)

variable {Γ : TyEnv}

/-- A call whose arguments have the same values has the same value, unless it gives up. -/
theorem call_safe (hE : PlainNames E) {i i' : Nat} {n : Str} {raw raw' : Option (Nat × Toks)} {args args' : List Expr}
    {os os' : List (Option (Nat × TExpr))} (hn : n ≠ S "raw") (hn' : n ≠ S "normalize") (hl : args.length = args'.length)
    (hos : All2 (Princ Γ) args os) (hos' : All2 (Princ Γ) args' os') (hm : All2 (Match E seed ρ) os os') (hs : All2 (Safely E seed ρ) os os')
    {o o' : Option (Nat × TExpr)} (ho : Princ Γ (.call i n args raw) o) (ho' : Princ Γ (.call i' n args' raw') o') : Safely E seed ρ o o' := by
  rintro c te c' te' rfl rfl b hb
  cases ho with
  | types _ _ h1 =>
    cases ho' with
    | types _ _ h2 =>
      cases hf : builtinFuncs n with
      | none => simp only [check, hf] at h1; cases h1
      | some fs =>
        have nr : ∀ {f : Func}, f ∈ fs → f ∈ builtins ∧ f.args ≠ [.raw] := by
          intro f hfm
          obtain ⟨h1, h2⟩ := (builtinFuncs_mem hf).1 hfm
          refine ⟨h1, fun ha => ?_⟩
          rcases builtins_raw_names f h1 ha with h | h
          · exact hn (h2 ▸ h)
          · exact hn' (h2 ▸ h)
        have hm' : All2 (Match E seed ρ) os' os := by
          clear hos hos' h1 h2 hl hs
          induction hm with
          | nil => exact .nil
          | cons h _ ih => exact .cons h.symm ih
        simp only [check, hf] at h1 h2
        split at h1
        · rename_i ch hbst
          cases h1
          split at h2
          · rename_i ch' hbst'
            cases h2
            have hch := choice_match (E := E) (seed := seed) (ρ := ρ) hos hos' hm hl hf hn hn' hbst hbst'
            obtain ⟨f, hfm, hu⟩ := List.mem_filterMap.1 (best_mem hbst)
            obtain ⟨f', hfm', hu'⟩ := List.mem_filterMap.1 (best_mem hbst')
            obtain ⟨ps, hps, hc⟩ := usable_costs hos (nr hfm).1 (nr hfm).2 hu
            obtain ⟨ps', hps', hc'⟩ := usable_costs hos' (nr hfm').1 (nr hfm').2 hu'
            have hef := usable_func hu
            have hef' := usable_func hu'
            simp only [TExpr.base] at hb ⊢
            obtain ⟨vs, hv, hi⟩ := Res.bind_eq_ok.1 hb
            rcases hch with h | ⟨h, h'⟩ | ⟨h, h'⟩
            · have e : ps = ps' := by
                rw [← hef, h, hef', hl, hps'] at hps
                cases hps; rfl
              subst e
              rcases costs_safe hm hs (castsToo_refl ps) hc hc' hv with ⟨vs', hv'⟩ | hg
              · cases costs_values hm hc hc' hv hv'
                rw [hv', Res.bind_ok, ← h]
                exact .inl hi
              · exact .inr (hg.bind _)
            · obtain ⟨m, hm1, rfl⟩ := paramsFor_ident_tokens (f := f') (by rw [← hef', h']; rfl) hps'
              obtain ⟨-, rfl⟩ := paramsFor_variadic (f := f) (t := .ident) (by rw [← hef, h]; rfl) hps
              rw [hl, hm1] at hc
              have hcs : All2 (CastsToo E) (List.replicate (m + 2) (Ty.ident, 2)) ((.ident, 1) :: List.replicate (m + 1) (.tokens, 2)) := by
                rw [List.replicate_succ]
                exact .cons castsToo_ident (castsToo_replicate castsToo_tokens _)
              rcases costs_safe hm hs hcs hc hc' hv with ⟨vs', hv'⟩ | hg
              · rw [hv', Res.bind_ok, h']
                rcases concatIdentTokens_safe (E := E) (seed := seed) (i := 22) (vs := vs') with ⟨b', hb'⟩ | hg
                · rw [h] at hi
                  cases concat_match hE hm hc hc' hv hv' hi hb'
                  exact .inl hb'
                · exact .inr hg
              · exact .inr (hg.bind _)
            · obtain ⟨m, hm1, rfl⟩ := paramsFor_ident_tokens (f := f) (by rw [← hef, h]; rfl) hps
              obtain ⟨-, rfl⟩ := paramsFor_variadic (f := f') (t := .ident) (by rw [← hef', h']; rfl) hps'
              rw [← hl, hm1] at hc'
              have hcs : All2 (CastsToo E) ((Ty.ident, 1) :: List.replicate (m + 1) (Ty.tokens, 2)) (List.replicate (m + 2) (.ident, 2)) := by
                rw [List.replicate_succ (n := m + 1)]
                exact .cons castsToo_ident (castsToo_replicate castsToo_ident _)
              rcases costs_safe hm hs hcs hc hc' hv with ⟨vs', hv'⟩ | hg
              · rw [hv', Res.bind_ok, h']
                rcases concatIdents_safe (E := E) (seed := seed) (i := 21) (vs := vs') with ⟨b', hb'⟩ | hg
                · rw [h] at hi
                  cases concat_match hE hm' hc' hc hv' hv hb' hi
                  exact .inl hb'
                · exact .inr hg
              · exact .inr (hg.bind _)
          · cases h2
        · cases h1

theorem princ_of_all2 {es : List Expr} {os os2 : List (Option (Nat × TExpr))} (h : All2 (Princ Γ) es os) (h2 : All2 (Princ Γ) es os2) : os = os2 := by
  induction h generalizing os2 with
  | nil => cases h2; rfl
  | cons h _ ih => cases h2 with | cons h' h2 => rw [princ_fun h h', ih h2]

mutual
/-- The value stays the same when a definition is written out, and when it is not, unless `concat` gives up. -/
theorem writesOut_safe (hE : PlainNames E) (hρ : Typed Γ ρ) {x : Str} {d : Expr} {cd : Nat} {ted : TExpr} {w : VKind}
    (hd : Princ Γ d (some (cd, ted))) (hsd : noStrHash Γ d) (hdv : ted.eval E seed ρ = .ok w) (hx : ρ x = some w) :
    ∀ {e e' : Expr}, WritesOut x d e e' → noStrHash Γ e → ∀ {o o'}, Princ Γ e o → Princ Γ e' o' → Safely E seed ρ o o' ∧ Safely E seed ρ o' o
  | _, _, .here i, _, o, o', ho, ho' => by
    cases princ_fun (princ_value i (.ident x)) ho
    cases princ_fun hd ho'
    rw [← as_target ted] at hdv
    obtain ⟨b, hb1, hb2⟩ := eval_as.1 hdv
    have hbt : b.ty = ted.target := by
      cases hd with
      | types _ _ h => exact base_ty hρ h hb1
    rw [tryCast_refl hbt] at hb2
    cases hb2
    have hl : leaf ρ (.ident x) = w := by simp [leaf, hx]
    constructor
    · rintro c te c' te' h h' b' hb'
      cases h; cases h'
      simp only [TExpr.base, hl] at hb'
      cases hb'
      exact .inl hb1
    · rintro c te c' te' h h' b' hb'
      cases h; cases h'
      rw [hb1] at hb'
      cases hb'
      exact .inl (by simp only [TExpr.base, hl])
  | _, _, .same e, _, o, o', ho, ho' => by
    cases princ_fun ho ho'
    exact ⟨.refl _, .refl _⟩
  | _, _, .call i n raw raw' (args := args) (args' := args') hn hn' h, hs, o, o', ho, ho' => by
    obtain ⟨hh, hargs⟩ := hs
    obtain ⟨hargs', os, os', hos, hos', hm⟩ := writesOutL_match hE hρ hd hsd hdv hx h hargs
    obtain ⟨h1, h2⟩ := writesOutL_safe hE hρ hd hsd hdv hx h hargs hos hos'
    have hm' : All2 (Match E seed ρ) os' os := by
      clear hos hos' ho ho' h1 h2
      induction hm with
      | nil => exact .nil
      | cons h _ ih => exact .cons h.symm ih
    exact ⟨call_safe hE hn hn' (writesOutL_length h) hos hos' hm h1 ho ho',
      call_safe hE hn hn' (writesOutL_length h).symm hos' hos hm' h2 ho' ho⟩
theorem writesOutL_safe (hE : PlainNames E) (hρ : Typed Γ ρ) {x : Str} {d : Expr} {cd : Nat} {ted : TExpr} {w : VKind}
    (hd : Princ Γ d (some (cd, ted))) (hsd : noStrHash Γ d) (hdv : ted.eval E seed ρ = .ok w) (hx : ρ x = some w) :
    ∀ {es es' : List Expr}, WritesOutL x d es es' → noStrHashL Γ es → ∀ {os os'}, All2 (Princ Γ) es os → All2 (Princ Γ) es' os' →
      All2 (Safely E seed ρ) os os' ∧ All2 (Safely E seed ρ) os' os
  | _, _, .nil, _, _, _, ho, ho' => by cases ho; cases ho'; exact ⟨.nil, .nil⟩
  | _, _, .cons h hs, hn, _, _, ho, ho' => by
    cases ho with
    | cons ho hos =>
      cases ho' with
      | cons ho' hos' =>
        obtain ⟨h1, h2⟩ := writesOut_safe hE hρ hd hsd hdv hx h hn.1 ho ho'
        obtain ⟨h3, h4⟩ := writesOutL_safe hE hρ hd hsd hdv hx hs hn.2 hos hos'
        exact ⟨.cons h1 h3, .cons h2 h4⟩
end

end

/-! ## Lists of definitions -/

/-- If one definition is replaced by another version of it, the values stay the same, unless `concat` gives up. -/
theorem outcome_safe {E : Ext} {env : Env} (henv : env.funcs = builtinFuncs) {pre post : List (Str × Expr)} {y : Str} {e e' : Expr} {vs0 : Subs}
    (h0 : outcome E env pre = .ok vs0) {o o' : Option (Nat × TExpr)} (ho : Princ (fun n => (vs0.get n).map (·.ty)) e o)
    (ho' : Princ (fun n => (vs0.get n).map (·.ty)) e' o') (hm : Match E env.seed vs0.get o o') (hs : Safely E env.seed vs0.get o o') {vs : Subs}
    (h : outcome E env (pre ++ (y, e) :: post) = .ok vs) :
    outcome E env (pre ++ (y, e') :: post) = .ok vs ∨ GivesUp (outcome E env (pre ++ (y, e') :: post)) := by
  rw [outcome_append henv h0] at h ⊢
  split at h
  · cases h
  split
  · exact .inr (.inr rfl)
  simp only [checkSpec, henv] at h ⊢
  cases ho with
  | fails hx =>
    obtain ⟨x, hx⟩ := hx none (by intro t h; cases h)
    rw [hx] at h
    cases h
  | types c te hck =>
    cases ho' with
    | fails => cases hm
    | types c' te' hck' =>
      cases hm with
      | types ht hb hb' hmm =>
        rw [hck] at h
        rw [hck']
        simp only at h ⊢
        by_cases hy : ((vs0.get y).map (·.ty)).isSome = true
        · rw [if_pos hy] at h; cases h
        · rw [if_neg hy] at h ⊢
          rw [← ht]
          cases hcs : checkSpec builtinFuncs post (extend (fun n => (vs0.get n).map (·.ty)) y te.target) with
          | error x => rw [hcs] at h; cases h
          | ok rest =>
            rw [hcs] at h
            simp only [evalSpecT, Res.bind_eq] at h ⊢
            obtain ⟨ws, hw, h⟩ := Res.bind_eq_ok.1 h
            obtain ⟨v, hv, hw⟩ := Res.bind_eq_ok.1 hw
            have hv2 := hv
            rw [← as_target te] at hv2
            obtain ⟨b, hb1, hb2⟩ := eval_as.1 hv2
            rcases hs _ _ _ _ rfl rfl b hb1 with h3 | h3
            · left
              have : te'.eval E env.seed vs0.get = .ok v := by
                rw [← as_target te', ← ht]
                exact eval_as.2 ⟨b, h3, hb2⟩
              rw [this, Res.bind_ok, hw, Res.bind_ok]
              exact h
            · exact .inr (((eval_givesUp h3).bind _).bind _)

/-- A definition may be written out in a later one, and the other way round: if there are values, they stay the same, unless `concat` gives up. -/
theorem outcome_writeOut_safe {E : Ext} (hE : PlainNames E) {env : Env} (henv : env.funcs = builtinFuncs) {d1 d2 d3 : List (Str × Expr)} {x y : Str}
    {d e e' : Expr} (hw : WritesOut x d e e') (hu : x ∉ used d) (hu2 : ∀ n ∈ d2.map (·.1), n ∉ used d)
    (hs : ∀ vs : Subs, outcome E env (d1 ++ (x, d) :: d2) = .ok vs →
      noStrHash (fun n => (vs.get n).map (·.ty)) d ∧ noStrHash (fun n => (vs.get n).map (·.ty)) e) :
    (∀ vs, outcome E env (d1 ++ (x, d) :: d2 ++ (y, e) :: d3) = .ok vs →
      outcome E env (d1 ++ (x, d) :: d2 ++ (y, e') :: d3) = .ok vs ∨ GivesUp (outcome E env (d1 ++ (x, d) :: d2 ++ (y, e') :: d3))) ∧
    ∀ vs, outcome E env (d1 ++ (x, d) :: d2 ++ (y, e') :: d3) = .ok vs →
      outcome E env (d1 ++ (x, d) :: d2 ++ (y, e) :: d3) = .ok vs ∨ GivesUp (outcome E env (d1 ++ (x, d) :: d2 ++ (y, e) :: d3)) := by
  have key : ∀ {vs0}, outcome E env (d1 ++ (x, d) :: d2) = .ok vs0 → ∃ o o', Princ (fun n => (Subs.get vs0 n).map (·.ty)) e o ∧
      Princ (fun n => (Subs.get vs0 n).map (·.ty)) e' o' ∧ Match E env.seed (Subs.get vs0) o o' ∧ Safely E env.seed (Subs.get vs0) o o' ∧
      Safely E env.seed (Subs.get vs0) o' o := by
    intro vs0 h0
    obtain ⟨hsd, hse⟩ := hs _ h0
    obtain ⟨cd, ted, w, hpd, hevd, hx⟩ := written_setup henv hu hu2 h0 hsd
    have hρ : Typed (fun n => (Subs.get vs0 n).map (·.ty)) (Subs.get vs0) := fun n => rfl
    obtain ⟨-, o, o', ho, ho', hm⟩ := writesOut_match hE hρ hpd hsd hevd hx hw hse
    exact ⟨o, o', ho, ho', hm, writesOut_safe hE hρ hpd hsd hevd hx hw hse ho ho'⟩
  constructor
  · intro vs h
    obtain ⟨vs0, -, h0, -⟩ := outcome_prefix h
    obtain ⟨o, o', ho, ho', hm, h1, -⟩ := key h0
    exact outcome_safe henv h0 ho ho' hm h1 h
  · intro vs h
    obtain ⟨vs0, -, h0, -⟩ := outcome_prefix h
    obtain ⟨o, o', ho, ho', hm, -, h2⟩ := key h0
    exact outcome_safe henv h0 ho' ho hm.symm h2 h

end Verif
