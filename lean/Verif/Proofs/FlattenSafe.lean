import Verif.Proofs.Flatten
import Verif.Proofs.WriteOutSafe
/-! # Flattening `concat`: what can go wrong -/

namespace Verif
open Spec

section
variable {E : Ext} {seed : Nat} {ρ : Str → Option VKind} {Γ : TyEnv}

/-- There is a value, or the expression gives up. -/
def Reached (E : Ext) (seed : Nat) (ρ : Str → Option VKind) (o : Option (Nat × TExpr)) : Prop :=
  ∀ c te, o = some (c, te) → (∃ b, te.base E seed ρ = .ok b) ∨ GivesUp (te.base E seed ρ)

theorem reached_of_base {os : List (Option (Nat × TExpr))} {ws : List VKind} (h : All2 (HasBase E seed ρ) os ws) : ∀ o ∈ os, Reached E seed ρ o := by
  induction h with
  | nil => intro o h; cases h
  | cons h _ ih =>
    intro o ho
    rcases List.mem_cons.1 ho with rfl | ho
    · rintro c te rfl
      obtain ⟨_, _, he, hb⟩ := h
      cases he
      exact .inl ⟨_, hb⟩
    · exact ih o ho

/-- Values can be cast to the types `concat` takes. -/
theorem concat_casts {b : VKind} {t : Ty} {co : Nat} (ht : t = .ident ∨ t = .litStr ∨ t = .litInt ∨ t = .tokens) (h : coercionCost b.ty t = some co) :
    ∃ v, tryCast E b t = .ok v := by
  have strict : (t = .ident ∨ t = .litStr ∨ t = .litInt) → ∃ v, tryCast E b t = .ok v := fun hs => ⟨b, tryCast_refl (coercionCost_strict hs h).1⟩
  rcases ht with ht | ht | ht | rfl
  · exact strict (.inl ht)
  · exact strict (.inr (.inl ht))
  · exact strict (.inr (.inr ht))
  · exact castsToo_tokens (E := E) (p := (b.ty, 0)) (m := 0) b b co h (tryCast_refl rfl)

theorem costs_reached (hρ : Typed Γ ρ) {es : List Expr} {ts : List Ty} {os : List (Option (Nat × TExpr))} (ho : Own Γ es os ts)
    (hr : ∀ o ∈ os, Reached E seed ρ o) : ∀ {ps : List (Ty × Nat)} {c tes}, (∀ p ∈ ps, p.1 = .ident ∨ p.1 = .litStr ∨ p.1 = .litInt ∨ p.1 = .tokens) →
      Costs os ps c tes → (∃ vs, TExpr.evalL E seed ρ tes = .ok vs) ∨ GivesUp (TExpr.evalL E seed ρ tes) := by
  induction ho with
  | nil => intro ps c tes _ h; cases h; exact .inl ⟨[], rfl⟩
  | cons hp _ ih =>
    intro ps c tes hps h
    cases h with
    | cons h1 h2 =>
      cases hp with
      | types _ _ hck =>
        simp only [TExpr.evalL, Res.bind_eq]
        rcases hr _ List.mem_cons_self _ _ rfl with ⟨b, hb⟩ | hg
        · obtain ⟨v, hv⟩ := concat_casts (E := E) (b := b) (hps _ List.mem_cons_self) (by rw [base_ty hρ hck hb]; exact h1)
          rw [eval_as.2 ⟨b, hb, hv⟩, Res.bind_ok]
          rcases ih (fun o ho => hr o (List.mem_cons_of_mem _ ho)) (fun p hp => hps p (List.mem_cons_of_mem _ hp)) h2 with ⟨vs, h4⟩ | h4
          · rw [h4]; exact .inl ⟨_, rfl⟩
          · exact .inr (h4.bind _)
        · exact .inr ((eval_as_givesUp hg).bind _)

/-- `concat` of arguments which have values has a value, or gives up. -/
theorem concat_reached (hρ : Typed Γ ρ) {es : List Expr} {ts : List Ty} {os : List (Option (Nat × TExpr))} (ho : Own Γ es os ts)
    (hr : ∀ o ∈ os, Reached E seed ρ o) {i : Nat} {raw : Option (Nat × Toks)} {o : Option (Nat × TExpr)}
    (h : Princ Γ (.call i (c! "concat") es raw) o) : Reached E seed ρ o := by
  rintro c te rfl
  cases h with
  | types _ _ h =>
    simp only [check] at h
    split at h
    · cases h
    · rename_i fs hfs
      split at h
      · rename_i ch hbest
        cases h
        obtain ⟨f, hfm, hu⟩ := List.mem_filterMap.1 (best_mem hbest)
        obtain ⟨hf, hn⟩ := (builtinFuncs_mem hfs).1 hfm
        have hfun := usable_func hu
        have hraw : f.args ≠ [.raw] := by
          rcases concat_funcs hf hn with rfl | rfl | rfl | rfl | rfl <;> simp [concatIdents, concatIdentTokens, concatLitStrs, concatLitInts, concatTokens]
        obtain ⟨ps, hps, hc⟩ := usable_costs ho.all hf hraw hu
        have hty : ∀ p ∈ ps, p.1 = .ident ∨ p.1 = .litStr ∨ p.1 = .litInt ∨ p.1 = .tokens := by
          intro p hp
          have := mem_paramTypes.2 (paramsFor_mem hps hp)
          rcases concat_funcs hf hn with rfl | rfl | rfl | rfl | rfl <;> revert this <;> generalize p.1 = t <;> revert t <;> decide
        simp only [TExpr.base]
        rcases costs_reached hρ ho hr hty hc with ⟨vs, hv⟩ | hg
        · rw [hv, Res.bind_ok, hfun]
          have all : ∀ {α β : Type} {sel : VKind → Option α} {g : List α → Res β}, (∀ l, (∃ b, g l = .ok b) ∨ GivesUp (g l)) →
              (∃ b, (allOf sel vs).bind g = .ok b) ∨ GivesUp ((allOf sel vs).bind g) := by
            intro α β sel g hg
            rcases allOf_no_err (sel := sel) (vs := vs) with ⟨l, h⟩ | h
            · rw [h, Res.bind_ok]; exact hg l
            · rw [h]; exact .inr (.inr rfl)
          rcases concat_funcs hf hn with rfl | rfl | rfl | rfl | rfl
          · exact concatIdents_safe
          · exact concatIdentTokens_safe
          · exact all fun l => .inl ⟨_, rfl⟩
          · refine all fun l => ?_
            show (∃ b, (newLitInt (concatStrs (l.map IntLit.digits))).bind (fun i => Res.ok (VKind.litInt i)) = .ok b) ∨
              GivesUp ((newLitInt (concatStrs (l.map IntLit.digits))).bind fun i => Res.ok (VKind.litInt i))
            unfold newLitInt
            split
            split
            · exact .inl ⟨_, rfl⟩
            · exact .inr (.inr rfl)
          · exact all fun l => .inl ⟨_, rfl⟩
        · exact .inr (hg.bind _)
      · cases h

mutual
/-- The value stays the same when calls are flattened, and when they are not, unless `concat` gives up. -/
theorem flattens_safe (hE : PlainNames E) (hρ : Typed Γ ρ) : ∀ {e e' : Expr}, Flattens Γ e e' → noStrHash Γ e → ∀ {o o'}, Princ Γ e o → Princ Γ e' o' →
    Safely E seed ρ o o' ∧ Safely E seed ρ o' o
  | _, _, .here i i' j raw raw' raw'' (as := as) (bs := bs) (cs := cs) (t := t) hin hout ht hb, hs, o, o', ho, ho' => by
    obtain ⟨-, _, _, hpo, hpf, hm⟩ := flattens_match (E := E) (seed := seed) hE hρ (.here i i' j raw raw' raw'' hin hout ht hb) hs
    cases princ_fun ho hpo
    cases princ_fun ho' hpf
    obtain ⟨tb, hb1, -, -⟩ := concat_hasType_inv hin
    obtain ⟨ts, ho1, -, -⟩ := concat_hasType_inv hout
    obtain ⟨ta, tc', rfl, ha, hc'⟩ := hasTypes_append.1 ho1
    cases hc' with
    | @cons _ u _ tc hu hc =>
      obtain ⟨oa, hoa⟩ := hasTypes_own ha
      obtain ⟨ob, hob⟩ := hasTypes_own hb1
      obtain ⟨oc, hoc⟩ := hasTypes_own hc
      obtain ⟨ci, tei, hpi, hti⟩ := hasType_princ hin
      have hoo := own_append hoa (.cons hpi hoc)
      have hof := own_append (own_append hoa hob) hoc
      have hki := hpi
      cases hki with
      | types _ _ hki =>
        constructor
        · rintro c te c' te' rfl rfl b hb1
          cases hm with
          | types h1 h2 h3 h4 =>
            have hko := hpo
            cases hko with
            | types _ _ hko =>
              obtain ⟨ws, hw, -⟩ := concat_base hE hρ hoo hko hb1
              obtain ⟨wa, wr, rfl, hwa, hwr⟩ := hasBase_append.1 hw
              cases hwr with
              | cons hv hwc =>
                obtain ⟨_, _, he, hv⟩ := hv
                cases he
                obtain ⟨wb, hwb, -⟩ := concat_base hE hρ hob hki hv
                rcases concat_reached hρ hof (reached_of_base (hasBase_append.2 ⟨_, _, rfl, hasBase_append.2 ⟨_, _, rfl, hwa, hwb⟩, hwc⟩)) hpf _ _ rfl with ⟨b', hb'⟩ | hg
                · cases h4 b b' hb1 hb'
                  exact .inl hb'
                · exact .inr hg
        · rintro c te c' te' rfl rfl b hb1
          cases hm with
          | types h1 h2 h3 h4 =>
            have hkf := hpf
            cases hkf with
            | types _ _ hkf =>
              obtain ⟨ws, hw, -⟩ := concat_base hE hρ hof hkf hb1
              obtain ⟨wab, wc, rfl, hwab, hwc⟩ := hasBase_append.1 hw
              obtain ⟨wa, wb, rfl, hwa, hwb⟩ := hasBase_append.1 hwab
              have hri := concat_reached hρ hob (reached_of_base hwb) hpi
              rcases concat_reached hρ hoo (fun o ho => by
                rcases List.mem_append.1 ho with ho | ho
                · exact reached_of_base hwa o ho
                · rcases List.mem_cons.1 ho with rfl | ho
                  · exact hri
                  · exact reached_of_base hwc o ho) hpo _ _ rfl with ⟨b', hb'⟩ | hg
              · cases h4 b' b hb' hb1
                exact .inl hb'
              · exact .inr hg
  | _, _, .same e, _, o, o', ho, ho' => by
    cases princ_fun ho ho'
    exact ⟨.refl _, .refl _⟩
  | _, _, .call i i' n raw raw' (args := args) (args' := args') hn hn' h, hs, o, o', ho, ho' => by
    obtain ⟨hh, hargs⟩ := hs
    obtain ⟨hargs', os, os', hos, hos', hm⟩ := flattensL_match (E := E) (seed := seed) hE hρ h hargs
    obtain ⟨h1, h2⟩ := flattensL_safe hE hρ h hargs hos hos'
    have hm' : All2 (Match E seed ρ) os' os := by
      clear hos hos' ho ho' h1 h2
      induction hm with
      | nil => exact .nil
      | cons h _ ih => exact .cons h.symm ih
    exact ⟨call_safe hE hn hn' (flattensL_length h) hos hos' hm h1 ho ho',
      call_safe hE hn hn' (flattensL_length h).symm hos' hos hm' h2 ho' ho⟩
theorem flattensL_safe (hE : PlainNames E) (hρ : Typed Γ ρ) : ∀ {es es' : List Expr}, FlattensL Γ es es' → noStrHashL Γ es →
    ∀ {os os'}, All2 (Princ Γ) es os → All2 (Princ Γ) es' os' → All2 (Safely E seed ρ) os os' ∧ All2 (Safely E seed ρ) os' os
  | _, _, .nil, _, _, _, ho, ho' => by cases ho; cases ho'; exact ⟨.nil, .nil⟩
  | _, _, .cons h hs, hn, _, _, ho, ho' => by
    cases ho with
    | cons ho hos =>
      cases ho' with
      | cons ho' hos' =>
        obtain ⟨h1, h2⟩ := flattens_safe hE hρ h hn.1 ho ho'
        obtain ⟨h3, h4⟩ := flattensL_safe hE hρ hs hn.2 hos hos'
        exact ⟨.cons h1 h3, .cons h2 h4⟩
end

end

/-- The value of a definition may be flattened, and the other way round: if there are values, they stay the same, unless `concat` gives up. -/
theorem outcome_flatten_safe {E : Ext} (hE : PlainNames E) {env : Env} (henv : env.funcs = builtinFuncs) {d1 d3 : List (Str × Expr)} {y : Str}
    {e e' : Expr} (hs : ∀ vs : Subs, outcome E env d1 = .ok vs →
      noStrHash (fun n => (vs.get n).map (·.ty)) e ∧ Flattens (fun n => (vs.get n).map (·.ty)) e e') :
    (∀ vs, outcome E env (d1 ++ (y, e) :: d3) = .ok vs →
      outcome E env (d1 ++ (y, e') :: d3) = .ok vs ∨ GivesUp (outcome E env (d1 ++ (y, e') :: d3))) ∧
    ∀ vs, outcome E env (d1 ++ (y, e') :: d3) = .ok vs →
      outcome E env (d1 ++ (y, e) :: d3) = .ok vs ∨ GivesUp (outcome E env (d1 ++ (y, e) :: d3)) := by
  have key : ∀ {vs0}, outcome E env d1 = .ok vs0 → ∃ o o', Princ (fun n => (Subs.get vs0 n).map (·.ty)) e o ∧
      Princ (fun n => (Subs.get vs0 n).map (·.ty)) e' o' ∧ Match E env.seed (Subs.get vs0) o o' ∧ Safely E env.seed (Subs.get vs0) o o' ∧
      Safely E env.seed (Subs.get vs0) o' o := by
    intro vs0 h0
    obtain ⟨hse, hf⟩ := hs _ h0
    have hρ : Typed (fun n => (Subs.get vs0 n).map (·.ty)) (Subs.get vs0) := fun n => rfl
    obtain ⟨-, o, o', ho, ho', hm⟩ := flattens_match (E := E) (seed := env.seed) hE hρ hf hse
    exact ⟨o, o', ho, ho', hm, flattens_safe hE hρ hf hse ho ho'⟩
  constructor
  · intro vs h
    obtain ⟨vs0, -, h0, -⟩ := outcome_prefix h
    obtain ⟨o, o', ho, ho', hm, h1, -⟩ := key h0
    exact outcome_safe henv h0 ho ho' hm h1 h
  · intro vs h
    obtain ⟨vs0, -, h0, -⟩ := outcome_prefix h
    obtain ⟨o, o', ho, ho', hm, -, h2⟩ := key h0
    exact outcome_safe henv h0 ho' ho hm.symm h2 h

end Verif
