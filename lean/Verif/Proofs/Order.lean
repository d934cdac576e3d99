import Verif.Proofs.Principal
import Verif.Spec.Order
/-!
# Which overload is chosen does not depend on the order of the declarations

No two overloads of a built-in function which can be used for the same arguments cost the same, are both variadic or both not, and have the same
number of parameters, if the arguments have principal types.
-/

namespace Verif
open Spec

mutual
/-- A typed expression without the numbers of the functions. -/
def Spec.TExpr.anyIds : TExpr → TExpr
  | .val k t => .val k t
  | .call f args t => .call (anyId f) (TExpr.anyIdsL args) t
def Spec.TExpr.anyIdsL : List TExpr → List TExpr
  | [] => []
  | te :: tes => te.anyIds :: TExpr.anyIdsL tes
end

@[simp] theorem Spec.TExpr.anyIds_target (te : TExpr) : te.anyIds.target = te.target := by cases te <;> rfl

mutual
theorem eval_anyIds (E : Ext) (seed : Nat) (ρ : Str → Option VKind) : (te : TExpr) → te.anyIds.eval E seed ρ = te.eval E seed ρ
  | .val k t => rfl
  | .call f args t => by
    have ih := evalL_anyIds E seed ρ args
    simp only [TExpr.anyIds, TExpr.eval, ih]
    rfl
theorem evalL_anyIds (E : Ext) (seed : Nat) (ρ : Str → Option VKind) : (tes : List TExpr) →
    TExpr.evalL E seed ρ (TExpr.anyIdsL tes) = TExpr.evalL E seed ρ tes
  | [] => rfl
  | te :: tes => by
    have ih := eval_anyIds E seed ρ te
    have ihs := evalL_anyIds E seed ρ tes
    simp only [TExpr.anyIdsL, TExpr.evalL, ih, ihs]
end

/-- A choice without the numbers of the functions. -/
def Spec.Choice.anyIds (ch : Choice) : Choice := ⟨ch.cost, anyId ch.func, TExpr.anyIdsL ch.args⟩

/-- The same for what typing arguments gives. -/
def anyIdsR (r : Nat × List TExpr) : Nat × List TExpr := (r.1, TExpr.anyIdsL r.2)

/-- Two choices which only the numbers of the functions tell apart. -/
def Tie (a b : Choice) : Prop :=
  a.cost = b.cost ∧ a.func.isVariadic = b.func.isVariadic ∧ a.func.args.length = b.func.args.length

theorem tie_anyIds {a b : Choice} (h : a.anyIds = b.anyIds) : Tie a b := by
  have h1 := congrArg Choice.cost h
  have h2 := congrArg (fun c => c.func.args) h
  simp only [Choice.anyIds, anyId] at h1 h2
  exact ⟨h1, by simp only [Func.isVariadic, h2], by rw [h2]⟩

theorem not_better_two {a b c d : Choice} (h1 : ¬ b.better a) (h2 : ¬ d.better c) (hbc : Tie b c) (hda : Tie d a) : Tie a b := by
  unfold Choice.better at h1 h2
  obtain ⟨e1, e2, e3⟩ := hbc
  obtain ⟨e4, e5, e6⟩ := hda
  unfold Tie
  rw [e1, e2, e3] at h1 ⊢
  rw [e4, e5, e6] at h2
  cases hv : a.func.isVariadic <;> cases hv' : c.func.isVariadic <;> simp only [hv, hv'] at h1 h2 ⊢ <;> simp at h1 h2 ⊢ <;> omega

/-- The best choices are alike, if no two choices tie. -/
theorem best_like {l l' : List Choice} (hp : (l.map Choice.anyIds).Perm (l'.map Choice.anyIds)) (hn : (l.map (·.func.id)).Nodup)
    (ht : ∀ a ∈ l, ∀ b ∈ l, Tie a b → a.func.id = b.func.id) : (best l).map Choice.anyIds = (best l').map Choice.anyIds := by
  cases hb : best l with
  | none =>
    rw [best_eq_none] at hb
    subst hb
    have : l' = [] := by simpa using hp.symm.eq_nil
    subst this
    rfl
  | some x =>
    cases hb' : best l' with
    | none =>
      rw [best_eq_none] at hb'
      subst hb'
      have : l = [] := by simpa using hp.eq_nil
      subst this
      cases hb
    | some y =>
      obtain ⟨y0, hy0, e0⟩ := List.mem_map.1 (hp.mem_iff.2 (List.mem_map_of_mem (best_mem hb')))
      obtain ⟨x0, hx0, e1⟩ := List.mem_map.1 (hp.mem_iff.1 (List.mem_map_of_mem (best_mem hb)))
      have hid := ht x (best_mem hb) y0 hy0
        (not_better_two (best_not_better hb y0 hy0) (best_not_better hb' x0 hx0) (tie_anyIds e0) (tie_anyIds e1))
      have : x = y0 := by
        have hx := best_mem hb
        clear hb hp e0 e1 ht hx0
        induction l with
        | nil => cases hx
        | cons a l ih =>
          rw [List.map_cons, List.nodup_cons] at hn
          rcases List.mem_cons.1 hx with rfl | hx1
          · rcases List.mem_cons.1 hy0 with rfl | hy1
            · rfl
            · exact absurd (List.mem_map.2 ⟨y0, hy1, hid.symm⟩) hn.1
          · rcases List.mem_cons.1 hy0 with rfl | hy1
            · exact absurd (List.mem_map.2 ⟨x, hx1, hid⟩) hn.1
            · exact ih hn.2 hy1 hx1
      rw [this, Option.map_some, Option.map_some, e0]

theorem usable_like {raw : Option (Nat × Toks)} {n : Nat} {expected : Option Ty} {A A' : List (Ty × Nat) → Option (Nat × List TExpr)}
    (hA : ∀ ps, (A ps).map anyIdsR = (A' ps).map anyIdsR) (f : Func) :
    (usable raw n expected A f).map Choice.anyIds = (usable raw n expected A' (anyId f)).map Choice.anyIds := by
  cases ho : outCost f.out expected with
  | none =>
    have ho' : outCost (anyId f).out expected = none := ho
    simp [usable, ho, ho']
  | some co =>
    have ho' : outCost (anyId f).out expected = some co := ho
    rw [usable_eq ho, usable_eq ho']
    have ha : (anyId f).args = f.args := rfl
    have hp : paramsFor (anyId f) n = paramsFor f n := rfl
    rw [ha, hp]
    cases (if f.args = [Ty.raw] then raw else none) with
    | some r => rfl
    | none =>
      cases paramsFor f n with
      | none => rfl
      | some ps =>
        have h := hA ps
        simp only [Option.bind_some]
        cases h1 : A ps with
        | none =>
          rw [h1] at h
          cases h2 : A' ps with
          | none => rfl
          | some r => rw [h2] at h; cases h
        | some r =>
          rw [h1] at h
          cases h2 : A' ps with
          | none => rw [h2] at h; cases h
          | some r' =>
            rw [h2] at h
            have h := Option.some.inj h
            have e1 := congrArg (·.1) h
            have e2 := congrArg (·.2) h
            simp only [anyIdsR] at e1 e2
            simp only [Option.bind_some, Option.map_some, Choice.anyIds, e1, e2]
            rfl

theorem usables_like {raw : Option (Nat × Toks)} {n : Nat} {expected : Option Ty} {A A' : List (Ty × Nat) → Option (Nat × List TExpr)}
    (hA : ∀ ps, (A ps).map anyIdsR = (A' ps).map anyIdsR) {fs fs' : List Func} (hp : (fs.map anyId).Perm (fs'.map anyId)) :
    ((fs.filterMap (usable raw n expected A)).map Choice.anyIds).Perm ((fs'.filterMap (usable raw n expected A')).map Choice.anyIds) := by
  have key : ∀ (B B' : List (Ty × Nat) → Option (Nat × List TExpr)), (∀ ps, (B ps).map anyIdsR = (B' ps).map anyIdsR) → ∀ gs : List Func,
      (gs.filterMap (usable raw n expected B)).map Choice.anyIds =
        (gs.map anyId).filterMap fun f => (usable raw n expected B' f).map Choice.anyIds := by
    intro B B' hB gs
    rw [List.map_filterMap, List.filterMap_map]
    congr 1
    funext f
    exact usable_like hB f
  rw [key A A' hA fs, key A' A' (fun _ => rfl) fs']
  exact hp.filterMap _

/-! ## No ties -/

/-- The functions have one parameter, not of the same type. -/
def Singles (f g : Func) : Prop :=
  ∃ s ∈ [Ty.ident, .litStr, .litInt, .path, .type, .expr, .tokens], ∃ t ∈ [Ty.ident, .litStr, .litInt, .path, .type, .expr, .tokens],
    s ≠ t ∧ f.args = [s] ∧ g.args = [t]

instance (f g : Func) : Decidable (Singles f g) := by unfold Singles; infer_instance

theorem builtins_no_ties : ∀ f ∈ builtins, ∀ g ∈ builtins, f.name = g.name → f.isVariadic = g.isVariadic → f.args.length = g.args.length →
    f.id = g.id ∨ Exclusive f g ∨ TokensRival f g ∨ TokensRival g f ∨ Singles f g := by
  decide +kernel

theorem coercionCost_target {s t t' : Ty} {c : Nat} (h : coercionCost s t = some c) (h' : coercionCost s t' = some c) (ht : t.isVariadic = false)
    (ht' : t'.isVariadic = false) : t = t' := by
  cases s <;> cases t <;> cases ht <;> cases t' <;> cases ht' <;> simp_all [coercionCost, coercionCostBasic] <;> omega

section
variable {Γ : TyEnv} {es : List Expr} {os : List (Option (Nat × TExpr))} {raw : Option (Nat × Toks)} {f g : Func} {x y : Choice}

theorem singles_usable (hes : All2 (Princ Γ) es os) (hf : f ∈ builtins) (hg : g ∈ builtins)
    (hx : usable raw es.length none (fun ps => checkArgs builtinFuncs Γ es ps) f = some x)
    (hy : usable raw es.length none (fun ps => checkArgs builtinFuncs Γ es ps) g = some y) (h : Singles f g) : x.cost ≠ y.cost := by
  obtain ⟨s, hs, t, ht, hst, hfa, hga⟩ := h
  have hs1 : s ≠ .raw ∧ s.isVariadic = false := by simp at hs; rcases hs with rfl | rfl | rfl | rfl | rfl | rfl | rfl <;> simp [Ty.isVariadic]
  have ht1 : t ≠ .raw ∧ t.isVariadic = false := by simp at ht; rcases ht with rfl | rfl | rfl | rfl | rfl | rfl | rfl <;> simp [Ty.isVariadic]
  have one : ∀ {f : Func} {s : Ty} {ps : List (Ty × Nat)}, f.args = [s] → s.isVariadic = false → paramsFor f es.length = some ps → ps = [(s, 1)] := by
    intro f s ps ha hv hp
    simp only [paramsFor, Func.variadicArg, ha, List.find?, hv, Option.bind_none, List.length_cons, List.length_nil] at hp
    split at hp
    · cases hp; rfl
    · cases hp
  obtain ⟨ps, hps, hcx⟩ := usable_costs hes hf (by rw [hfa]; simpa using hs1.1) hx
  obtain ⟨qs, hqs, hcy⟩ := usable_costs hes hg (by rw [hga]; simpa using ht1.1) hy
  cases one hfa hs1.2 hps
  cases one hga ht1.2 hqs
  generalize x.cost = a at *
  generalize y.cost = b at *
  generalize x.args = as at *
  generalize y.args = bs at *
  cases hcx with
  | @cons _ _ _ _ co _ _ _ _ h1 h2 =>
    cases hcy with
    | @cons _ _ _ _ co' _ _ _ _ h3 h4 =>
      cases h2
      cases h4
      intro he
      have : co = co' := by omega
      subst this
      exact hst (coercionCost_target h1 h3 hs1.2 ht1.2)

/-- Two usable overloads of a built-in function do not tie. -/
theorem no_ties_none (hes : All2 (Princ Γ) es os) (hf : f ∈ builtins) (hg : g ∈ builtins) (hfg : f.name = g.name)
    (hx : usable raw es.length none (fun ps => checkArgs builtinFuncs Γ es ps) f = some x)
    (hy : usable raw es.length none (fun ps => checkArgs builtinFuncs Γ es ps) g = some y) (hc : x.cost = y.cost)
    (hv : f.isVariadic = g.isVariadic) (hl : f.args.length = g.args.length) : f.id = g.id := by
  rcases builtins_no_ties f hf g hg hfg hv hl with h | h | h | h | h
  · exact h
  · exact absurd h (exclusive_usable hes hf hg hx hy)
  · have := tokens_dearer hes hf hg hx hy h; omega
  · have := tokens_dearer hes hg hf hy hx h; omega
  · exact absurd hc (singles_usable hes hf hg hx hy h)

theorem tokens_shift {s t : Ty} {co co' c c' : Nat} (h : coercionCost .tokens t = some co) (h' : coercionCost s t = some co') (hlt : c' + 4 < c) :
    co + c ≠ co' + c' := by
  rw [coercionCost_tokens] at h
  split at h
  · rename_i ht; subst ht
    rw [coercionCost_to_tokens] at h'
    split at h' <;> cases h <;> cases h' <;> omega
  · split at h
    · rename_i ht; subst ht
      rw [coercionCost_to_raw] at h'
      split at h' <;> cases h <;> cases h' <;> omega
    · cases h

/-- The same, where a type is expected. -/
theorem no_ties (hes : All2 (Princ Γ) es os) (hf : f ∈ builtins) (hg : g ∈ builtins) (hfg : f.name = g.name) {expected : Option Ty}
    (hh : expected = none ∨ (f.name = c! "hash" → ∀ a ∈ es, ∀ c te, check builtinFuncs Γ a none = .ok (c, te) → te.target ≠ .litStr))
    (hx : usable raw es.length expected (fun ps => checkArgs builtinFuncs Γ es ps) f = some x)
    (hy : usable raw es.length expected (fun ps => checkArgs builtinFuncs Γ es ps) g = some y) (hc : x.cost = y.cost)
    (hv : f.isVariadic = g.isVariadic) (hl : f.args.length = g.args.length) : f.id = g.id := by
  cases expected with
  | none => exact no_ties_none hes hf hg hfg hx hy hc hv hl
  | some t =>
    have hh := hh.resolve_left (fun h => nomatch h)
    rw [usable_expected] at hx hy
    obtain ⟨x0, hx0, hx⟩ := Option.bind_eq_some_iff.1 hx
    obtain ⟨y0, hy0, hy⟩ := Option.bind_eq_some_iff.1 hy
    obtain ⟨co, hco, rfl⟩ := Option.map_eq_some_iff.1 hx
    obtain ⟨co', hco', rfl⟩ := Option.map_eq_some_iff.1 hy
    rw [usable_func hx0] at hco
    rw [usable_func hy0] at hco'
    simp only at hc
    rcases usable_pairs hes hf hg hfg hh hx0 hy0 with h | ⟨h, hlt⟩ | ⟨h, hlt⟩
    · rw [h, hco'] at hco
      cases hco
      exact no_ties_none hes hf hg hfg hx0 hy0 (by omega) hv hl
    · rw [h] at hco
      exact absurd hc (tokens_shift hco hco' hlt)
    · rw [h] at hco'
      exact absurd hc.symm (tokens_shift hco' hco hlt)

end

/-! ## Typing -/

/-- The results of typing an expression are alike. -/
inductive LikeCheck : Except Err (Nat × TExpr) → Except Err (Nat × TExpr) → Prop
  | ok (c : Nat) {te te' : TExpr} (h : te.anyIds = te'.anyIds) : LikeCheck (.ok (c, te)) (.ok (c, te'))
  | error {x x' : Err} (h : SameError x x') : LikeCheck (.error x) (.error x')

theorem builtinFuncs_nodup {name : Str} {fs : List Func} (hf : builtinFuncs name = some fs) : (fs.map (·.id)).Nodup := by
  have h0 : (builtins.map (·.id)).Nodup := by decide
  unfold builtinFuncs at hf
  split at hf
  · cases hf
  · cases hf
    exact List.Nodup.sublist (List.Sublist.map _ List.filter_sublist) h0

section
variable {T : Str → Option (List Func)} (hT : SameFunctions builtinFuncs T) {Γ : TyEnv}
include hT

theorem check_call_like {args : List Expr} {os : List (Option (Nat × TExpr))} (hes : All2 (Princ Γ) args os)
    (hA : ∀ ps, (checkArgs builtinFuncs Γ args ps).map anyIdsR = (checkArgs T Γ args ps).map anyIdsR) {i : Nat} {name : Str}
    {raw : Option (Nat × Toks)} {expected : Option Ty}
    (hh : expected = none ∨ (name = c! "hash" → ∀ a ∈ args, ∀ c te, check builtinFuncs Γ a none = .ok (c, te) → te.target ≠ .litStr)) :
    LikeCheck (check builtinFuncs Γ (.call i name args raw) expected) (check T Γ (.call i name args raw) expected) := by
  simp only [check]
  rcases hT name with ⟨h1, h2⟩ | ⟨fs, fs', h1, h2, hp⟩
  · rw [h1, h2]
    exact .error (.inl rfl)
  · rw [h1, h2]
    have hb := best_like (usables_like (raw := raw) (n := args.length) (expected := expected) hA hp)
      (filterMap_ids_nodup (fun f ch h => usable_func h) (builtinFuncs_nodup h1)) (by
        intro a ha b hb' ht
        obtain ⟨f, hfm, hua⟩ := List.mem_filterMap.1 ha
        obtain ⟨g, hgm, hub⟩ := List.mem_filterMap.1 hb'
        obtain ⟨hf1, hf2⟩ := (builtinFuncs_mem h1).1 hfm
        obtain ⟨hg1, hg2⟩ := (builtinFuncs_mem h1).1 hgm
        obtain ⟨t1, t2, t3⟩ := ht
        rw [usable_func hua, usable_func hub] at t2 t3 ⊢
        exact no_ties hes hf1 hg1 (hf2.trans hg2.symm) (by rw [hf2]; exact hh) hua hub t1 t2 t3)
    simp only
    generalize best (fs.filterMap _) = o at hb ⊢
    generalize best (fs'.filterMap _) = o' at hb ⊢
    cases o with
    | none =>
      cases o' with
      | none => exact .error (.inr ⟨fs, fs', _, hp, rfl, rfl⟩)
      | some => cases hb
    | some ch =>
      cases o' with
      | none => cases hb
      | some ch' =>
        have hb := Option.some.inj hb
        obtain ⟨c, f, as⟩ := ch
        obtain ⟨c', f', as'⟩ := ch'
        simp only [Choice.anyIds, Choice.mk.injEq] at hb
        obtain ⟨rfl, h3, h4⟩ := hb
        have ho : f.out = f'.out := (congrArg Func.out h3 : (anyId f).out = (anyId f').out)
        simp only [ho]
        exact .ok _ (by simp only [TExpr.anyIds, h3, h4])

mutual
theorem check_like : (e : Expr) → noStrHash Γ e → ∀ expected, LikeCheck (check builtinFuncs Γ e expected) (check T Γ e expected)
  | .value i k, _, expected => by
    simp only [check]
    split
    · exact .ok _ rfl
    · exact .error (.inl rfl)
  | .call i name args raw, hh, expected => by
    obtain ⟨hh, hargs⟩ := hh
    have ih := checkArgs_like args hargs
    obtain ⟨os, hos⟩ := princL Γ args hargs
    exact check_call_like hT hos ih (.inr hh)
theorem checkArgs_like : (es : List Expr) → noStrHashL Γ es → ∀ ps,
    (checkArgs builtinFuncs Γ es ps).map anyIdsR = (checkArgs T Γ es ps).map anyIdsR
  | [], _, ps => by simp only [checkArgs]
  | e :: es, hh, [] => by simp only [checkArgs]
  | e :: es, hh, (t, m) :: ps => by
    have ih := check_like e hh.1 (some t)
    have ihs := checkArgs_like es hh.2 ps
    simp only [checkArgs]
    generalize check builtinFuncs Γ e (some t) = o at ih ⊢
    generalize check T Γ e (some t) = o' at ih ⊢
    cases ih with
    | error => rfl
    | ok c h =>
      simp only
      generalize checkArgs builtinFuncs Γ es ps = r at ihs ⊢
      generalize checkArgs T Γ es ps = r' at ihs ⊢
      cases r with
      | none =>
        cases r' with
        | none => rfl
        | some => cases ihs
      | some r =>
        cases r' with
        | none => cases ihs
        | some r' =>
          have ihs := Option.some.inj ihs
          have e1 := congrArg (·.1) ihs
          have e2 := congrArg (·.2) ihs
          simp only [anyIdsR] at e1 e2
          simp only [Option.map_some, anyIdsR, TExpr.anyIdsL, e1, e2, h]
end

omit hT in
theorem any_like {fs fs' : List Func} (hp : (fs.map anyId).Perm (fs'.map anyId)) (p : Func → Bool) (h : ∀ f, p (anyId f) = p f) : fs.any p = fs'.any p := by
  have key : ∀ gs : List Func, gs.any p = (gs.map anyId).any p := by
    intro gs
    rw [List.any_map]
    congr 1
    funext f
    exact (h f).symm
  rw [key, key fs', Bool.eq_iff_iff, List.any_eq_true, List.any_eq_true]
  simp only [hp.mem_iff]

theorem overflows_call_like {args : List Expr} (hA : ∀ ps c, overflowsArgs builtinFuncs Γ args ps c = overflowsArgs T Γ args ps c) {i : Nat}
    {name : Str} {raw : Option (Nat × Toks)} {expected : Option Ty} :
    overflows builtinFuncs Γ (.call i name args raw) expected = overflows T Γ (.call i name args raw) expected := by
  simp only [overflows]
  rcases hT name with ⟨h1, h2⟩ | ⟨fs, fs', h1, h2, hp⟩
  · rw [h1, h2]
  · rw [h1, h2]
    simp only [hA]
    exact any_like hp _ fun f => rfl

mutual
theorem overflows_like : (e : Expr) → noStrHash Γ e → ∀ expected, overflows builtinFuncs Γ e expected = overflows T Γ e expected
  | .value i k, _, expected => by simp only [overflows]
  | .call i name args raw, hh, expected => by
    have ih := overflowsArgs_like args hh.2
    exact overflows_call_like hT ih
theorem overflowsArgs_like : (es : List Expr) → noStrHashL Γ es → ∀ ps c, overflowsArgs builtinFuncs Γ es ps c = overflowsArgs T Γ es ps c
  | [], _, ps, c => by simp only [overflowsArgs]
  | e :: es, hh, [], c => by simp only [overflowsArgs]
  | e :: es, hh, (t, m) :: ps, c => by
    have ih := overflows_like e hh.1 (some t)
    have ihs := overflowsArgs_like es hh.2 ps
    have hc := check_like hT e hh.1 (some t)
    simp only [overflowsArgs, ih]
    generalize check builtinFuncs Γ e (some t) = o at hc ⊢
    generalize check T Γ e (some t) = o' at hc ⊢
    cases hc with
    | error => rfl
    | ok ce h => simp only [ihs]
end

/-! ## Definitions -/

theorem check_outermost {e : Expr} (hh : match e with | .value _ _ => True | .call _ _ args _ => noStrHashL Γ args) :
    LikeCheck (check builtinFuncs Γ e none) (check T Γ e none) ∧ overflows builtinFuncs Γ e none = overflows T Γ e none := by
  cases e with
  | value i k => exact ⟨check_like hT _ (by simp [noStrHash]) _, overflows_like hT _ (by simp [noStrHash]) _⟩
  | call i name args raw =>
    obtain ⟨os, hos⟩ := princL Γ args hh
    exact ⟨check_call_like hT hos (checkArgs_like hT args hh) (.inl rfl), overflows_call_like hT (overflowsArgs_like hT args hh)⟩

/-- The same for definitions: either both are typed alike or both fail. -/
theorem checkSpec_like : ∀ {ds : List (Str × Expr)} {Γ : TyEnv}, hashesOutermost ds Γ →
    overflowsSpec builtinFuncs ds Γ = overflowsSpec T ds Γ ∧
    ((∃ tes tes', checkSpec builtinFuncs ds Γ = .ok tes ∧ checkSpec T ds Γ = .ok tes' ∧
        tes.map (fun d => (d.1, d.2.anyIds)) = tes'.map (fun d => (d.1, d.2.anyIds))) ∨
      ∃ x x', checkSpec builtinFuncs ds Γ = .error x ∧ checkSpec T ds Γ = .error x' ∧ SameError x x')
  | [], Γ, _ => ⟨rfl, .inl ⟨[], [], rfl, rfl, rfl⟩⟩
  | (n, e) :: ds, Γ, hh => by
    obtain ⟨h1, h2⟩ := hh
    obtain ⟨hc, ho⟩ := check_outermost hT h1
    have ih := fun c te h => checkSpec_like (ds := ds) (h2 c te h)
    simp only [overflowsSpec, checkSpec, ho]
    generalize hck : check builtinFuncs Γ e none = o at hc ih ⊢
    generalize check T Γ e none = o' at hc ⊢
    cases hc with
    | error h => exact ⟨rfl, .inr ⟨_, _, rfl, rfl, h⟩⟩
    | @ok c te te' h =>
      obtain ⟨i1, i2⟩ := ih c te rfl
      have ht : te.target = te'.target := by rw [← TExpr.anyIds_target te, h, TExpr.anyIds_target]
      simp only [ht] at i1 i2 ⊢
      refine ⟨by rw [i1], ?_⟩
      split
      · exact .inr ⟨_, _, rfl, rfl, .inl rfl⟩
      · rcases i2 with ⟨tes, tes', j1, j2, j3⟩ | ⟨x, x', j1, j2, j3⟩
        · rw [j1, j2]
          exact .inl ⟨_, _, rfl, rfl, by simp only [List.map_cons, j3, h]⟩
        · rw [j1, j2]
          exact .inr ⟨_, _, rfl, rfl, j3⟩

omit hT in
theorem evalSpecT_like (E : Ext) (seed : Nat) : ∀ {tes tes' : List (Str × TExpr)} {ρ : Str → Option VKind},
    tes.map (fun d => (d.1, d.2.anyIds)) = tes'.map (fun d => (d.1, d.2.anyIds)) → evalSpecT E seed tes ρ = evalSpecT E seed tes' ρ
  | [], [], _, _ => rfl
  | [], _ :: _, _, h => by cases h
  | _ :: _, [], _, h => by cases h
  | (n, te) :: tes, (n', te') :: tes', ρ, h => by
    simp only [List.map_cons, List.cons.injEq, Prod.mk.injEq] at h
    obtain ⟨⟨rfl, h1⟩, h2⟩ := h
    have e : te.eval E seed ρ = te'.eval E seed ρ := by rw [← eval_anyIds, h1, eval_anyIds]
    have ih := fun v => evalSpecT_like E seed (ρ := extend ρ n v) h2
    simp only [evalSpecT, e, ih]

/-- The values, up to the list in the error for a call which fits no overload. -/
theorem outcome_like {E : Ext} {seed : Nat} {ds : List (Str × Expr)} (hh : hashesOutermost ds fun _ => none) :
    outcome E ⟨seed, builtinFuncs⟩ ds = outcome E ⟨seed, T⟩ ds ∨
    ∃ x x', SameError x x' ∧ outcome E ⟨seed, builtinFuncs⟩ ds = .err x ∧ outcome E ⟨seed, T⟩ ds = .err x' := by
  obtain ⟨h1, h2⟩ := checkSpec_like hT hh
  simp only [outcome, h1, denote]
  split
  · exact .inl rfl
  · rcases h2 with ⟨tes, tes', j1, j2, j3⟩ | ⟨x, x', j1, j2, j3⟩
    · rw [j1, j2]
      exact .inl (evalSpecT_like E seed j3)
    · rw [j1, j2]
      exact .inr ⟨x, x', j3, rfl, rfl⟩

end

end Verif
