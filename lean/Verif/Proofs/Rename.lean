import Verif.Proofs.Independence
import Verif.Proofs.VisitorLocal
import Verif.Spec.Rename
/-! # Renaming an alias -/

namespace Verif
open Spec

theorem builtins_no_raw : ∀ f ∈ builtins, f.args = [.raw] → f.name = S "raw" ∨ f.name = S "normalize" := by
  have h : (builtins.map fun f => (f.args, f.name)).all (fun p => p.1 != [.raw] || p.2 == S "raw" || p.2 == S "normalize") = true := by
    decide
  intro f hf ha
  have := List.all_eq_true.1 h (f.args, f.name) (List.mem_map.2 ⟨f, hf, rfl⟩)
  simpa [ha] using this

theorem no_raw {name : Str} {fs : List Func} (h : builtinFuncs name = some fs) (hn : name ≠ S "raw" ∧ name ≠ S "normalize") :
    ∀ f ∈ fs, f.args ≠ [.raw] := by
  intro f hf ha
  obtain ⟨h1, h2⟩ := (builtinFuncs_mem h).1 hf
  rcases builtins_no_raw f h1 ha with h3 | h3
  · exact hn.1 (h2 ▸ h3)
  · exact hn.2 (h2 ▸ h3)

/-- The second map is the first one with `x` called `y`. -/
structure Renamed {α : Type} (x y : Str) (Γ Γ' : Str → Option α) : Prop where
  here : Γ' y = Γ x
  other : ∀ n, n ≠ x → n ≠ y → Γ' n = Γ n

theorem Renamed.extend {α : Type} {x y : Str} {Γ Γ' : Str → Option α} (h : Renamed x y Γ Γ') {n : Str} (hx : n ≠ x) (hy : n ≠ y) (a : α) :
    Renamed x y (extend Γ n a) (extend Γ' n a) := by
  refine ⟨?_, fun m h1 h2 => ?_⟩
  · simp only [Spec.extend, if_neg (Ne.symm hx), if_neg (Ne.symm hy), h.here]
  · simp only [Spec.extend, h.other m h1 h2]

theorem renamed_extend {α : Type} {x y : Str} (Γ : Str → Option α) (a : α) : Renamed x y (extend Γ x a) (extend Γ y a) := by
  refine ⟨by simp [Spec.extend], fun n h1 h2 => by simp [Spec.extend, h1, h2]⟩

theorem natural_ren {x y : Str} {Γ Γ' : TyEnv} (hr : Renamed x y Γ Γ') {k : VKind} (hy : y ∉ leafName k) :
    natural Γ' (inlineLeaf x (.ident y) k) = natural Γ k := by
  cases k <;> try rfl
  rename_i n
  simp only [leafName, List.mem_singleton] at hy
  simp only [inlineLeaf]
  split
  · rename_i h; subst h; simp only [natural, hr.here]
  · rename_i h; simp only [natural, hr.other n h (Ne.symm hy)]

theorem filterMap_map_mem {α β : Type} {u u' : α → Option β} {g : β → β} (l : List α) (h : ∀ a ∈ l, u' a = (u a).map g) :
    l.filterMap u' = (l.filterMap u).map g := by
  induction l with
  | nil => rfl
  | cons a l ih =>
    rw [List.filterMap_cons, List.filterMap_cons, h a (by simp), ih (fun b hb => h b (by simp [hb]))]
    cases u a <;> simp

theorem renExprs_length {x y : Str} : ∀ {es es' : List Expr}, RenExprs x y es es' → es'.length = es.length
  | _, _, .nil => rfl
  | _, _, .cons _ hs => by simp [renExprs_length hs]

theorem check_verbatim {Γ Γ' : TyEnv} {x y : Str} {id id' : Nat} {name : Str} {args args' : List Expr} {rid rid' : Nat} {raw : Toks}
    (h : name = S "raw" ∨ name = S "normalize") (expected : Option Ty) :
    blurE (check builtinFuncs Γ' (.call id' name args' (some (rid', raw))) expected) =
      blurE ((check builtinFuncs Γ (.call id name args (some (rid, raw))) expected).map (fun p => (p.1, p.2.replaceAlias x (.ident y)))) := by
  have key : ∀ f : Func, f.args = [.raw] → builtinFuncs name = some [f] →
      blurE (check builtinFuncs Γ' (.call id' name args' (some (rid', raw))) expected) =
      blurE ((check builtinFuncs Γ (.call id name args (some (rid, raw))) expected).map (fun p => (p.1, p.2.replaceAlias x (.ident y)))) := by
    intro f hf hb
    simp only [check, hb, List.filterMap_cons, List.filterMap_nil, usable, hf, if_true]
    cases outCost f.out expected with
    | none => simp only [Option.bind_eq_bind, Option.bind_none, best, Except.map]; exact congrArg Except.error (blur_refusal _ _ _)
    | some co => simp [best, Except.map, TExpr.replaceAlias, TExpr.replaceAliasL, inlineLeaf]
  rcases h with rfl | rfl
  · exact key _ rfl builtin_raw
  · exact key _ rfl builtin_normalize

theorem overflows_verbatim {Γ : TyEnv} {id : Nat} {name : Str} {args : List Expr} {raw : Nat × Toks}
    (h : name = S "raw" ∨ name = S "normalize") (expected : Option Ty) :
    overflows builtinFuncs Γ (.call id name args (some raw)) expected = false := by
  rcases h with rfl | rfl
  · simp [overflows, builtin_raw, rawFunc]
  · simp [overflows, builtin_normalize, normalizeFunc]

theorem usable_raw {raw raw' : Option (Nat × Toks)} {n : Nat} {expected : Option Ty} {args : List (Ty × Nat) → Option (Nat × List TExpr)}
    {f : Func} (h : f.args ≠ [.raw]) : usable raw' n expected args f = usable raw n expected args f := by
  simp only [usable, if_neg h]

theorem check_ren_cases {x y : Str} {Γ Γ' : TyEnv} {e e' : Expr} {expected : Option Ty}
    (h : blurE (check builtinFuncs Γ' e' expected) =
      blurE ((check builtinFuncs Γ e expected).map (fun p => (p.1, p.2.replaceAlias x (.ident y))))) :
    (∃ c te, check builtinFuncs Γ e expected = .ok (c, te) ∧ check builtinFuncs Γ' e' expected = .ok (c, te.replaceAlias x (.ident y))) ∨
    ∃ z z', check builtinFuncs Γ e expected = .error z ∧ check builtinFuncs Γ' e' expected = .error z' ∧ blur z = blur z' := by
  cases hc : check builtinFuncs Γ e expected with
  | error z =>
    rw [hc] at h
    rcases blurE_cases h with ⟨p, -, h2⟩ | ⟨z', w, h1, h2, h3⟩
    · cases h2
    · cases h2; exact .inr ⟨_, _, rfl, h1, h3.symm⟩
  | ok p =>
    rw [hc] at h
    rcases blurE_cases h with ⟨q, h1, h2⟩ | ⟨z', w, -, h2, -⟩
    · cases h2; exact .inl ⟨_, _, rfl, h1⟩
    · cases h2

mutual
theorem check_ren {x y : Str} {Γ Γ' : TyEnv} (hr : Renamed x y Γ Γ') {e e' : Expr} (h : RenExpr x y e e') (hy : y ∉ used e)
    (expected : Option Ty) : blurE (check builtinFuncs Γ' e' expected) =
      blurE ((check builtinFuncs Γ e expected).map (fun p => (p.1, p.2.replaceAlias x (.ident y)))) := by
  match h with
  | .value id id' k =>
    simp only [check, natural_ren hr (by simpa [used] using hy)]
    cases coercionCost (natural Γ k) (expected.getD (natural Γ k)) <;> simp [Except.map, TExpr.replaceAlias, blurE, blur]
  | .verbatim id id' name args args' rid rid' raw h => exact check_verbatim h expected
  | .call id id' name args args' raw raw' h ha =>
    simp only [check, renExprs_length ha]
    cases hb : builtinFuncs name with
    | none => simp [Except.map]
    | some fs =>
      simp only
      rw [filterMap_map_mem (u := usable raw args.length expected (fun ps => checkArgs builtinFuncs Γ args ps))
        (g := fun c => ⟨c.cost, c.func, TExpr.replaceAliasL x (.ident y) c.args⟩) fs (fun f hf => by
          rw [usable_raw (raw := raw) (no_raw hb h f hf)]
          exact usable_map (by intro ts; simp [TExpr.replaceAliasL, TExpr.replaceAlias, inlineLeaf])
            (fun ps => checkArgs_ren hr ha (by simpa [used] using hy) ps)), best_map (by simp)]
      cases best _ with
      | none => exact congrArg Except.error (blur_refusal fs _ _)
      | some ch => simp [Except.map, TExpr.replaceAlias]
theorem checkArgs_ren {x y : Str} {Γ Γ' : TyEnv} (hr : Renamed x y Γ Γ') {es es' : List Expr} (h : RenExprs x y es es') (hy : y ∉ usedL es)
    (ps : List (Ty × Nat)) : checkArgs builtinFuncs Γ' es' ps =
      (checkArgs builtinFuncs Γ es ps).map (fun r => (r.1, TExpr.replaceAliasL x (.ident y) r.2)) := by
  match h, ps with
  | .nil, _ => simp [checkArgs, TExpr.replaceAliasL]
  | .cons _ _, [] => simp [checkArgs, TExpr.replaceAliasL]
  | .cons h hs, (t, m) :: ps =>
    simp only [usedL, List.mem_append, not_or] at hy
    simp only [checkArgs, checkArgs_ren hr hs hy.2]
    rename_i e e' es es'
    rcases check_ren_cases (check_ren hr h hy.1 (some t)) with ⟨c, te, h1, h2⟩ | ⟨z, z', h1, h2, -⟩
    · rw [h1, h2]
      cases checkArgs builtinFuncs Γ es ps <;> simp [TExpr.replaceAliasL]
    · rw [h1, h2]; rfl
end

mutual
theorem overflows_ren {x y : Str} {Γ Γ' : TyEnv} (hr : Renamed x y Γ Γ') {e e' : Expr} (h : RenExpr x y e e') (hy : y ∉ used e)
    (expected : Option Ty) : overflows builtinFuncs Γ' e' expected = overflows builtinFuncs Γ e expected := by
  match h with
  | .value id id' k => simp only [overflows]
  | .verbatim id id' name args args' rid rid' raw h => rw [overflows_verbatim h, overflows_verbatim h]
  | .call id id' name args args' raw raw' h ha =>
    simp only [overflows, renExprs_length ha]
    cases hb : builtinFuncs name with
    | none => rfl
    | some fs =>
      simp only
      have : ∀ ps c, overflowsArgs builtinFuncs Γ' args' ps c = overflowsArgs builtinFuncs Γ args ps c :=
        fun ps c => overflowsArgs_ren hr ha (by simpa [used] using hy) ps c
      simp only [this]
      have hnr := no_raw hb h
      clear hb
      induction fs with
      | nil => rfl
      | cons f fs ih =>
        simp only [List.any_cons, if_neg (hnr f (by simp)), ih (fun g hg => hnr g (by simp [hg]))]
theorem overflowsArgs_ren {x y : Str} {Γ Γ' : TyEnv} (hr : Renamed x y Γ Γ') {es es' : List Expr} (h : RenExprs x y es es')
    (hy : y ∉ usedL es) (ps : List (Ty × Nat)) (c : Nat) :
    overflowsArgs builtinFuncs Γ' es' ps c = overflowsArgs builtinFuncs Γ es ps c := by
  match h, ps with
  | .nil, _ => simp only [overflowsArgs]
  | .cons _ _, [] => simp only [overflowsArgs]
  | .cons h hs, (t, m) :: ps =>
    simp only [usedL, List.mem_append, not_or] at hy
    simp only [overflowsArgs, overflows_ren hr h hy.1]
    rename_i e e' es es'
    rcases check_ren_cases (check_ren hr h hy.1 (some t)) with ⟨c, te, h1, h2⟩ | ⟨z, z', h1, h2, -⟩
    · rw [h1, h2]
      simp only [overflowsArgs_ren hr hs hy.2]
    · rw [h1, h2]
end

theorem leaf_ren {x y : Str} {ρ ρ' : Str → Option VKind} (hr : Renamed x y ρ ρ') {v : VKind} (hx : ρ x = some v) {k : VKind}
    (hy : y ∉ leafName k) : leaf ρ' (inlineLeaf x (.ident y) k) = leaf ρ k := by
  cases k <;> try rfl
  rename_i n
  simp only [leafName, List.mem_singleton] at hy
  simp only [inlineLeaf]
  split
  · rename_i h; subst h; simp only [leaf, hr.here, hx, Option.getD_some]
  · rename_i h; simp only [leaf, hr.other n h (Ne.symm hy)]

mutual
theorem eval_ren {E : Ext} {seed : Nat} {x y : Str} {ρ ρ' : Str → Option VKind} (hr : Renamed x y ρ ρ') {v : VKind} (hx : ρ x = some v) :
    ∀ (te : TExpr), y ∉ te.used → (te.replaceAlias x (.ident y)).eval E seed ρ' = te.eval E seed ρ
  | .val k t, hy => by rw [TExpr.replaceAlias, eval_val, eval_val, leaf_ren hr hx (by simpa [TExpr.used] using hy)]
  | .call f args t, hy => by simp only [TExpr.replaceAlias, TExpr.eval, evalL_ren hr hx args (by simpa [TExpr.used] using hy)]
theorem evalL_ren {E : Ext} {seed : Nat} {x y : Str} {ρ ρ' : Str → Option VKind} (hr : Renamed x y ρ ρ') {v : VKind} (hx : ρ x = some v) :
    ∀ (tes : List TExpr), y ∉ TExpr.usedL tes →
      TExpr.evalL E seed ρ' (TExpr.replaceAliasL x (.ident y) tes) = TExpr.evalL E seed ρ tes
  | [], _ => by simp [TExpr.replaceAliasL, TExpr.evalL]
  | te :: tes, hy => by
    simp only [TExpr.usedL, List.mem_append, not_or] at hy
    simp only [TExpr.replaceAliasL, TExpr.evalL, eval_ren hr hx te hy.1, evalL_ren hr hx tes hy.2]
end

theorem checkSpec_ren {x y : Str} : ∀ {items items' : List (Str × Expr)} {Γ Γ' : TyEnv}, Renamed x y Γ Γ' → RenItems x y items items' →
    x ∉ items.map (·.1) → y ∉ items.map (·.1) → y ∉ usedIn items →
    blurE (checkSpec builtinFuncs items' Γ') =
      blurE ((checkSpec builtinFuncs items Γ).map (·.map fun p => (p.1, p.2.replaceAlias x (.ident y)))) ∧
    overflowsSpec builtinFuncs items' Γ' = overflowsSpec builtinFuncs items Γ
  | _, _, Γ, Γ', _, .nil, _, _, _ => by simp [checkSpec, overflowsSpec, Except.map]
  | _, _, Γ, Γ', hr, .cons (n := n) (e := e) h hs, hx, hy, hu => by
    rename_i e' items items'
    simp only [List.map_cons, List.mem_cons, not_or] at hx hy
    simp only [usedIn, List.flatMap_cons, List.mem_append, not_or] at hu
    simp only [checkSpec, overflowsSpec, overflows_ren hr h hu.1, hr.other n (Ne.symm hx.1) (Ne.symm hy.1)]
    rcases check_ren_cases (check_ren hr h hu.1 none) with ⟨c, te, h1, h2⟩ | ⟨z, z', h1, h2, h3⟩
    · rw [h1, h2]
      simp only [TExpr.replaceAlias_target]
      obtain ⟨h1, h2⟩ := checkSpec_ren (hr.extend (Ne.symm hx.1) (Ne.symm hy.1) te.target) hs hx.2 hy.2 hu.2
      simp only [h2]
      split
      · simp [Except.map]
      · cases hc : checkSpec builtinFuncs items (extend Γ n te.target) with
        | error z =>
          rw [hc] at h1
          rcases blurE_cases h1 with ⟨q, -, h4⟩ | ⟨z', w, h3, h4, h5⟩
          · cases h4
          · cases h4; rw [h3]; exact ⟨congrArg Except.error h5, trivial⟩
        | ok tes =>
          rw [hc] at h1
          rcases blurE_cases h1 with ⟨q, h3, h4⟩ | ⟨z', w, -, h4, -⟩
          · cases h4; rw [h3]; exact ⟨rfl, trivial⟩
          · cases h4
    · rw [h1, h2]; exact ⟨congrArg Except.error h3.symm, rfl⟩

theorem evalSpecT_ren {E : Ext} {seed : Nat} {x y : Str} : ∀ (tes : List (Str × TExpr)) {ρ ρ' : Str → Option VKind}, Renamed x y ρ ρ' →
    ∀ {v : VKind}, ρ x = some v → x ∉ tes.map (·.1) → y ∉ tes.map (·.1) → (∀ te ∈ tes, y ∉ te.2.used) →
    evalSpecT E seed (tes.map fun p => (p.1, p.2.replaceAlias x (.ident y))) ρ' = evalSpecT E seed tes ρ
  | [], _, _, _, _, _, _, _, _ => rfl
  | (n, te) :: tes, ρ, ρ', hr, v, hv, hx, hy, hu => by
    simp only [List.map_cons, List.mem_cons, not_or] at hx hy
    simp only [List.map_cons, evalSpecT, Res.bind_eq, eval_ren hr hv te (hu (n, te) (by simp))]
    cases te.eval E seed ρ with
    | err e => rfl
    | panic => rfl
    | ok w =>
      simp only [Res.bind_ok]
      rw [evalSpecT_ren tes (hr.extend (Ne.symm hx.1) (Ne.symm hy.1) w) (v := v) (by simp [extend, hx.1, hv]) hx.2 hy.2
        (fun te h => hu te (by simp [h]))]

theorem tyEnv_none {n : Str} : ∀ {tes : List (Str × TExpr)} {Γ : TyEnv}, n ∉ tes.map (·.1) → tyEnv Γ tes n = Γ n
  | [], _, _ => rfl
  | (m, te) :: tes, Γ, h => by
    simp only [List.map_cons, List.mem_cons, not_or] at h
    rw [tyEnv, tyEnv_none h.2]
    simp [extend, h.1]

/-- The value of an alias, under its new name. -/
def renKey (x y : Str) (p : Str × VKind) : Str × VKind := (if p.1 = x then y else p.1, p.2)

theorem map_renKey {x y : Str} {vs : Subs} (h : x ∉ vs.map (·.1)) : vs.map (renKey x y) = vs := by
  induction vs with
  | nil => rfl
  | cons p vs ih =>
    simp only [List.map_cons, List.mem_cons, not_or] at h
    simp only [List.map_cons, ih h.2, renKey, if_neg (Ne.symm h.1)]

/-- Definitions in which an alias is renamed have the same values, panics and (apart from the quotation of the definition)
errors. -/
theorem outcome_ren {E : Ext} {env : Env} (henv : env.funcs = builtinFuncs) {x y : Str} {defs defs' : List (Str × Expr)}
    (h : RenDefs x y defs defs') : blurR (outcome E env defs') = blurR ((outcome E env defs).map (·.map (renKey x y))) := by
  obtain ⟨pre, e, h, hx, hy, hu⟩ := h
  rename_i post post'
  unfold outcome denote
  rw [henv, overflowsSpec_append, overflowsSpec_append, checkSpec_append, checkSpec_append]
  cases hc : checkSpec builtinFuncs pre (fun _ => none) with
  | error x =>
    simp only [Bool.or_false]
    split <;> rfl
  | ok tes =>
    have hn := (checkSpec_names hc).1
    have hgx : tyEnv (fun _ => none) tes x = none := tyEnv_none (by rw [hn]; exact hx.1)
    have hgy : tyEnv (fun _ => none) tes y = none := tyEnv_none (by rw [hn]; exact hy.1)
    simp only [overflowsSpec, checkSpec, hgx, hgy, Option.isSome_none, Bool.not_false, Bool.true_and, Bool.false_eq_true, if_false]
    cases hce : check builtinFuncs (tyEnv (fun _ => none) tes) e none with
    | error z =>
      simp only [Bool.or_false]
      split <;> rfl
    | ok p =>
      obtain ⟨c, te⟩ := p
      obtain ⟨h1, h2⟩ := checkSpec_ren (renamed_extend (x := x) (y := y) (tyEnv (fun _ => none) tes) te.target) h hx.2 hy.2 hu
      simp only [h2]
      split
      · rfl
      · cases hcp : checkSpec builtinFuncs post (extend (tyEnv (fun _ => none) tes) x te.target) with
        | error z =>
          rw [hcp] at h1
          rcases blurE_cases h1 with ⟨q, -, h4⟩ | ⟨z', w, h3, h4, h5⟩
          · cases h4
          · cases h4; rw [h3]; exact congrArg Res.err h5
        | ok tes' =>
          rw [hcp] at h1
          rcases blurE_cases h1 with ⟨q, h3, h4⟩ | ⟨z', w, -, h4, -⟩
          case inr => cases h4
          cases h4
          rw [h3]
          simp only
          have hn' := (checkSpec_names hcp).1
          rw [evalSpecT_append, evalSpecT_append]
          cases hev : evalSpecT E env.seed tes (fun _ => none) with
          | err z => rfl
          | panic => rfl
          | ok vs =>
            have hvn := evalSpecT_names hev
            simp only [Res.bind_ok, evalSpecT, Res.bind_eq]
            cases te.eval E env.seed (valEnv (fun _ => none) vs) with
            | err z => rfl
            | panic => rfl
            | ok v =>
              simp only [Res.bind_ok]
              rw [evalSpecT_ren tes' (renamed_extend _ v) (v := v) (by simp [extend]) (by rw [hn']; exact hx.2)
                (by rw [hn']; exact hy.2) (fun t ht hm => hu (checkSpec_used post hcp t ht y hm))]
              cases hev' : evalSpecT E env.seed tes' (extend (valEnv (fun _ => none) vs) x v) with
              | err z => rfl
              | panic => rfl
              | ok ws =>
                have hwn := evalSpecT_names hev'
                simp only [Res.bind_ok, Res.map, List.map_append, List.map_cons]
                rw [map_renKey (by rw [hvn, hn]; exact hx.1), map_renKey (by rw [hwn, hn']; exact hx.2)]
                simp [renKey]

/-! ## Code -/

theorem renStr_head {C : CharClass} {x y s s' : Str} (h : RenStr C x y s s') : s'.head? = some '%' ↔ s.head? = some '%' := by
  cases h with
  | plain => rfl
  | unclosed => rfl
  | run pre => cases pre <;> simp [List.replicate_succ]
  | other pre => cases pre <;> simp
  | renamed pre => cases pre <;> simp

theorem formats_ren {C : CharClass} {x y s s' : Str} (h : RenStr C x y s s') {look look' : Str → Option Str}
    (hr : Renamed x y look look') {v : Str} (hx : look x = some v) (hy : ¬ InPlaceholder C y s) :
    ∃ o, Formats C look s o ∧ Formats C look' s' o := by
  induction h with
  | plain s h => exact ⟨_, .plain s h, .plain s h⟩
  | unclosed pre body hp hb => exact ⟨_, .unclosed pre body hp hb, .unclosed pre body hp hb⟩
  | run pre post post' k hp hpost h ih =>
    obtain ⟨o, h1, h2⟩ := ih (fun hn => hy (Spec.InPlaceholder.append _ hn))
    exact ⟨_, .run pre post o k hp hpost h1, .run pre post' o k hp (fun h3 => hpost ((renStr_head h).1 h3)) h2⟩
  | other pre body post post' k hp hb hne hpost hbx h ih =>
    obtain ⟨o, h1, h2⟩ := ih (fun hn => hy (Spec.InPlaceholder.append _ hn))
    have he : expandPlaceholder C look' body = expandPlaceholder C look body := by
      unfold expandPlaceholder
      rw [hr.other _ hbx (fun hby => hy ⟨pre, body, List.replicate k '%' ++ post, by simp, hb, hby⟩)]
    exact ⟨_, .placeholder pre body post o k hp hb hne hpost h1,
      he ▸ .placeholder pre body post' o k hp hb hne (fun h3 => hpost ((renStr_head h).1 h3)) h2⟩
  | renamed pre body body' post post' k hp hb hne hb' hne' hpost hbx hby h ih =>
    obtain ⟨o, h1, h2⟩ := ih (fun hn => hy (Spec.InPlaceholder.append _ hn))
    have he : expandPlaceholder C look' body' = expandPlaceholder C look body := by
      unfold expandPlaceholder
      rw [hbx, hby, hr.here, hx]
    exact ⟨_, .placeholder pre body post o k hp hb hne hpost h1,
      he ▸ .placeholder pre body' post' o k hp hb' hne' (fun h3 => hpost ((renStr_head h).1 h3)) h2⟩

mutual
theorem substTok_ren {C : CharClass} {x y : Str} {t t' : Tok} (h : RenTok C x y t t') {look look' : Str → Option Toks} {str str' : Str → Lit}
    (hr : Renamed x y look look') {v : Toks} (hx : look x = some v)
    (hs : ∀ w w', RenStr C x y w w' → ¬ InPlaceholder C y w → str' w' = str w) (hy : ¬ usesTok C y t) :
    substTok look' str' t' = substTok look str t := by
  match h with
  | .alias => simp only [substTok, hr.here, hx, Option.getD_some]
  | .ident n h => simp only [substTok, hr.other n h (fun he => hy (by simpa [usesTok] using he))]
  | .str r r' v v' h => simp only [substTok, hs v v' h (by simpa [usesTok] using hy)]
  | .group d ts ts' h => simp only [substTok, substAll_ren h hr hx hs (by simpa [usesTok] using hy)]
  | .other _ hi hs hg =>
    match t', hi, hs, hg with
    | .ident n, hi, _, _ => exact (hi n rfl).elim
    | .lit (.str r v), _, hs, _ => exact (hs r v rfl).elim
    | .group d ts, _, _, hg => exact (hg d ts rfl).elim
    | .lit (.int _ _), _, _, _ | .lit (.other _), _, _, _ | .punct _ _, _, _, _ => simp only [substTok]
theorem substAll_ren {C : CharClass} {x y : Str} {ts ts' : Toks} (h : RenToks C x y ts ts') {look look' : Str → Option Toks}
    {str str' : Str → Lit} (hr : Renamed x y look look') {v : Toks} (hx : look x = some v)
    (hs : ∀ w w', RenStr C x y w w' → ¬ InPlaceholder C y w → str' w' = str w) (hy : ¬ uses C y ts) :
    substAll look' str' ts' = substAll look str ts := by
  match h with
  | .nil => simp only [substAll]
  | .cons h ht =>
    simp only [uses, not_or] at hy
    simp only [substAll, substTok_ren h hr hx hs hy.1, substAll_ren ht hr hx hs hy.2]
end

end Verif
