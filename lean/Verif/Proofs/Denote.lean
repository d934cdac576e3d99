import Verif.Proofs.Overload
import Verif.Proofs.BuiltinSound
import Verif.Spec.Inline
/-! # Consequences of the pure specification -/

namespace Verif
open Spec

/-! ## Alias maps -/

theorem Subs.get_nil (n : Str) : Subs.get [] n = none := rfl

theorem Subs.get_cons (p : Str × VKind) (l : Subs) (n : Str) : Subs.get (p :: l) n = if p.1 = n then some p.2 else Subs.get l n := by
  unfold Subs.get
  rw [List.find?_cons]
  split
  · rename_i h; simp at h; simp [h]
  · rename_i h; simp at h; simp [h]

theorem Subs.get_eq_some {l : Subs} (h : (l.map (·.1)).Nodup) {n : Str} {v : VKind} : l.get n = some v ↔ (n, v) ∈ l := by
  induction l with
  | nil => simp [Subs.get_nil]
  | cons p l ih =>
    obtain ⟨m, w⟩ := p
    simp only [List.map_cons, List.nodup_cons] at h
    rw [Subs.get_cons]
    simp only [List.mem_cons, Prod.mk.injEq]
    split
    · rename_i hm
      subst hm
      constructor
      · intro h'; cases h'; exact Or.inl ⟨rfl, rfl⟩
      · rintro (⟨-, h'⟩ | h')
        · rw [h']
        · exact absurd (List.mem_map_of_mem (f := (·.1)) h') h.1
    · rename_i hm
      rw [ih h.2]
      constructor
      · exact Or.inr
      · rintro (⟨h', -⟩ | h')
        · exact absurd h'.symm hm
        · exact h'

theorem Subs.get_eq_none {l : Subs} {n : Str} : l.get n = none ↔ n ∉ l.map (·.1) := by
  induction l with
  | nil => simp [Subs.get_nil]
  | cons p l ih =>
    rw [Subs.get_cons]
    split
    · rename_i h; simp [h]
    · rename_i h
      rw [ih]
      simp only [List.map_cons, List.mem_cons, not_or]
      exact ⟨fun h' => ⟨fun he => h he.symm, h'⟩, fun h' => h'.2⟩

theorem Subs.get_perm {l l' : Subs} (hp : l.Perm l') (h : (l.map (·.1)).Nodup) (n : Str) : l.get n = l'.get n := by
  have h' : (l'.map (·.1)).Nodup := (hp.map _).nodup_iff.1 h
  cases hg : l'.get n with
  | none =>
    rw [Subs.get_eq_none] at hg ⊢
    exact fun hm => hg ((hp.map _).mem_iff.1 hm)
  | some v =>
    rw [Subs.get_eq_some h'] at hg
    rw [Subs.get_eq_some h]
    exact hp.mem_iff.2 hg

theorem Subs.get_append (l l' : Subs) (n : Str) : Subs.get (l ++ l') n = (Subs.get l n).or (Subs.get l' n) := by
  induction l with
  | nil => simp [Subs.get_nil]
  | cons p l ih =>
    rw [List.cons_append, Subs.get_cons, Subs.get_cons, ih]
    split <;> simp

/-! ## Composition of definition lists -/

/-- The types after a list of definitions. -/
def tyEnv (Γ : TyEnv) : List (Str × TExpr) → TyEnv
  | [] => Γ
  | (n, te) :: tes => tyEnv (extend Γ n te.target) tes

/-- The values after a list of definitions. -/
def valEnv (ρ : Str → Option VKind) : List (Str × VKind) → Str → Option VKind
  | [] => ρ
  | (n, v) :: vs => valEnv (extend ρ n v) vs

theorem checkSpec_append {T} : ∀ (xs ys : List (Str × Expr)) (Γ : TyEnv), checkSpec T (xs ++ ys) Γ =
    match checkSpec T xs Γ with
    | .error x => .error x
    | .ok tes =>
      match checkSpec T ys (tyEnv Γ tes) with
      | .error x => .error x
      | .ok tes' => .ok (tes ++ tes')
  | [], ys, Γ => by
    simp only [List.nil_append, checkSpec, tyEnv]
    cases checkSpec T ys Γ <;> rfl
  | (n, e) :: xs, ys, Γ => by
    simp only [List.cons_append, checkSpec]
    cases check T Γ e none with
    | error x => rfl
    | ok p =>
      obtain ⟨c, te⟩ := p
      simp only
      split
      · rfl
      · rw [checkSpec_append xs ys]
        cases checkSpec T xs (extend Γ n te.target) with
        | error x => rfl
        | ok tes =>
          simp only [tyEnv]
          cases checkSpec T ys (tyEnv (extend Γ n te.target) tes) <;> rfl

theorem evalSpecT_append {E seed} : ∀ (xs ys : List (Str × TExpr)) (ρ), evalSpecT E seed (xs ++ ys) ρ =
    (evalSpecT E seed xs ρ).bind fun vs => (evalSpecT E seed ys (valEnv ρ vs)).bind fun ws => .ok (vs ++ ws)
  | [], ys, ρ => by
    simp only [List.nil_append, evalSpecT, Res.bind_ok, valEnv]
    cases evalSpecT E seed ys ρ <;> rfl
  | (n, te) :: xs, ys, ρ => by
    simp only [List.cons_append, evalSpecT, Res.bind_eq]
    cases te.eval E seed ρ with
    | err x => rfl
    | panic => rfl
    | ok v =>
      simp only [Res.bind_ok, evalSpecT_append xs ys]
      cases evalSpecT E seed xs (extend ρ n v) with
      | err x => rfl
      | panic => rfl
      | ok vs =>
        simp only [Res.bind_ok, valEnv]
        cases evalSpecT E seed ys (valEnv (extend ρ n v) vs) <;> rfl

theorem typed_envs : ∀ {vs : List (Str × VKind)} {tes : List (Str × TExpr)} {Γ : TyEnv} {ρ : Str → Option VKind},
    vs.map (fun p => (p.1, p.2.ty)) = tes.map (fun p => (p.1, p.2.target)) → Typed Γ ρ → Typed (tyEnv Γ tes) (valEnv ρ vs)
  | [], [], _, _, _, h => h
  | (n, v) :: vs, (m, te) :: tes, Γ, ρ, he, h => by
    simp only [List.map_cons, List.cons.injEq, Prod.mk.injEq] at he
    obtain ⟨⟨rfl, ht⟩, he⟩ := he
    show Typed (tyEnv (extend Γ n te.target) tes) (valEnv (extend ρ n v) vs)
    exact typed_envs he (ht ▸ h.extend n v)
  | [], _ :: _, _, _, he, _ => by simp at he
  | _ :: _, [], _, _, he, _ => by simp at he

theorem valEnv_get : ∀ {vs : List (Str × VKind)} {ρ : Str → Option VKind}, (vs.map (·.1)).Nodup → ∀ n,
    valEnv ρ vs n = (Subs.get vs n).or (ρ n)
  | [], ρ, _, n => by simp [valEnv, Subs.get_nil]
  | (m, v) :: vs, ρ, h, n => by
    simp only [List.map_cons, List.nodup_cons] at h
    rw [valEnv, valEnv_get h.2, Subs.get_cons]
    by_cases hmn : m = n
    · subst hmn
      have := Subs.get_eq_none.2 h.1
      simp [this, extend]
    · have : ¬ n = m := fun he => hmn he.symm
      simp [hmn, extend, this]

/-- The names of the values are those of the definitions. -/
theorem evalSpecT_names {E seed} : ∀ {tes : List (Str × TExpr)} {ρ vs}, evalSpecT E seed tes ρ = .ok vs →
    vs.map (·.1) = tes.map (·.1)
  | [], ρ, vs, h => by simp only [evalSpecT] at h; cases h; rfl
  | (n, te) :: tes, ρ, vs, h => by
    simp only [evalSpecT, Res.bind_eq, Res.bind_eq_ok] at h
    obtain ⟨v, -, vs', h1, h2⟩ := h
    cases h2
    simp [evalSpecT_names h1]

theorem denote_names {E env items vs} (h : denote E env items = .ok vs) :
    vs.map (·.1) = items.map (·.1) ∧ (vs.map (·.1)).Nodup := by
  unfold denote at h
  split at h
  · cases h
  · rename_i tes hc
    obtain ⟨h1, h2, -⟩ := checkSpec_names hc
    rw [evalSpecT_names h, h1]
    exact ⟨rfl, h2⟩

/-- Definitions after a list with known values. -/
theorem denote_append {E : Ext} {env : Env} (henv : env.funcs = builtinFuncs) {pre : List (Str × Expr)}
    {vs : Subs} (h : denote E env pre = .ok vs) (post : List (Str × Expr)) : denote E env (pre ++ post) =
    match checkSpec env.funcs post (fun n => (vs.get n).map (·.ty)) with
    | .error x => .err x
    | .ok tes => (evalSpecT E env.seed tes vs.get).bind fun ws => .ok (vs ++ ws) := by
  have hnd := (denote_names h).2
  unfold denote at h ⊢
  rw [checkSpec_append]
  cases hc : checkSpec env.funcs pre (fun _ => none) with
  | error x => rw [hc] at h; cases h
  | ok tes =>
    rw [hc] at h
    simp only at h ⊢
    have hv : valEnv (fun _ => none) vs = vs.get := by
      funext n; rw [valEnv_get hnd]; simp
    have hty : tyEnv (fun _ => none) tes = fun n => (vs.get n).map (·.ty) := by
      rcases evalSpecT_sound (E := E) henv hc typed_empty with ⟨vs', hvs, hts⟩ | ⟨x, hx, -⟩ | ⟨hp, -⟩
      · rw [h] at hvs
        cases hvs
        have := typed_envs hts typed_empty
        funext n
        rw [← this n, hv]
      · rw [h] at hx; cases hx
      · rw [h] at hp; cases hp
    rw [hty]
    cases checkSpec env.funcs post _ with
    | error x => rfl
    | ok tes' =>
      simp only
      rw [evalSpecT_append, h, Res.bind_ok, hv]

/-! ## Prefixes -/

theorem denote_prefix {E : Ext} {env : Env} {pre post : List (Str × Expr)} {vs : Subs}
    (h : denote E env (pre ++ post) = .ok vs) : ∃ ws us, denote E env pre = .ok ws ∧ vs = ws ++ us := by
  unfold denote at h ⊢
  rw [checkSpec_append] at h
  cases hc : checkSpec env.funcs pre (fun _ => none) with
  | error x => rw [hc] at h; cases h
  | ok tes =>
    rw [hc] at h
    simp only at h ⊢
    split at h
    · cases h
    · rename_i hsp
      split at hsp
      · cases hsp
      · cases hsp
        rw [evalSpecT_append, Res.bind_eq_ok] at h
        obtain ⟨ws, h1, h2⟩ := h
        rw [Res.bind_eq_ok] at h2
        obtain ⟨us, -, h3⟩ := h2
        cases h3
        exact ⟨ws, us, h1, rfl⟩

/-! ## Re-use of an alias -/

theorem best_map {g : Choice → Choice} (hg : ∀ c, (g c).cost = c.cost ∧ (g c).func = c.func) (l : List Choice) :
    best (l.map g) = (best l).map g := by
  induction l with
  | nil => rfl
  | cons x l ih =>
    simp only [List.map_cons, best, ih]
    cases best l with
    | none => rfl
    | some y =>
      have : (g y).better (g x) ↔ y.better x := by
        unfold Choice.better
        rw [(hg x).1, (hg x).2, (hg y).1, (hg y).2]
      simp only [Option.map_some, this]
      split <;> rfl

theorem usable_map {raw n expected f} {args args' : List (Ty × Nat) → Option (Nat × List TExpr)} {g : List TExpr → List TExpr}
    (hg : ∀ ts, g [.val (.raw ts) .raw] = [.val (.raw ts) .raw])
    (h : ∀ ps, args' ps = (args ps).map (fun r => (r.1, g r.2))) :
    usable raw n expected args' f = (usable raw n expected args f).map (fun c => ⟨c.cost, c.func, g c.args⟩) := by
  unfold usable
  cases outCost f.out expected with
  | none => rfl
  | some co =>
    simp only [Option.bind_eq_bind, Option.bind_some]
    cases (if f.args = [.raw] then raw else none) with
    | some p => simp [hg]
    | none =>
      simp only
      cases paramsFor f n with
      | none => rfl
      | some ps =>
        simp only [Option.bind_some, h]
        cases args ps <;> rfl

theorem filterMap_map_of {α β : Type} {u u' : α → Option β} {g : β → β} (h : ∀ a, u' a = (u a).map g) (l : List α) :
    l.filterMap u' = (l.filterMap u).map g := by
  induction l with
  | nil => rfl
  | cons a l ih =>
    rw [List.filterMap_cons, List.filterMap_cons, h]
    cases u a <;> simp [ih]

theorem inlineLeaf_natural {Γ : TyEnv} {s : Str} {v : VKind} (hs : Γ s = some v.ty) (hv : natural Γ v = v.ty) (k : VKind) :
    natural Γ (inlineLeaf s v k) = natural Γ k := by
  cases k <;> try rfl
  simp only [inlineLeaf]
  split
  · rename_i h; rw [hv, h]; simp [natural, hs]
  · rfl

theorem TExpr.replaceAlias_target {s v} (te : TExpr) : (te.replaceAlias s v).target = te.target := by
  cases te <;> simp [TExpr.replaceAlias, TExpr.target]

theorem inlineL_length {s v} : ∀ (es : List Expr), (replaceAliasL s v es).length = es.length
  | [] => by simp [replaceAliasL]
  | _ :: es => by simp [replaceAliasL, inlineL_length es]

mutual
theorem check_inline {T} {Γ : TyEnv} {s : Str} {v : VKind} (hs : Γ s = some v.ty) (hv : natural Γ v = v.ty) :
    ∀ (e : Expr) (expected : Option Ty),
    blurE (check T Γ (replaceAlias s v e) expected) = blurE ((check T Γ e expected).map (fun p => (p.1, p.2.replaceAlias s v)))
  | .value id k, expected => by
    simp only [replaceAlias, check, inlineLeaf_natural hs hv]
    cases coercionCost (natural Γ k) (expected.getD (natural Γ k)) <;> rfl
  | .call id name args raw, expected => by
    simp only [replaceAlias, check, inlineL_length]
    cases T name with
    | none => rfl
    | some fs =>
      simp only
      rw [filterMap_map_of (u := usable raw args.length expected fun ps => checkArgs T Γ args ps)
        (g := fun c => ⟨c.cost, c.func, TExpr.replaceAliasL s v c.args⟩)
        (fun f => usable_map (by intro ts; simp [TExpr.replaceAliasL, TExpr.replaceAlias, inlineLeaf])
          (fun ps => checkArgs_inline hs hv args ps)), best_map (by simp)]
      cases best (fs.filterMap (usable raw args.length expected fun ps => checkArgs T Γ args ps)) with
      | none => exact congrArg Except.error (blur_refusal fs _ _)
      | some ch => simp [Except.map, TExpr.replaceAlias]
theorem checkArgs_inline {T} {Γ : TyEnv} {s : Str} {v : VKind} (hs : Γ s = some v.ty) (hv : natural Γ v = v.ty) :
    ∀ (es : List Expr) (ps : List (Ty × Nat)),
    checkArgs T Γ (replaceAliasL s v es) ps = (checkArgs T Γ es ps).map (fun r => (r.1, TExpr.replaceAliasL s v r.2))
  | [], _ => by simp [replaceAliasL, checkArgs, TExpr.replaceAliasL]
  | _ :: _, [] => by simp [replaceAliasL, checkArgs, TExpr.replaceAliasL]
  | e :: es, (t, m) :: ps => by
    have hc := check_inline (T := T) hs hv e (some t)
    simp only [replaceAliasL, checkArgs, checkArgs_inline hs hv es]
    cases h : check T Γ e (some t) with
    | error x =>
      rw [h] at hc
      rcases blurE_cases hc with ⟨p, -, h2⟩ | ⟨x', y, h1, -⟩
      · cases h2
      · rw [h1]; rfl
    | ok p =>
      rw [h] at hc
      rcases blurE_cases hc with ⟨p, h1, h2⟩ | ⟨x', y, -, h2, -⟩
      · rw [h1]
        cases h2
        cases checkArgs T Γ es ps <;> simp [TExpr.replaceAliasL]
      · cases h2
end

theorem inlineLeaf_leaf {ρ : Str → Option VKind} {s : Str} {v : VKind} (hs : ρ s = some v) (hv : leaf ρ v = v) (k : VKind) :
    leaf ρ (inlineLeaf s v k) = leaf ρ k := by
  cases k <;> try rfl
  simp only [inlineLeaf]
  split
  · rename_i h; rw [hv, h]; simp [leaf, hs]
  · rfl

mutual
theorem eval_inline {E seed} {ρ : Str → Option VKind} {s : Str} {v : VKind} (hs : ρ s = some v) (hv : leaf ρ v = v) :
    ∀ (te : TExpr), (te.replaceAlias s v).eval E seed ρ = te.eval E seed ρ
  | .val k t => by rw [TExpr.replaceAlias, eval_val, eval_val, inlineLeaf_leaf hs hv]
  | .call f args t => by simp only [TExpr.replaceAlias, TExpr.eval, evalL_inline hs hv args]
theorem evalL_inline {E seed} {ρ : Str → Option VKind} {s : Str} {v : VKind} (hs : ρ s = some v) (hv : leaf ρ v = v) :
    ∀ (tes : List TExpr), TExpr.evalL E seed ρ (TExpr.replaceAliasL s v tes) = TExpr.evalL E seed ρ tes
  | [] => by simp [TExpr.replaceAliasL]
  | te :: tes => by simp only [TExpr.replaceAliasL, TExpr.evalL, eval_inline hs hv te, evalL_inline hs hv tes]
end

theorem denote_inline {E : Ext} {env : Env} (henv : env.funcs = builtinFuncs) {pre : List (Str × Expr)} {vs : Subs}
    (h : denote E env pre = .ok vs) {s : Str} {v : VKind} (hs : vs.get s = some v)
    (hv : ∀ n, v = .ident n → vs.get n = none) (a : Str) (e : Expr) (post : List (Str × Expr)) :
    blurR (denote E env (pre ++ (a, replaceAlias s v e) :: post)) = blurR (denote E env (pre ++ (a, e) :: post)) := by
  rw [denote_append henv h, denote_append henv h]
  have hn : natural (fun n => (vs.get n).map (·.ty)) v = v.ty := by
    cases v <;> try rfl
    rename_i n
    simp [natural, hv n rfl, VKind.ty]
  have hl : leaf vs.get v = v := by
    cases v <;> try rfl
    rename_i n
    simp [leaf, hv n rfl]
  simp only [checkSpec]
  have hc := check_inline (T := env.funcs) (Γ := fun n => (vs.get n).map (·.ty)) (s := s) (v := v) (by simp [hs]) hn e none
  cases h : check env.funcs (fun n => (vs.get n).map (·.ty)) e none with
  | error x =>
    rw [h] at hc
    rcases blurE_cases hc with ⟨p, -, h2⟩ | ⟨x', y, h1, h2, h3⟩
    · cases h2
    · cases h2; rw [h1]; exact congrArg Res.err h3
  | ok p =>
    rw [h] at hc
    obtain ⟨c, te⟩ := p
    rcases blurE_cases hc with ⟨p, h1, h2⟩ | ⟨x', y, -, h2, -⟩
    case inr => cases h2
    rw [h1]
    cases h2
    simp only [TExpr.replaceAlias_target]
    by_cases hd : ((vs.get a).map (·.ty)).isSome = true
    · rw [if_pos hd, if_pos hd]
    · rw [if_neg hd, if_neg hd]
      cases checkSpec env.funcs post (extend (fun n => (vs.get n).map (·.ty)) a te.target) with
      | error x => rfl
      | ok tes => simp only [evalSpecT, eval_inline hs hl]

/-! ## Only the values of the used aliases matter -/

mutual
theorem check_agree {T} {Γ Γ' : TyEnv} : ∀ (e : Expr), (∀ n ∈ used e, Γ n = Γ' n) → ∀ expected,
    check T Γ e expected = check T Γ' e expected
  | .value id k, h, expected => by
    have : natural Γ k = natural Γ' k := by
      cases k <;> try rfl
      rename_i n
      simp [natural, h n (by simp [used, leafName])]
    simp only [check, this]
  | .call id name args raw, h, expected => by
    simp only [check]
    have : (fun ps => checkArgs T Γ args ps) = (fun ps => checkArgs T Γ' args ps) := by
      funext ps
      exact checkArgs_agree args (fun n hn => h n (by simpa [used] using hn)) ps
    rw [this]
theorem checkArgs_agree {T} {Γ Γ' : TyEnv} : ∀ (es : List Expr), (∀ n ∈ usedL es, Γ n = Γ' n) → ∀ ps,
    checkArgs T Γ es ps = checkArgs T Γ' es ps
  | [], _, _ => by simp [checkArgs]
  | _ :: _, _, [] => by simp [checkArgs]
  | e :: es, h, (t, m) :: ps => by
    simp only [usedL, List.mem_append] at h
    simp only [checkArgs]
    rw [check_agree e (fun n hn => h n (Or.inl hn)), checkArgs_agree es (fun n hn => h n (Or.inr hn))]
end

mutual
theorem eval_agree {E seed} {ρ ρ' : Str → Option VKind} : ∀ (te : TExpr), (∀ n ∈ te.used, ρ n = ρ' n) →
    te.eval E seed ρ = te.eval E seed ρ'
  | .val k t, h => by
    have : leaf ρ k = leaf ρ' k := by
      cases k <;> try rfl
      rename_i n
      simp [leaf, h n (by simp [TExpr.used, leafName])]
    rw [eval_val, eval_val, this]
  | .call f args t, h => by
    simp only [TExpr.eval]
    rw [evalL_agree args (fun n hn => h n (by simpa [TExpr.used] using hn))]
theorem evalL_agree {E seed} {ρ ρ' : Str → Option VKind} : ∀ (tes : List TExpr), (∀ n ∈ TExpr.usedL tes, ρ n = ρ' n) →
    TExpr.evalL E seed ρ tes = TExpr.evalL E seed ρ' tes
  | [], _ => by simp [TExpr.evalL]
  | te :: tes, h => by
    simp only [TExpr.usedL, List.mem_append] at h
    simp only [TExpr.evalL]
    rw [eval_agree te (fun n hn => h n (Or.inl hn)), evalL_agree tes (fun n hn => h n (Or.inr hn))]
end

mutual
theorem check_used {T} {Γ : TyEnv} : ∀ (e : Expr) {expected c te}, check T Γ e expected = .ok (c, te) →
    ∀ n ∈ te.used, n ∈ used e
  | .value id k, expected, c, te, h => by
    simp only [check] at h
    split at h
    · cases h; intro n hn; simpa [used, TExpr.used] using hn
    · cases h
  | .call id name args raw, expected, c, te, h => by
    simp only [check] at h
    split at h
    · cases h
    · split at h
      · rename_i ch hb
        cases h
        obtain ⟨f, -, hu⟩ := List.mem_filterMap.1 (best_mem hb)
        obtain ⟨-, co, -, ⟨-, i, ts, -, -, ha⟩ | ⟨-, ps, c, tes, -, ht, -, ha⟩⟩ := usable_cost hu
        · intro n hn
          simp [TExpr.used, ha, TExpr.usedL, leafName] at hn
        · intro n hn
          simp only [TExpr.used, ha] at hn
          simpa [used] using checkArgs_used args ht n hn
      · cases h
theorem checkArgs_used {T} {Γ : TyEnv} : ∀ (es : List Expr) {ps c tes}, checkArgs T Γ es ps = some (c, tes) →
    ∀ n ∈ TExpr.usedL tes, n ∈ usedL es
  | [], ps, c, tes, h => by simp only [checkArgs] at h; cases h; simp [TExpr.usedL]
  | _ :: _, [], c, tes, h => by simp only [checkArgs] at h; cases h; simp [TExpr.usedL]
  | e :: es, (t, m) :: ps, c, tes, h => by
    simp only [checkArgs] at h
    split at h
    · rename_i c1 te hc
      rw [Option.map_eq_some_iff] at h
      obtain ⟨⟨c2, tes2⟩, h1, h2⟩ := h
      cases h2
      intro n hn
      simp only [TExpr.usedL, List.mem_append] at hn
      simp only [usedL, List.mem_append]
      exact hn.imp (check_used e hc n) (checkArgs_used es h1 n)
    · cases h
end

/-- The value of one more definition depends only on the values of the aliases it uses. -/
theorem denote_last {E : Ext} {env : Env} (henv : env.funcs = builtinFuncs) {pre pre' : List (Str × Expr)} {vs vs' : Subs}
    (h : denote E env pre = .ok vs) (h' : denote E env pre' = .ok vs') {e : Expr}
    (hu : ∀ n ∈ used e, vs.get n = vs'.get n) {a a' : Str} (ha : a' ∉ pre'.map (·.1)) {r : Subs}
    (hr : denote E env (pre ++ [(a, e)]) = .ok r) : ∃ v, r = vs ++ [(a, v)] ∧
      denote E env (pre' ++ [(a', e)]) = .ok (vs' ++ [(a', v)]) := by
  rw [denote_append henv h] at hr
  rw [denote_append henv h']
  simp only [checkSpec] at hr ⊢
  rw [← check_agree e (Γ := fun n => (vs.get n).map (·.ty)) (Γ' := fun n => (vs'.get n).map (·.ty))
    (fun n hn => by simp only [hu n hn])]
  have hag : (Subs.get vs' a') = none := Subs.get_eq_none.2 (by rw [(denote_names h').1]; exact ha)
  cases hc : check env.funcs (fun n => (vs.get n).map (·.ty)) e none with
  | error x => rw [hc] at hr; cases hr
  | ok p =>
    obtain ⟨c, te⟩ := p
    rw [hc] at hr
    simp only at hr ⊢
    simp only [hag, Option.map_none, Option.isSome_none, Bool.false_eq_true, if_false]
    split at hr
    · cases hr
    · rename_i hsp
      split at hsp
      · cases hsp
      · cases hsp
        simp only [evalSpecT, Res.bind_eq] at hr ⊢
        rw [← eval_agree te (ρ := vs.get) (ρ' := vs'.get) (fun n hn => hu n (check_used e hc n hn))]
        cases hv : te.eval E env.seed vs.get with
        | ok v =>
          rw [hv] at hr
          simp only [Res.bind_ok] at hr ⊢
          cases hr
          exact ⟨v, rfl, rfl⟩
        | err x => rw [hv] at hr; cases hr
        | panic => rw [hv] at hr; cases hr

/-! ## Raw arguments -/

mutual
theorem check_dropUnused {Γ : TyEnv} : ∀ (e : Expr) (expected : Option Ty),
    blurE (check builtinFuncs Γ (dropUnused e) expected) = blurE (check builtinFuncs Γ e expected)
  | .value id k, _ => by simp only [dropUnused]
  | .call id name args raw, expected => by
    simp only [dropUnused]
    split
    · rename_i h
      obtain ⟨hn, hr⟩ := h
      obtain ⟨p, rfl⟩ := Option.isSome_iff_exists.1 hr
      have hu : ∀ n as f, f.args = [.raw] → usable (some p) n expected as f =
          usable (some p) 0 expected (fun _ => none) f := by
        intro n as f hf
        simp only [usable, hf, if_true]
      simp only [check]
      rcases hn with rfl | rfl
      · simp only [builtin_raw, List.filterMap_cons, List.filterMap_nil]
        rw [hu _ _ _ rfl, hu args.length _ _ rfl]
        cases best _ with
        | none => exact congrArg Except.error (blur_refusal _ _ _)
        | some ch => rfl
      · simp only [builtin_normalize, List.filterMap_cons, List.filterMap_nil]
        rw [hu _ _ _ rfl, hu args.length _ _ rfl]
        cases best _ with
        | none => exact congrArg Except.error (blur_refusal _ _ _)
        | some ch => rfl
    · have hl : ∀ es : List Expr, (dropUnusedL es).length = es.length := by
        intro es
        induction es with
        | nil => rfl
        | cons e es ih => simp [dropUnusedL, ih]
      have : (fun ps => checkArgs builtinFuncs Γ (dropUnusedL args) ps) = (fun ps => checkArgs builtinFuncs Γ args ps) := by
        funext ps
        exact checkArgs_dropUnused args ps
      simp only [check, hl, this]
      cases builtinFuncs name with
      | none => rfl
      | some fs =>
        simp only
        cases best _ with
        | none => exact congrArg Except.error (blur_refusal _ _ _)
        | some ch => rfl
theorem checkArgs_dropUnused {Γ : TyEnv} : ∀ (es : List Expr) (ps : List (Ty × Nat)),
    checkArgs builtinFuncs Γ (dropUnusedL es) ps = checkArgs builtinFuncs Γ es ps
  | [], _ => by simp only [dropUnusedL]
  | _ :: _, [] => by simp only [dropUnusedL, checkArgs]
  | e :: es, (t, m) :: ps => by
    simp only [dropUnusedL, checkArgs, checkArgs_dropUnused es]
    rcases blurE_cases (check_dropUnused (Γ := Γ) e (some t)) with ⟨p, h1, h2⟩ | ⟨x, y, h1, h2, -⟩ <;> rw [h1, h2]
end

theorem checkSpec_dropUnused : ∀ (items : List (Str × Expr)) (Γ : TyEnv),
    blurE (checkSpec builtinFuncs (items.map (fun p => (p.1, dropUnused p.2))) Γ) = blurE (checkSpec builtinFuncs items Γ)
  | [], _ => rfl
  | (n, e) :: items, Γ => by
    simp only [List.map_cons, checkSpec]
    rcases blurE_cases (check_dropUnused (Γ := Γ) e none) with ⟨p, h1, h2⟩ | ⟨x, y, h1, h2, h3⟩
    · rw [h1, h2]
      simp only
      split
      · rfl
      · rcases blurE_cases (checkSpec_dropUnused items (extend Γ n p.2.target)) with ⟨p, h1, h2⟩ | ⟨x, y, h1, h2, h3⟩
        · rw [h1, h2]
        · rw [h1, h2]; exact congrArg Except.error h3
    · rw [h1, h2]; exact congrArg Except.error h3

/-! ## Arguments have the types of the parameters -/

theorem evalL_types {E : Ext} {seed : Nat} {ρ : Str → Option VKind} {tes : List TExpr} {vs : List VKind}
    (h : ∀ te, te ∈ tes → Outcome E seed ρ te) (hv : TExpr.evalL E seed ρ tes = .ok vs) :
    vs.map (·.ty) = tes.map (·.target) := by
  rcases evalL_sound h with ⟨vs', h1, h2⟩ | ⟨x, h1, -⟩ | ⟨h1, -⟩
  · rw [hv] at h1; cases h1; exact h2
  · rw [hv] at h1; cases h1
  · rw [hv] at h1; cases h1

theorem applied_fits {E : Ext} {seed : Nat} {F : Func → Prop} (hF : ∀ f, F f → Sound E seed f) {Γ : TyEnv}
    {ρ : Str → Option VKind} (hρ : Typed Γ ρ) {te : TExpr} (h : WT F Γ te) {f : Func} {vs : List VKind}
    (ha : Applied E seed ρ te f vs) : F f ∧ TypesFit f vs := by
  induction h with
  | val _ => cases ha
  | @call g tes t hf hp hfit hw ih =>
    cases ha with
    | here hv =>
      have ht := evalL_types (fun te hte => eval_sound hF hρ (hw te hte)) hv
      have hl : vs.length = tes.length := by
        have := congrArg List.length ht; simpa using this
      obtain ⟨ps, h1, h2⟩ := hfit
      exact ⟨hf, ps, hl ▸ h1, ht.trans h2⟩
    | arg hm ha => exact ih _ hm ha

theorem appliedSpec_fits {E : Ext} {env : Env} (henv : env.funcs = builtinFuncs) : ∀ {items : List (Str × Expr)}
    {Γ : TyEnv} {ρ : Str → Option VKind} {tes : List (Str × TExpr)} {f : Func} {vs : List VKind},
    checkSpec env.funcs items Γ = .ok tes → Typed Γ ρ → AppliedSpec E env.seed tes ρ f vs → f ∈ builtins ∧ TypesFit f vs
  | [], Γ, ρ, tes, f, vs, h, _, ha => by
    simp only [checkSpec] at h
    cases h
    cases ha
  | (name, e) :: items, Γ, ρ, tes, f, vs, h, hρ, ha => by
    simp only [checkSpec] at h
    split at h
    · cases h
    · rename_i c te hc
      split at h
      · cases h
      · split at h
        · cases h
        · rename_i rest hr
          cases h
          have hw : WT (InTable builtinFuncs) Γ te := by
            rw [henv] at hc
            rcases check_good builtins_tame e (expected := none) (by intro t h; cases h) hc with ⟨h, -⟩ | ⟨t, h, -⟩
            · exact h
            · cases h
          have hF : ∀ f, InTable builtinFuncs f → Sound E env.seed f := fun f hf => builtins_sound (inTable_builtin hf)
          cases ha with
          | here ha =>
            obtain ⟨h1, h2⟩ := applied_fits hF hρ hw ha
            exact ⟨inTable_builtin h1, h2⟩
          | later hv ha =>
            rcases eval_sound hF hρ hw with ⟨v, hv', ht⟩ | ⟨x, hx, -⟩ | ⟨hp, -⟩
            · rw [hv] at hv'
              cases hv'
              exact appliedSpec_fits henv hr (ht ▸ hρ.extend name _) ha
            · rw [hv] at hx; cases hx
            · rw [hv] at hp; cases hp

/-- A call that is the whole definition has the output type of its overload. -/
theorem checkSpec_outs {T} : ∀ {items : List (Str × Expr)} {Γ : TyEnv} {tes : List (Str × TExpr)},
    checkSpec T items Γ = .ok tes → ∀ q ∈ tes, ∀ f as t, q.2 = .call f as t → t = f.out
  | [], Γ, tes, h => by simp only [checkSpec] at h; cases h; simp
  | (name, e) :: items, Γ, tes, h => by
    simp only [checkSpec] at h
    split at h
    · cases h
    · rename_i c te hc
      split at h
      · cases h
      · split at h
        · cases h
        · rename_i rest hr
          cases h
          intro q hq f as t he
          rcases List.mem_cons.1 hq with rfl | hq
          · simp only at he
            subst he
            cases e with
            | value id k => simp only [check] at hc; split at hc <;> cases hc
            | call id nm args raw =>
              simp only [check] at hc
              split at hc
              · cases hc
              · split at hc
                · cases hc; rfl
                · cases hc
          · exact checkSpec_outs hr q hq f as t he

/-! ## Redefinitions -/

theorem check_not_redefined {T Γ} (e : Expr) {expected n} : check T Γ e expected ≠ .error (.redefined n) := by
  cases e with
  | value id k => intro h; simp only [check] at h; split at h <;> cases h
  | call id name args raw =>
    intro h
    simp only [check] at h
    split at h
    · cases h
    · split at h <;> cases h

theorem checkSpec_redefined {T n} : ∀ {items : List (Str × Expr)} {Γ : TyEnv}, checkSpec T items Γ = .error (.redefined n) →
    ∃ pre e post, items = pre ++ (n, e) :: post ∧ (pre.map (·.1)).Nodup ∧ (∀ m ∈ pre.map (·.1), Γ m = none) ∧
      (n ∈ pre.map (·.1) ∨ (Γ n).isSome)
  | [], Γ, h => by cases h
  | (name, e) :: items, Γ, h => by
    simp only [checkSpec] at h
    split at h
    · rename_i x hx
      cases h
      exact absurd hx (check_not_redefined e)
    · rename_i c te hc
      split at h
      · rename_i hs
        cases h
        exact ⟨[], e, items, rfl, by simp, by simp, Or.inr hs⟩
      · rename_i hs
        split at h
        · rename_i x hx
          cases h
          obtain ⟨pre, e', post, rfl, h1, h2, h3⟩ := checkSpec_redefined hx
          have hnm : name ∉ pre.map (·.1) := by
            intro hm
            have := h2 name hm
            simp [extend] at this
          refine ⟨(name, e) :: pre, e', post, rfl, ?_, ?_, ?_⟩
          · simp only [List.map_cons, List.nodup_cons]
            exact ⟨hnm, h1⟩
          · intro m hm
            simp only [List.map_cons, List.mem_cons] at hm
            rcases hm with rfl | hm
            · cases hg : Γ m <;> simp_all
            · have := h2 m hm
              simp only [extend] at this
              split at this
              · cases this
              · exact this
          · simp only [List.map_cons, List.mem_cons]
            rcases h3 with h3 | h3
            · exact Or.inl (Or.inr h3)
            · simp only [extend] at h3
              split at h3
              · rename_i he; exact Or.inl (Or.inl he)
              · exact Or.inr h3
        · cases h

theorem resolveSpec_append {env : Env} : ∀ (xs ys : List (Alias × Expr)) (sc : Scope),
    resolveSpec env (xs ++ ys) sc = (resolveSpec env xs sc).bind (resolveSpec env ys)
  | [], ys, sc => rfl
  | x :: xs, ys, sc => by
    simp only [List.cons_append, resolveSpec, Res.bind_eq]
    cases resolveItem env x sc with
    | ok sc' => simp only [Res.bind_ok, resolveSpec_append xs ys]
    | err x => rfl
    | panic => rfl

theorem idsL_append : ∀ (xs ys : List Expr), idsL (xs ++ ys) = idsL xs ++ idsL ys
  | [], _ => by simp [idsL]
  | x :: xs, ys => by simp [idsL, idsL_append xs ys]

theorem specIds_append (xs ys : List (Alias × Expr)) : specIds (xs ++ ys) = specIds xs ++ specIds ys := by
  simp [specIds, idsL_append]

theorem named_append (xs ys : List (Alias × Expr)) : named (xs ++ ys) = named xs ++ named ys := by
  simp [named]

theorem named_names (items : List (Alias × Expr)) : (named items).map (·.1) = items.map (·.1.2) := by
  simp [named, Function.comp_def]

/-! ## Sizes after replacing an alias -/

mutual
theorem replaceAlias_sizes {s v} : ∀ (e : Expr), ids (replaceAlias s v e) = ids e ∧ nodes (replaceAlias s v e) = nodes e ∧
    nesting (replaceAlias s v e) = nesting e
  | .value _ _ => by simp [replaceAlias, ids, nodes, nesting]
  | .call _ _ args _ => by
    obtain ⟨h1, h2, h3⟩ := replaceAliasL_sizes (s := s) (v := v) args
    simp [replaceAlias, ids, nodes, nesting, h1, h2, h3]
theorem replaceAliasL_sizes {s v} : ∀ (es : List Expr), idsL (replaceAliasL s v es) = idsL es ∧
    nodesL (replaceAliasL s v es) = nodesL es ∧ nestingL (replaceAliasL s v es) = nestingL es
  | [] => by simp [replaceAliasL]
  | e :: es => by
    obtain ⟨h1, h2, h3⟩ := replaceAlias_sizes (s := s) (v := v) e
    obtain ⟨h4, h5, h6⟩ := replaceAliasL_sizes (s := s) (v := v) es
    simp [replaceAliasL, idsL, nodesL, nestingL, *]
end

mutual
theorem dropUnused_sizes : ∀ (e : Expr), (ids (dropUnused e)).Sublist (ids e) ∧ nodes (dropUnused e) ≤ nodes e ∧
    nesting (dropUnused e) ≤ nesting e
  | .value _ _ => by simp [dropUnused]
  | .call _ _ args raw => by
    obtain ⟨h1, h2, h3⟩ := dropUnusedL_sizes args
    simp only [dropUnused]
    split
    · simp [ids, idsL, nodes, nodesL, nesting, nestingL]
    · simp only [ids, nodes, nesting]
      exact ⟨List.Sublist.append (List.Sublist.refl _) h1, by omega, by omega⟩
theorem dropUnusedL_sizes : ∀ (es : List Expr), (idsL (dropUnusedL es)).Sublist (idsL es) ∧
    nodesL (dropUnusedL es) ≤ nodesL es ∧ nestingL (dropUnusedL es) ≤ nestingL es
  | [] => by simp [dropUnusedL]
  | e :: es => by
    obtain ⟨h1, h2, h3⟩ := dropUnused_sizes e
    obtain ⟨h4, h5, h6⟩ := dropUnusedL_sizes es
    simp only [dropUnusedL, idsL, nodesL, nestingL]
    exact ⟨h1.append h4, by omega, by omega⟩
end

end Verif
