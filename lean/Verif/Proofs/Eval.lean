import Verif.Model.Eval
import Verif.Proofs.Resolve
/-! # Evaluation through the side table computes the pure evaluation -/

namespace Verif
open Spec

/-- Evaluation of the typed arguments, one by one. -/
theorem mapRes_evalL {E : Ext} {env : Env} {m : Metadata} {vars : Vars} {n : Nat} :
    ∀ {es : List Expr} {tes : List TExpr}, All2 (fun e te => evalExpr E env m vars n e = te.eval E env.seed vars) es tes →
    mapRes (evalExpr E env m vars n) es = TExpr.evalL E env.seed vars tes
  | _, _, .nil => by simp [mapRes, TExpr.evalL]
  | _, _, .cons h hs => by simp [mapRes, TExpr.evalL, h, mapRes_evalL hs]

mutual
/-- The value of a resolved expression is that of its typed form; in particular the fuel suffices. -/
theorem evalExpr_eq {E : Ext} {env : Env} {m : Metadata} {vars : Vars} : ∀ {e : Expr} {te : TExpr} {n : Nat},
    Records m e te → e.depth ≤ n → evalExpr E env m vars n e = te.eval E env.seed vars
  | _, _, 0, .value _, h => by simp [Expr.depth] at h
  | _, _, n + 1, .value (k := k) hv, _ => by
    simp only [evalExpr, evalValue, hv, TExpr.eval]
    cases k <;> rfl
  | _, _, 0, .call _ _ _, h => by simp [Expr.depth] at h
  | _, _, n + 1, .call (args := args) (args' := args') hc ha hl, h => by
    simp only [Expr.depth] at h
    simp only [evalExpr, hc, TExpr.eval, Res.bind_eq]
    have hd : ∀ e ∈ args', e.depth ≤ n := by
      rcases ha with rfl | ⟨i, ts, rfl, rfl⟩
      · exact evalExpr_depthL (by omega)
      · intro e he
        simp only [List.mem_singleton] at he
        subst he
        simp [Expr.depth]; omega
    rw [mapRes_evalL (evalExprL_eq hl hd)]
theorem evalExprL_eq {E : Ext} {env : Env} {m : Metadata} {vars : Vars} : ∀ {es : List Expr} {tes : List TExpr} {n : Nat},
    RecordsL m es tes → (∀ e ∈ es, e.depth ≤ n) →
    All2 (fun e te => evalExpr E env m vars n e = te.eval E env.seed vars) es tes
  | _, _, _, .nil, _ => .nil
  | _, _, _, .cons h hl, hd =>
    .cons (evalExpr_eq h (hd _ (by simp))) (evalExprL_eq hl (fun e he => hd e (by simp [he])))
theorem evalExpr_depthL : ∀ {es : List Expr} {n : Nat}, Expr.depthL es ≤ n → ∀ e ∈ es, e.depth ≤ n
  | [], _, _, e, he => by cases he
  | x :: xs, n, h, e, he => by
    simp only [Expr.depthL] at h
    rcases List.mem_cons.1 he with rfl | he
    · omega
    · exact evalExpr_depthL (by omega) e he
end

/-! ## Lists of definitions -/

/-- The definitions without the ids of the aliases. -/
def named (items : List (Alias × Expr)) : List (Str × Expr) := items.map (fun i => (i.1.2, i.2))

/-- All ids of the expressions of a list of definitions. -/
def specIds (items : List (Alias × Expr)) : List Nat := idsL (items.map (·.2))

theorem ids_id_mem (e : Expr) : e.id ∈ ids e := by cases e <;> simp [ids, Expr.id]

theorem resolveSpec_exact {env : Env} : ∀ (items : List (Alias × Expr)) {Γ : TyEnv} {sc : Scope},
    Agrees Γ sc → Clean sc.md (specIds items) → (specIds items).Nodup →
    (resolveSpec env items sc = .panic ∧ overflowsSpec env.funcs (named items) Γ = true) ∨ (overflowsSpec env.funcs (named items) Γ = false ∧
    match checkSpec env.funcs (named items) Γ with
    | .ok tes => ∃ sc', resolveSpec env items sc = .ok sc' ∧ SameOutside (specIds items) sc.md sc'.md ∧
        All2 (fun item te => item.1.2 = te.1 ∧ Records sc'.md item.2 te.2) items tes
    | .error x => resolveSpec env items sc = .err x ∧ x ≠ .internal)
  | [], Γ, sc, _, _, _ => by
    simp only [named, List.map_nil, checkSpec, resolveSpec, overflowsSpec]
    exact Or.inr ⟨trivial, sc, rfl, SameOutside.refl _ _, .nil⟩
  | ((aid, name), e) :: items, Γ, sc, hA, hC, hN => by
    simp only [specIds, List.map_cons, idsL, List.nodup_append] at hN
    have hCe : Clean sc.md (ids e) := hC.sub (by intro i hi; simp [specIds, idsL, hi])
    have hCs : Clean sc.md (specIds items) := hC.sub (by intro i hi; simp only [specIds] at hi; simp [specIds, idsL, hi])
    have h1 := resolve_exact e (expected := none) (env := env) hA hCe hN.1
    simp only [named, List.map_cons, checkSpec, resolveSpec, resolveItem, overflowsSpec]
    rcases h1 with ⟨hp, hb⟩ | ⟨ho, h1⟩
    · exact Or.inl ⟨by simp [hp], by simp [hb]⟩
    rw [ho, Bool.false_or]
    cases hck : check env.funcs Γ e none with
    | error x =>
      rw [hck] at h1
      simp only [Res.bind_eq, h1.1, Res.bind_err]
      exact Or.inr ⟨trivial, trivial, h1.2⟩
    | ok p =>
      obtain ⟨c, te⟩ := p
      rw [hck] at h1
      obtain ⟨sc1, hr1, hR1⟩ := h1
      simp only [Res.bind_eq, hr1, Res.bind_ok, Scope.tryAddName]
      have hA1 : Agrees Γ sc1 := hA.of_same hCe hR1.aliases hR1.same
      cases hn : sc1.aliases name with
      | some id =>
        have := hA1 name
        rw [hn] at this
        have hs : (Γ name).isSome = true := by cases hg : Γ name <;> simp_all
        simp [hs]
      | none =>
        have := hA1 name
        rw [hn] at this
        have hs : (Γ name).isSome = false := by cases hg : Γ name <;> simp_all
        simp only [hs, Bool.false_eq_true, if_false, Res.bind_ok, Bool.not_false, Bool.true_and]
        have hA2 : Agrees (extend Γ name te.target)
            { sc1 with aliases := fun n => if n = name then some e.id else sc1.aliases n } := by
          intro n
          simp only [extend]
          split
          · simp [hR1.ty]
          · exact hA1 n
        have hdis : ∀ i ∈ specIds items, i ∉ ids e := fun i hi hi' => hN.2.2 i hi' i hi rfl
        have hC2 : Clean sc1.md (specIds items) := by
          intro i hi
          obtain ⟨h1, h2⟩ := hR1.same i (hdis i hi)
          rw [h1, h2]
          exact hCs i hi
        have h2 := resolveSpec_exact items hA2 hC2 hN.2.1 (env := env)
        simp only [named] at h2
        rcases h2 with h2 | ⟨ho2, h2⟩
        · exact Or.inl h2
        refine Or.inr ⟨ho2, ?_⟩
        cases hcs : checkSpec env.funcs (List.map (fun i => (i.1.2, i.2)) items) (extend Γ name te.target) with
        | error x =>
          rw [hcs] at h2
          exact h2
        | ok tes =>
          rw [hcs] at h2
          obtain ⟨sc2, hr2, hs2, ha2⟩ := h2
          refine ⟨sc2, hr2, hR1.same.trans hs2 ?_ ?_, .cons ⟨rfl, hR1.records.mono ?_⟩ ha2⟩
          · intro i hi; simp [specIds, idsL, hi]
          · intro i hi; simp only [specIds] at hi; simp [specIds, idsL, hi]
          · intro i hi
            exact hs2 i (fun h => hdis i h hi)

theorem overflowsSpec_bound {T} : ∀ {items : List (Str × Expr)} {Γ : TyEnv}, overflowsSpec T items Γ = true →
    ∃ i ∈ items, 2 ^ 32 ≤ costBound i.2
  | (name, e) :: items, Γ, h => by
    rw [overflowsSpec, Bool.or_eq_true] at h
    rcases h with h | h
    · exact ⟨(name, e), by simp, overflows_bound e h⟩
    · split at h
      · simp only [Bool.and_eq_true] at h
        obtain ⟨i, hi, hb⟩ := overflowsSpec_bound h.2
        exact ⟨i, by simp [hi], hb⟩
      · cases h

theorem resolveSpec_spec {env : Env} (items : List (Alias × Expr)) {Γ : TyEnv} {sc : Scope}
    (hA : Agrees Γ sc) (hC : Clean sc.md (specIds items)) (hN : (specIds items).Nodup) :
    (resolveSpec env items sc = .panic ∧ ∃ i ∈ items, 2 ^ 32 ≤ costBound i.2) ∨
    match checkSpec env.funcs (named items) Γ with
    | .ok tes => ∃ sc', resolveSpec env items sc = .ok sc' ∧ SameOutside (specIds items) sc.md sc'.md ∧
        All2 (fun item te => item.1.2 = te.1 ∧ Records sc'.md item.2 te.2) items tes
    | .error x => resolveSpec env items sc = .err x ∧ x ≠ .internal := by
  rcases resolveSpec_exact items (env := env) hA hC hN with ⟨h, ho⟩ | ⟨-, h⟩
  · obtain ⟨i, hi, hb⟩ := overflowsSpec_bound ho
    obtain ⟨j, hj, rfl⟩ := List.mem_map.1 hi
    exact Or.inl ⟨h, j, hj, hb⟩
  · exact Or.inr h

/-- The names of a checked list of definitions are new and different. -/
theorem checkSpec_names {T} : ∀ {items : List (Str × Expr)} {Γ : TyEnv} {tes : List (Str × TExpr)},
    checkSpec T items Γ = .ok tes → tes.map (·.1) = items.map (·.1) ∧ (items.map (·.1)).Nodup ∧
      ∀ n ∈ items.map (·.1), Γ n = none
  | [], Γ, tes, h => by simp only [checkSpec] at h; cases h; simp
  | (name, e) :: items, Γ, tes, h => by
    simp only [checkSpec] at h
    split at h
    · cases h
    · rename_i c te hc
      split at h
      · cases h
      · rename_i hs
        split at h
        · cases h
        · rename_i rest hr
          cases h
          obtain ⟨h1, h2, h3⟩ := checkSpec_names hr
          have hg : Γ name = none := by cases hg : Γ name <;> simp_all
          refine ⟨by simp [h1], ?_, ?_⟩
          · simp only [List.map_cons, List.nodup_cons]
            refine ⟨fun hm => ?_, h2⟩
            have := h3 name hm
            simp [extend] at this
          · intro n hn
            simp only [List.map_cons, List.mem_cons] at hn
            rcases hn with rfl | hn
            · exact hg
            · have := h3 n hn
              simp only [extend] at this
              split at this
              · cases this
              · exact this

theorem insertKey_new {κ ν : Type} [BEq κ] [LawfulBEq κ] {k : κ} {v : ν} {l : List (κ × ν)} (h : k ∉ l.map (·.1)) :
    insertKey k v l = (k, v) :: l := by
  unfold insertKey
  rw [List.filter_eq_self.2]
  intro e he
  have : e.1 ≠ k := by
    rintro rfl
    exact h (List.mem_map_of_mem he)
  simpa using this

theorem evalSpec_spec {E : Ext} {env : Env} {m : Metadata} : ∀ {items : List (Alias × Expr)} {tes : List (Str × TExpr)}
    {vars : Vars} {bs : List (Alias × VKind)},
    All2 (fun item te => item.1.2 = te.1 ∧ Records m item.2 te.2) items tes →
    ((items.map (·.1.2)).Nodup) → (∀ i ∈ items, i.1.2 ∉ bs.map (·.1.2)) →
    match evalSpecT E env.seed tes vars with
    | .ok vs => ∃ bs' : List (Alias × VKind), evalSpec E env m items vars bs = .ok (bs'.reverse ++ bs) ∧ bs'.map (fun b => (b.1.2, b.2)) = vs ∧
        bs'.map (·.1) = items.map (·.1)
    | .err x => evalSpec E env m items vars bs = .err x
    | .panic => evalSpec E env m items vars bs = .panic
  | _, _, vars, bs, .nil, _, _ => by
    simp only [evalSpecT, evalSpec]
    exact ⟨[], rfl, rfl, rfl⟩
  | (alias, e) :: items, (name, te) :: tes, vars, bs, .cons ⟨hn, hr⟩ hs, hN, hD => by
    simp only at hn hr
    subst hn
    simp only [List.map_cons, List.nodup_cons] at hN
    simp only [evalSpecT, evalSpec, Res.bind_eq]
    rw [evalExpr_eq hr (Nat.le_refl _)]
    cases hv : te.eval E env.seed vars with
    | err x => simp
    | panic => simp
    | ok v =>
      simp only [Res.bind_ok]
      have hk : alias ∉ bs.map (·.1) := by
        intro h
        obtain ⟨b, hb, rfl⟩ := List.mem_map.1 h
        exact hD _ (List.mem_cons_self ..) (List.mem_map.2 ⟨b, hb, rfl⟩)
      rw [insertKey_new hk]
      have ih := evalSpec_spec (E := E) (env := env) (m := m) (vars := vars.add alias.2 v) (bs := (alias, v) :: bs) hs hN.2 (by
        intro i hi hm
        simp only [List.map_cons, List.mem_cons] at hm
        rcases hm with h | h
        · exact hN.1 (h ▸ List.mem_map.2 ⟨i, hi, rfl⟩)
        · exact hD i (by simp [hi]) h)
      have he : (extend vars alias.2 v) = vars.add alias.2 v := rfl
      rw [he]
      cases hrest : evalSpecT E env.seed tes (vars.add alias.2 v) with
      | err x => rw [hrest] at ih; simpa using ih
      | panic => rw [hrest] at ih; simpa using ih
      | ok vs =>
        rw [hrest] at ih
        obtain ⟨bs', h1, h2, h3⟩ := ih
        simp only [Res.bind_ok]
        exact ⟨(alias, v) :: bs', by simpa using h1, by simp [h2], by simp [h3]⟩

theorem collectSubs_new : ∀ (bs : List (Alias × VKind)) {subs : Subs},
    (bs.map (·.1.2)).Nodup → (∀ b ∈ bs, b.1.2 ∉ subs.map (·.1)) →
    collectSubs bs subs = (bs.map (fun b => (b.1.2, b.2))).reverse ++ subs
  | [], subs, _, _ => rfl
  | (alias, v) :: bs, subs, hN, hD => by
    simp only [List.map_cons, List.nodup_cons] at hN
    simp only [collectSubs]
    rw [insertKey_new (hD (alias, v) (by simp)), collectSubs_new bs hN.2]
    · simp
    · intro b hb hm
      simp only [List.map_cons, List.mem_cons] at hm
      rcases hm with h | h
      · exact hN.1 (h ▸ List.mem_map.2 ⟨b, hb, rfl⟩)
      · exact hD b (by simp [hb]) h

theorem agrees_empty : Agrees (fun _ => none) Scope.empty := by intro n; rfl

theorem clean_empty (l : List Nat) : Clean Scope.empty.md l := fun _ _ => ⟨rfl, rfl⟩

/-- The code computes the alias values of the pure specification. -/
theorem makeSubstitutions_exact {E : Ext} {env : Env} {order : List (Alias × VKind) → List (Alias × VKind)}
    {items : List (Alias × Expr)} (hN : (specIds items).Nodup) (ho : ∀ l, (order l).Perm l) :
    (resolveSpec env items Scope.empty = .panic ∧ makeSubstitutions E env order items = .panic ∧
      overflowsSpec env.funcs (named items) (fun _ => none) = true) ∨ (overflowsSpec env.funcs (named items) (fun _ => none) = false ∧
    match denote E env (named items) with
    | .ok vs => ∃ subs, makeSubstitutions E env order items = .ok subs ∧ subs.Perm vs ∧
        vs.map (·.1) = items.map (·.1.2) ∧ (vs.map (·.1)).Nodup
    | .err x => makeSubstitutions E env order items = .err x
    | .panic => makeSubstitutions E env order items = .panic) := by
  unfold denote makeSubstitutions
  have h := resolveSpec_exact (env := env) items agrees_empty (clean_empty _) hN
  rcases h with ⟨hp, hb⟩ | ⟨ho', h⟩
  · exact Or.inl ⟨hp, by simp [hp], hb⟩
  refine Or.inr ⟨ho', ?_⟩
  cases hcs : checkSpec env.funcs (named items) (fun _ => none) with
  | error x => rw [hcs] at h; simp [h.1]
  | ok tes =>
    rw [hcs] at h
    obtain ⟨sc, hr, -, hrec⟩ := h
    obtain ⟨h1, h2, -⟩ := checkSpec_names hcs
    have hnm : (named items).map (·.1) = items.map (·.1.2) := by simp [named, Function.comp_def]
    rw [hnm] at h1 h2
    have he := evalSpec_spec (E := E) (env := env) (vars := fun _ => none) (bs := []) hrec h2 (by simp)
    simp only [Res.bind_eq, hr, Res.bind_ok]
    cases hev : evalSpecT E env.seed tes (fun _ => none) with
    | err x => rw [hev] at he; simp only at he; simp [he]
    | panic => rw [hev] at he; simp only at he; simp [he]
    | ok vs =>
      rw [hev] at he
      obtain ⟨bs, hb1, hb2, hb3⟩ := he
      simp only [List.append_nil] at hb1
      simp only [hb1, Res.bind_ok]
      have hp : (order bs.reverse).Perm bs := (ho _).trans (List.reverse_perm _)
      have hbn : bs.map (·.1.2) = items.map (·.1.2) := by
        have := congrArg (List.map (·.2)) hb3
        simpa [Function.comp_def] using this
      have hvn : vs.map (·.1) = items.map (·.1.2) := by
        rw [← hb2, ← hbn]; simp [Function.comp_def]
      refine ⟨_, rfl, ?_, hvn, hvn ▸ h2⟩
      rw [collectSubs_new _ ?_ (by simp), List.append_nil, ← hb2]
      · exact (List.reverse_perm _).trans (hp.map _)
      · rw [(hp.map (·.1.2)).nodup_iff, hbn]
        exact h2

theorem makeSubstitutions_spec {E : Ext} {env : Env} {order : List (Alias × VKind) → List (Alias × VKind)}
    {items : List (Alias × Expr)} (hN : (specIds items).Nodup) (ho : ∀ l, (order l).Perm l) :
    (resolveSpec env items Scope.empty = .panic ∧ makeSubstitutions E env order items = .panic ∧
      ∃ i ∈ items, 2 ^ 32 ≤ costBound i.2) ∨
    match denote E env (named items) with
    | .ok vs => ∃ subs, makeSubstitutions E env order items = .ok subs ∧ subs.Perm vs ∧
        vs.map (·.1) = items.map (·.1.2) ∧ (vs.map (·.1)).Nodup
    | .err x => makeSubstitutions E env order items = .err x
    | .panic => makeSubstitutions E env order items = .panic := by
  rcases makeSubstitutions_exact (E := E) (env := env) hN ho with ⟨h1, h2, h3⟩ | ⟨-, h⟩
  · obtain ⟨i, hi, hb⟩ := overflowsSpec_bound h3
    obtain ⟨j, hj, rfl⟩ := List.mem_map.1 hi
    exact Or.inl ⟨h1, h2, j, hj, hb⟩
  · exact Or.inr h

end Verif
