import Verif.Proofs.Eval
import Verif.Proofs.Builtins
/-! # Choice of the overload -/

namespace Verif
open Spec

/-! ## The order of the candidates does not matter -/

theorem better_total {a b : Choice} (h1 : ¬ a.better b) (h2 : ¬ b.better a) :
    a.cost = b.cost ∧ a.func.isVariadic = b.func.isVariadic ∧ a.func.args.length = b.func.args.length ∧
      a.func.id = b.func.id := by
  unfold Choice.better at h1 h2
  generalize a.func.isVariadic = va at *
  generalize b.func.isVariadic = vb at *
  cases va <;> cases vb <;> simp at * <;> omega

theorem eq_of_nodup_map {α β : Type} {f : α → β} {l : List α} (h : (l.map f).Nodup) {x y : α} (hx : x ∈ l) (hy : y ∈ l)
    (he : f x = f y) : x = y := by
  induction l with
  | nil => cases hx
  | cons a l ih =>
    simp only [List.map_cons, List.nodup_cons] at h
    rcases List.mem_cons.1 hx with h1 | h1 <;> rcases List.mem_cons.1 hy with h2 | h2
    · rw [h1, h2]
    · exact absurd (List.mem_map.2 ⟨y, h2, by rw [← he, h1]⟩) h.1
    · exact absurd (List.mem_map.2 ⟨x, h1, by rw [he, h2]⟩) h.1
    · exact ih h.2 h1 h2

theorem best_unique {l : List Choice} (hn : (l.map (·.func.id)).Nodup) {x : Choice} (hx : x ∈ l)
    (h : ∀ y ∈ l, ¬ y.better x) : best l = some x := by
  cases hb : best l with
  | none => rw [best_eq_none.1 hb] at hx; cases hx
  | some ch =>
    have h1 := h ch (best_mem hb)
    have h2 := best_not_better hb x hx
    have := (better_total h1 h2).2.2.2
    rw [eq_of_nodup_map (f := fun c : Choice => c.func.id) hn (best_mem hb) hx this]

theorem best_perm {l l' : List Choice} (hp : l.Perm l') (hn : (l.map (·.func.id)).Nodup) : best l = best l' := by
  cases hb : best l with
  | none =>
    have h0 := best_eq_none.1 hb
    subst h0
    rw [List.nil_perm.1 hp]
    rfl
  | some ch =>
    symm
    apply best_unique ((hp.map _).nodup_iff.1 hn) (hp.mem_iff.1 (best_mem hb))
    intro y hy
    exact best_not_better hb y (hp.mem_iff.2 hy)

theorem usable_func {raw n expected args f ch} (h : usable raw n expected args f = some ch) : ch.func = f :=
  (usable_cost h).1

theorem filterMap_ids_nodup {u : Func → Option Choice} (hu : ∀ f ch, u f = some ch → ch.func = f) {fs : List Func}
    (h : (fs.map (·.id)).Nodup) : ((fs.filterMap u).map (·.func.id)).Nodup := by
  induction fs with
  | nil => simp
  | cons f fs ih =>
    simp only [List.map_cons, List.nodup_cons] at h
    rw [List.filterMap_cons]
    split
    · exact ih h.2
    · rename_i ch hch
      simp only [List.map_cons, List.nodup_cons]
      refine ⟨?_, ih h.2⟩
      intro hm
      obtain ⟨c', hc', he⟩ := List.mem_map.1 hm
      obtain ⟨g, hg, hgu⟩ := List.mem_filterMap.1 hc'
      rw [hu _ _ hgu, hu _ _ hch] at he
      exact h.1 (he ▸ List.mem_map_of_mem hg)

/-- Two function tables with the same overloads in a different order. -/
def Reordered (T T' : Str → Option (List Func)) : Prop :=
  ∀ name, (T name = none ∧ T' name = none) ∨
    ∃ fs fs', T name = some fs ∧ T' name = some fs' ∧ fs.Perm fs' ∧ (fs.map (·.id)).Nodup

/-! ## The same for the code -/

/-- The successful result of an attempt. -/
def okCandidate (attempt : Func → Res (Nat × Scope × List Expr)) (f : Func) : Option Candidate :=
  match attempt f with
  | .ok (c, sc, args) => some ⟨c, sc, f, args⟩
  | _ => none

open Classical in
theorem candidates_eq {attempt : Func → Res (Nat × Scope × List Expr)} {fs : List Func}
    (h : ∀ f, attempt f ≠ .err .internal) :
    candidates attempt fs = if ∃ f ∈ fs, attempt f = .panic then .panic else .ok (fs.filterMap (okCandidate attempt)) := by
  induction fs with
  | nil => simp [candidates]
  | cons f fs ih =>
    rw [candidates, ih]
    cases ha : attempt f with
    | ok p =>
      obtain ⟨c, sc, args⟩ := p
      simp only [List.mem_cons, exists_eq_or_imp, ha, reduceCtorEq, false_or]
      split
      · rfl
      · simp [Res.map, okCandidate, ha]
    | panic => simp [ha]
    | err x =>
      have hx : x ≠ .internal := fun hx => h f (hx ▸ ha)
      simp only [List.mem_cons, exists_eq_or_imp, ha, reduceCtorEq, false_or]
      have : List.filterMap (okCandidate attempt) (f :: fs) = List.filterMap (okCandidate attempt) fs := by
        simp [okCandidate, ha]
      rw [this]

theorem all2_map {α β : Type} {g : α → β} : ∀ (l : List α), All2 (fun a b => b = g a) l (l.map g)
  | [] => .nil
  | _ :: l => .cons rfl (all2_map l)

theorem bestC_mem : ∀ {cs : List Candidate} {c : Candidate}, bestC cs = some c → c ∈ cs
  | x :: xs, c, h => by
    simp only [bestC] at h
    split at h
    · cases h; simp
    · rename_i y hy
      split at h
      · cases h; simp
      · cases h; simp [bestC_mem hy]

/-- The choice of a candidate. -/
def Candidate.choice (c : Candidate) : Choice := ⟨c.cost, c.func, []⟩

theorem bestC_choice (cs : List Candidate) : (bestC cs).map Candidate.choice = best (cs.map Candidate.choice) := by
  rcases bestC_best (R := fun c ch => ch = c.choice) (by rintro c _ rfl; exact ⟨rfl, rfl⟩) (all2_map cs) with
    ⟨h1, h2⟩ | ⟨c, ch, h1, h2, rfl⟩
  · rw [h1, h2]; rfl
  · rw [h1, h2]; rfl

theorem bestC_perm {l l' : List Candidate} (hp : l.Perm l') (hn : (l.map (·.func.id)).Nodup) : bestC l = bestC l' := by
  have h : best (l.map Candidate.choice) = best (l'.map Candidate.choice) :=
    best_perm (hp.map _) (by simpa [Function.comp_def, Candidate.choice] using hn)
  rw [← bestC_choice, ← bestC_choice] at h
  cases h1 : bestC l with
  | none =>
    rw [h1] at h
    cases h2 : bestC l' with
    | none => rfl
    | some d => rw [h2] at h; cases h
  | some c =>
    rw [h1] at h
    cases h2 : bestC l' with
    | none => rw [h2] at h; cases h
    | some d =>
      rw [h2] at h
      simp only [Option.map_some, Option.some.injEq, Candidate.choice, Choice.mk.injEq] at h
      have := eq_of_nodup_map (f := fun c : Candidate => c.func.id) hn (bestC_mem h1) (hp.mem_iff.2 (bestC_mem h2))
        (by simp [h.2.1])
      rw [this]

theorem selectCandidate_eq {id ref expected cs} : selectCandidate id ref expected cs =
    match bestC cs with
    | none => .err ref
    | some c => .ok { c.scope with md := c.scope.md.setCall id ⟨c.args, c.func, expected.getD c.func.out, c.cost⟩ } := by
  rw [← head_sortByKey, selectCandidate]
  cases sortByKey cs <;> rfl

theorem resolveValue_not_internal {id k expected sc} : resolveValue id k expected sc ≠ .err .internal := by
  intro h
  simp only [resolveValue, Res.bind_eq, Res.bind_eq_err] at h
  rcases h with h | ⟨t, -, h⟩
  · unfold valueFromType at h
    repeat' split at h
    all_goals cases h
  · split at h <;> cases h

theorem u32_not_err {n x} : u32 n ≠ .err x := by
  unfold u32
  split <;> simp

theorem resolveCallForFunc_not_internal {name f args raw expected sc go} (h : ∀ ps c sc, go ps c sc ≠ .err .internal) :
    resolveCallForFunc name f args raw expected sc go ≠ .err .internal := by
  intro he
  unfold resolveCallForFunc at he
  simp only [Res.bind_eq, Res.bind_eq_err] at he
  rcases he with he | ⟨c, -, he⟩
  · unfold outCoercion at he
    split at he
    · cases hc : coercionCost f.out ‹_› <;> rw [hc] at he <;> cases he
    · cases he
  · split at he
    · simp only [Res.bind_eq_err] at he
      rcases he with he | ⟨_, -, he⟩
      · exact resolveValue_not_internal he
      · cases he
    · split at he
      · exact h _ _ _ he
      · split at he
        · exact h _ _ _ he
        · cases he

/-- What a successful resolution leaves for `resolve_arg` to read. -/
theorem recordedCost_of_resolve {env} {e : Expr} {expected sc sc'} (h : Expr.resolve env e expected sc = .ok sc') :
    ∃ c, recordedCost e sc'.md = .ok c := by
  cases e with
  | value id k =>
    simp only [Expr.resolve, resolveValue, Res.bind_eq, Res.bind_eq_ok] at h
    obtain ⟨t, -, h⟩ := h
    split at h
    · cases h; exact ⟨_, by simp [recordedCost, Metadata.setValue, Res.ofOption]; rfl⟩
    · cases h
  | call id name args raw =>
    simp only [Expr.resolve] at h
    split at h
    · cases h
    · simp only [Res.bind_eq, Res.bind_eq_ok, selectCandidate_eq] at h
      obtain ⟨cs, -, h⟩ := h
      split at h
      · cases h
      · cases h; exact ⟨_, by simp [recordedCost, Metadata.setCall, Res.ofOption]; rfl⟩

mutual
theorem resolve_not_internal {env} : ∀ (e : Expr) {expected sc}, Expr.resolve env e expected sc ≠ .err .internal
  | .value id k, _, _ => by rw [Expr.resolve]; exact resolveValue_not_internal
  | .call id name args raw, expected, sc => by
    have ha : ∀ f, resolveCallForFunc name f args raw expected sc (fun ps c sc => Expr.resolveArgs env args ps c sc)
        ≠ .err .internal :=
      fun f => resolveCallForFunc_not_internal (fun ps c sc => resolveArgs_not_internal args)
    intro h
    simp only [Expr.resolve] at h
    split at h
    · cases h
    · simp only [Res.bind_eq, Res.bind_eq_err] at h
      rcases h with h | ⟨cs, -, h⟩
      · rw [candidates_eq ha] at h
        split at h <;> cases h
      · rw [selectCandidate_eq] at h
        split at h <;> cases h
theorem resolveArgs_not_internal {env} : ∀ (es : List Expr) {ps c sc}, Expr.resolveArgs env es ps c sc ≠ .err .internal
  | [], _, _, _ => by simp [Expr.resolveArgs]
  | _ :: _, [], _, _ => by simp [Expr.resolveArgs]
  | e :: es, (t, m) :: ps, c, sc => by
    intro h
    rw [Expr.resolveArgs] at h
    simp only [Res.bind_eq, Res.bind_eq_err] at h
    rcases h with h | ⟨sc1, h1, h⟩
    · exact resolve_not_internal e h
    · obtain ⟨k, hk⟩ := recordedCost_of_resolve h1
      rw [hk] at h
      simp only [reduceCtorEq, false_or] at h
      obtain ⟨k', -, h⟩ := h
      rcases h with h | ⟨c1, -, h⟩
      · exact u32_not_err h
      · rcases h with h | ⟨c2, -, h⟩
        · exact u32_not_err h
        · rcases h with h | ⟨r, -, h⟩
          · exact resolveArgs_not_internal es h
          · cases h
end

/-- Equal results up to what errors say. -/
def Alike2 {α : Type} (r r' : Res α) : Prop := r = r' ∨ ∃ x x', r = .err x ∧ r' = .err x'

theorem Alike2.ok {α : Type} {r r' : Res α} (h : Alike2 r r') (a : α) : r = .ok a ↔ r' = .ok a := by
  rcases h with rfl | ⟨x, x', rfl, rfl⟩ <;> simp

theorem Alike2.panic {α : Type} {r r' : Res α} (h : Alike2 r r') : r = .panic ↔ r' = .panic := by
  rcases h with rfl | ⟨x, x', rfl, rfl⟩ <;> simp

theorem Alike2.bind {α β : Type} {r r' : Res α} (h : Alike2 r r') {f f' : α → Res β} (hf : ∀ a, Alike2 (f a) (f' a)) :
    Alike2 (r.bind f) (r'.bind f') := by
  rcases h with rfl | ⟨x, x', rfl, rfl⟩
  · cases r with
    | ok a => exact hf a
    | err x => exact .inl rfl
    | panic => exact .inl rfl
  · exact .inr ⟨x, x', rfl, rfl⟩

theorem candidates_alike {attempt attempt' : Func → Res (Nat × Scope × List Expr)} (ha : ∀ f, attempt f ≠ .err .internal)
    (ha' : ∀ f, attempt' f ≠ .err .internal) (h : ∀ f, Alike2 (attempt f) (attempt' f)) (fs : List Func) :
    candidates attempt fs = candidates attempt' fs := by
  have h1 : okCandidate attempt = okCandidate attempt' := by
    funext f
    rcases h f with he | ⟨x, x', h1, h2⟩
    · unfold okCandidate; rw [he]
    · unfold okCandidate; rw [h1, h2]
  rw [candidates_eq ha, candidates_eq ha', h1]
  have h2 : (∃ f ∈ fs, attempt f = .panic) ↔ ∃ f ∈ fs, attempt' f = .panic :=
    ⟨fun ⟨f, hf, hp⟩ => ⟨f, hf, (h f).panic.1 hp⟩, fun ⟨f, hf, hp⟩ => ⟨f, hf, (h f).panic.2 hp⟩⟩
  by_cases hp : ∃ f ∈ fs, attempt f = .panic
  · rw [if_pos hp, if_pos (h2.1 hp)]
  · rw [if_neg hp, if_neg (fun h => hp (h2.2 h))]

/-- The same candidates in another order lead to the same choice; only the error for the case that there is none may depend on the
order. -/
theorem call_reordered {attempt : Func → Res (Nat × Scope × List Expr)} (ha : ∀ f, attempt f ≠ .err .internal)
    {fs fs' : List Func} (hp : fs.Perm fs') (hn : (fs.map (·.id)).Nodup) {id expected} (ref ref' : Err) :
    ((candidates attempt fs).bind (selectCandidate id ref expected)
      = (candidates attempt fs').bind (selectCandidate id ref' expected)) ∨
    ((candidates attempt fs).bind (selectCandidate id ref expected) = .err ref ∧
      (candidates attempt fs').bind (selectCandidate id ref' expected) = .err ref') := by
  rw [candidates_eq ha, candidates_eq ha]
  have hm : (∃ f ∈ fs, attempt f = .panic) ↔ ∃ f ∈ fs', attempt f = .panic := by simp only [hp.mem_iff]
  by_cases hpan : ∃ f ∈ fs, attempt f = .panic
  · rw [if_pos hpan, if_pos (hm.1 hpan)]
    exact .inl rfl
  · rw [if_neg hpan, if_neg (fun h => hpan (hm.2 h))]
    simp only [Res.bind_ok, selectCandidate_eq]
    rw [bestC_perm (hp.filterMap _)]
    · cases bestC (fs'.filterMap (okCandidate attempt)) with
      | none => exact .inr ⟨rfl, rfl⟩
      | some c => exact .inl rfl
    have : ∀ (l : List Func), (l.map (·.id)).Nodup → ((l.filterMap (okCandidate attempt)).map (·.func.id)).Nodup := by
      intro l hl
      induction l with
      | nil => simp
      | cons f l ih =>
        simp only [List.map_cons, List.nodup_cons] at hl
        rw [List.filterMap_cons]
        split
        · exact ih hl.2
        · rename_i c hc
          have hof : ∀ {g d}, okCandidate attempt g = some d → d.func = g := by
            intro g d h
            unfold okCandidate at h
            split at h
            · cases h; rfl
            · cases h
          simp only [List.map_cons, List.nodup_cons]
          refine ⟨fun hmem => ?_, ih hl.2⟩
          obtain ⟨d, hd, he⟩ := List.mem_map.1 hmem
          obtain ⟨g, hg, hgd⟩ := List.mem_filterMap.1 hd
          rw [hof hgd, hof hc] at he
          exact hl.1 (he ▸ List.mem_map_of_mem hg)
    exact this fs hn

theorem resolveCallForFunc_alike {name f args raw expected sc go go'} (h : ∀ ps c sc, Alike2 (go ps c sc) (go' ps c sc)) :
    Alike2 (resolveCallForFunc name f args raw expected sc go) (resolveCallForFunc name f args raw expected sc go') := by
  unfold resolveCallForFunc
  refine Alike2.bind (.inl rfl) (fun c => ?_)
  dsimp only
  split
  · exact .inl rfl
  · split
    · exact h _ _ _
    · split
      · exact h _ _ _
      · exact .inl rfl

mutual
theorem resolve_reordered {env env' : Env} (h : Reordered env.funcs env'.funcs) : ∀ (e : Expr) {expected sc},
    Expr.resolve env e expected sc = Expr.resolve env' e expected sc ∨
    ∃ fs fs', fs.Perm fs' ∧ Expr.resolve env e expected sc = .err (refusal fs e) ∧
      Expr.resolve env' e expected sc = .err (refusal fs' e)
  | .value id k, _, _ => by rw [Expr.resolve, Expr.resolve]; exact .inl rfl
  | .call id name args raw, expected, sc => by
    have hc : ∀ fs, candidates (fun f => resolveCallForFunc name f args raw expected sc
        (fun ps c sc => Expr.resolveArgs env args ps c sc)) fs = candidates (fun f => resolveCallForFunc name f args raw expected sc
        (fun ps c sc => Expr.resolveArgs env' args ps c sc)) fs :=
      candidates_alike (fun f => resolveCallForFunc_not_internal (fun ps c sc => resolveArgs_not_internal args))
        (fun f => resolveCallForFunc_not_internal (fun ps c sc => resolveArgs_not_internal args))
        (fun f => resolveCallForFunc_alike (fun ps c sc => resolveArgs_reordered h args))
    rcases h name with ⟨h1, h2⟩ | ⟨fs, fs', h1, h2, hp, hn⟩
    · simp only [Expr.resolve, h1, h2]
      exact .inl trivial
    · simp only [Expr.resolve, hc, Res.bind_eq]
      rw [refusal_eq h1 id, refusal_eq h2 id, h1, h2]
      rcases call_reordered (fun f => resolveCallForFunc_not_internal (fun ps c sc => resolveArgs_not_internal args)) hp hn
        (refusal fs (.call id name args raw)) (refusal fs' (.call id name args raw)) with hq | hq
      · exact .inl hq
      · exact .inr ⟨fs, fs', hp, hq⟩
theorem resolveArgs_reordered {env env' : Env} (h : Reordered env.funcs env'.funcs) : ∀ (es : List Expr) {ps c sc},
    Alike2 (Expr.resolveArgs env es ps c sc) (Expr.resolveArgs env' es ps c sc)
  | [], _, _, _ => by simp only [Expr.resolveArgs]; exact .inl rfl
  | _ :: _, [], _, _ => by simp only [Expr.resolveArgs]; exact .inl rfl
  | e :: es, (t, m) :: ps, c, sc => by
    rw [Expr.resolveArgs, Expr.resolveArgs]
    refine Alike2.bind ?_ (fun sc1 => Alike2.bind (.inl rfl) (fun _ => Alike2.bind (.inl rfl) (fun _ => Alike2.bind (.inl rfl)
      (fun _ => Alike2.bind (resolveArgs_reordered h es) (fun _ => .inl rfl)))))
    rcases resolve_reordered h e with he | ⟨fs, fs', -, h1, h2⟩
    · exact .inl he
    · exact .inr ⟨_, _, h1, h2⟩
end

/-! ## Costs -/

mutual
theorem costBound_le : ∀ (e : Expr), costBound e ≤ 5 * nodes e * 2 ^ nesting e
  | .value _ _ => by simp [costBound, nodes, nesting]
  | .call _ _ args _ => by
    have h := costBoundL_le args (Nat.le_refl _)
    simp only [costBound, nodes, nesting]
    have : 5 ≤ 5 * 2 ^ (nestingL args + 1) := Nat.le_mul_of_pos_right _ (Nat.two_pow_pos _)
    calc 5 + costBoundL args ≤ 5 * 2 ^ (nestingL args + 1) + 5 * nodesL args * 2 ^ (nestingL args + 1) := by omega
      _ = 5 * (nodesL args + 1) * 2 ^ (nestingL args + 1) := by
        rw [← Nat.add_mul]
        congr 1
        omega
theorem costBoundL_le : ∀ (es : List Expr) {n : Nat}, nestingL es ≤ n → costBoundL es ≤ 5 * nodesL es * 2 ^ (n + 1)
  | [], _, _ => by simp [costBoundL]
  | e :: es, n, h => by
    simp only [nestingL] at h
    have h1 := costBound_le e
    have h2 := costBoundL_le es (n := n) (by omega)
    have h3 : 5 * nodes e * 2 ^ nesting e ≤ 5 * nodes e * 2 ^ n :=
      Nat.mul_le_mul_left _ (Nat.pow_le_pow_right (by decide) (by omega))
    simp only [costBoundL, nodesL]
    calc 2 * costBound e + costBoundL es ≤ 2 * (5 * nodes e * 2 ^ n) + 5 * nodesL es * 2 ^ (n + 1) := by omega
      _ = 5 * (nodes e + nodesL es) * 2 ^ (n + 1) := by
        rw [Nat.mul_add, Nat.add_mul, Nat.pow_succ]
        congr 1
        rw [Nat.mul_comm 2, Nat.mul_assoc]
end

/-- `d` nested calls of `concat` around one value that is an expression. -/
def nest (ts : Toks) : Nat → Expr
  | 0 => .value 0 (.expr ts)
  | d + 1 => .call (d + 1) (S "concat") [nest ts d] none

theorem ids_nest (ts : Toks) (d : Nat) : ids (nest ts d) = (List.range (d + 1)).reverse := by
  induction d with
  | zero => simp [nest, ids]
  | succ d ih => simp [nest, ids, idsL, ih, List.range_succ]

theorem usable_count {n expected args} {f : Func} (h : paramsFor f n = none) : usable none n expected args f = none := by
  cases ho : usable none n expected args f with
  | none => rfl
  | some ch =>
    obtain ⟨-, co, -, ⟨-, i, ts, h1, -⟩ | ⟨-, ps, c, tes, h1, -⟩⟩ := usable_cost ho
    · cases h1
    · rw [h] at h1; cases h1

theorem usable_args {n expected args} {f : Func} {ps} (hp : paramsFor f n = some ps) (h : args ps = none) :
    usable none n expected args f = none := by
  cases ho : usable none n expected args f with
  | none => rfl
  | some ch =>
    obtain ⟨-, co, -, ⟨-, i, ts, h1, -⟩ | ⟨-, ps', c, tes, h1, h2, -⟩⟩ := usable_cost ho
    · cases h1
    · rw [hp] at h1; cases h1; rw [h] at h2; cases h2

theorem usable_out {n expected args} {f : Func} (h : outCost f.out expected = none) : usable none n expected args f = none := by
  cases ho : usable none n expected args f with
  | none => rfl
  | some ch =>
    obtain ⟨-, co, h1, -⟩ := usable_cost ho
    rw [h] at h1; cases h1

theorem checkArgs_one_err {T Γ e t m x} (h : check T Γ e (some t) = .error x) : checkArgs T Γ [e] [(t, m)] = none := by
  simp [checkArgs, h]

theorem check_nest_other {Γ : TyEnv} {ts : Toks} : ∀ (d : Nat) {t : Ty}, t = .ident ∨ t = .litStr ∨ t = .litInt →
    ∃ x, check builtinFuncs Γ (nest ts d) (some t) = .error x
  | 0, t, h => by
    refine ⟨.typeError (.coercion .expr t), ?_⟩
    have : coercionCost .expr t = none := by rcases h with rfl | rfl | rfl <;> decide
    simp only [nest, check, natural, VKind.ty, Option.getD_some, this]
  | d + 1, t, h => by
    obtain ⟨x1, h1⟩ := check_nest_other (Γ := Γ) (ts := ts) d (t := .ident) (by simp)
    obtain ⟨x2, h2⟩ := check_nest_other (Γ := Γ) (ts := ts) d (t := .litStr) (by simp)
    obtain ⟨x3, h3⟩ := check_nest_other (Γ := Γ) (ts := ts) d (t := .litInt) (by simp)
    simp only [nest, check, builtin_concat, List.length_singleton, List.filterMap_cons, List.filterMap_nil]
    rw [usable_args (f := concatIdents 21) (ps := [(.ident, 2)]) rfl (checkArgs_one_err h1),
      usable_count (f := concatIdentTokens 22) rfl,
      usable_args (f := concatLitStrs 23) (ps := [(.litStr, 2)]) rfl (checkArgs_one_err h2),
      usable_args (f := concatLitInts 24) (ps := [(.litInt, 2)]) rfl (checkArgs_one_err h3),
      usable_out (f := concatTokens 25) (by rcases h with rfl | rfl | rfl <;> rfl)]
    exact ⟨_, rfl⟩

theorem check_nest_tokens {Γ : TyEnv} {ts : Toks} : ∀ (d : Nat),
    ∃ te, check builtinFuncs Γ (nest ts d) (some .tokens) = .ok (4 * 2 ^ d, te)
  | 0 => ⟨.val (.expr ts) .tokens, by
    simp only [nest, check, natural, VKind.ty, Option.getD_some]
    rfl⟩
  | d + 1 => by
    obtain ⟨x1, h1⟩ := check_nest_other (Γ := Γ) (ts := ts) d (t := .ident) (by simp)
    obtain ⟨x2, h2⟩ := check_nest_other (Γ := Γ) (ts := ts) d (t := .litStr) (by simp)
    obtain ⟨x3, h3⟩ := check_nest_other (Γ := Γ) (ts := ts) d (t := .litInt) (by simp)
    obtain ⟨te, ht⟩ := check_nest_tokens (Γ := Γ) (ts := ts) d
    have hu : usable none 1 (some .tokens) (fun ps => checkArgs builtinFuncs Γ [nest ts d] ps) (concatTokens 25)
        = some ⟨0 + (4 * 2 ^ d * 2 + 0), concatTokens 25, [te]⟩ := by
      have hp : paramsFor (concatTokens 25) 1 = some [(.tokens, 2)] := rfl
      have ho : outCost (concatTokens 25).out (some .tokens) = some 0 := rfl
      have hr : (concatTokens 25).args ≠ [.raw] := by decide
      simp only [usable, ho, hp, hr, if_false, Option.bind_eq_bind, Option.bind_some, checkArgs, ht, Option.map_some]
    refine ⟨.call (concatTokens 25) [te] .tokens, ?_⟩
    simp only [nest, check, builtin_concat, List.length_singleton, List.filterMap_cons, List.filterMap_nil]
    rw [usable_args (f := concatIdents 21) (ps := [(.ident, 2)]) rfl (checkArgs_one_err h1),
      usable_count (f := concatIdentTokens 22) rfl,
      usable_args (f := concatLitStrs 23) (ps := [(.litStr, 2)]) rfl (checkArgs_one_err h2),
      usable_args (f := concatLitInts 24) (ps := [(.litInt, 2)]) rfl (checkArgs_one_err h3), hu]
    simp only [best, Option.getD_some, Nat.pow_succ]
    congr 2
    omega

theorem candidates_panic {attempt : Func → Res (Nat × Scope × List Expr)} {fs : List Func}
    (hi : ∀ f, attempt f ≠ .err .internal) {f : Func} (hf : f ∈ fs) (hp : attempt f = .panic) :
    candidates attempt fs = .panic := by
  rw [candidates_eq hi, if_pos ⟨f, hf, hp⟩]

set_option linter.constructorNameAsVariable false in
/-- One call around `nest ts 29` overflows. -/
theorem resolve_nest_panic (seed : Nat) (ts : Toks) (expected : Option Ty) (he : expected = none ∨ expected = some .tokens) :
    Expr.resolve (Env.builtin seed) (nest ts 30) expected Scope.empty = .panic := by
  have hn : (ids (nest ts 29)).Nodup := by
    rw [ids_nest, (List.reverse_perm _).nodup_iff]
    exact List.nodup_range
  have key := fun t => resolve_spec (env := Env.builtin seed) (nest ts 29) (expected := some t) agrees_empty (clean_empty _) hn
  show Expr.resolve (Env.builtin seed) (.call 30 (S "concat") [nest ts 29] none) expected Scope.empty = .panic
  rw [Expr.resolve]
  simp only [Env.builtin, builtin_concat, Res.bind_eq]
  rw [candidates_panic (f := concatTokens 25) ?_ (by simp) ?_]
  · rfl
  · exact fun f => resolveCallForFunc_not_internal (fun ps c sc => resolveArgs_not_internal _)
  · have hout : outCoercion (concatTokens 25) expected = .ok 0 := by rcases he with rfl | rfl <;> rfl
    have hraw : (concatTokens 25).args ≠ [.raw] := by decide
    simp only [resolveCallForFunc, hout, Func.rawArg, hraw, if_false, Res.bind_eq, Res.bind_ok]
    show Expr.resolveArgs (Env.builtin seed) [nest ts 29] [(.tokens, 2)] 0 Scope.empty = .panic
    rw [Expr.resolveArgs]
    simp only [Res.bind_eq]
    rcases key .tokens with ⟨h, -⟩ | h
    · rw [h]; rfl
    · obtain ⟨te, hte⟩ := check_nest_tokens (Γ := fun _ => none) (ts := ts) 29
      simp only [Env.builtin, hte] at h
      obtain ⟨sc', h1, hr⟩ := h
      simp only [Env.builtin, h1, Res.bind_ok, hr.cost]
      rfl

end Verif
