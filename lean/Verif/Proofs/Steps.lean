import Verif.Model.Steps
import Verif.Proofs.Located
import Verif.Proofs.ParseExpr
/-! # Facts about the number of visits -/

namespace Verif
open Spec

namespace CRes

@[simp] theorem bind_eq {α β : Type} (x : CRes α) (f : α → CRes β) : x >>= f = x.bind f := rfl

theorem fst_bind {α β : Type} (x : CRes α) (f : α → CRes β) : (x.bind f).1 = x.1.bind fun a => (f a).1 := by
  obtain ⟨r, n⟩ := x; cases r <;> rfl

@[simp] theorem fst_free {α : Type} (r : Res α) : (free r).1 = r := rfl
@[simp] theorem snd_free {α : Type} (r : Res α) : (free r).2 = 0 := rfl
@[simp] theorem fst_visit {α : Type} (x : CRes α) : (visit x).1 = x.1 := rfl
@[simp] theorem snd_visit {α : Type} (x : CRes α) : (visit x).2 = x.2 + 1 := rfl

/-- A sequence takes what its parts take. -/
theorem snd_bind_le {α β : Type} {x : CRes α} {f : α → CRes β} {a b : Nat} (hx : x.2 ≤ a) (hf : ∀ y, x.1 = .ok y → (f y).2 ≤ b) :
    (x.bind f).2 ≤ a + b := by
  obtain ⟨r, n⟩ := x
  cases r with
  | ok y => exact Nat.add_le_add hx (hf y rfl)
  | err e => exact Nat.le_trans hx (Nat.le_add_right _ _)
  | panic => exact Nat.le_trans hx (Nat.le_add_right _ _)

@[simp] theorem free_bind_snd {α β : Type} (r : Res α) (f : α → CRes β) : ((free r).bind f).2 = match r with | .ok a => (f a).2 | _ => 0 := by
  cases r <;> simp [free, bind]

/-- The outcome and the number of visits, as a `CRes`. -/
def mk {α : Type} (r : Res α) (n : Nat) : CRes α := (r, n)

theorem free_ok_bind {α β : Type} (a : α) (f : α → CRes β) : (free (.ok a)).bind f = f a := by
  show ((f a).1, 0 + (f a).2) = f a
  rw [Nat.zero_add]; rfl

theorem free_err_bind {α β : Type} (e : Err) (f : α → CRes β) : (free (.err e)).bind f = mk (.err e) 0 := rfl

theorem mk_ok_bind {α β : Type} (a : α) (n : Nat) (f : α → CRes β) : (mk (.ok a) n).bind f = mk (f a).1 (n + (f a).2) := rfl

theorem mk_err_bind {α β : Type} (e : Err) (n : Nat) (f : α → CRes β) : (mk (.err e) n).bind f = mk (.err e) n := rfl

end CRes

open CRes

/-! ## The same outcomes -/

theorem resolveCallForFuncC_fst {name f args raw expected sc}
    {goC : List (Ty × Nat) → Nat → Scope → CRes (Nat × Scope × List Expr)} {go : List (Ty × Nat) → Nat → Scope → Res (Nat × Scope × List Expr)}
    (h : ∀ ps c sc, (goC ps c sc).1 = go ps c sc) :
    (resolveCallForFuncC name f args raw expected sc goC).1 = resolveCallForFunc name f args raw expected sc go := by
  unfold resolveCallForFuncC resolveCallForFunc
  simp only [CRes.bind_eq, fst_bind, fst_free, Res.bind_eq]
  congr 1
  funext c
  cases f.rawArg raw with
  | some r => simp only [fst_bind, fst_visit, fst_free]
  | none =>
    simp only
    split
    · exact h _ _ _
    · split
      · exact h _ _ _
      · rfl

theorem candidatesC_fst {attemptC : Func → CRes (Nat × Scope × List Expr)} {attempt : Func → Res (Nat × Scope × List Expr)}
    (h : ∀ f, (attemptC f).1 = attempt f) : ∀ fs, (candidatesC attemptC fs).1 = candidates attempt fs
  | [] => rfl
  | f :: fs => by
    have ih := candidatesC_fst h fs
    rw [candidatesC, candidates, ← h f]
    obtain ⟨r, n⟩ := attemptC f
    cases r with
    | ok r => simp only [ih]
    | panic => rfl
    | err e => cases e <;> first | exact ih | rfl

mutual
theorem resolveC_fst (env : Env) : ∀ (e : Expr) (expected : Option Ty) (sc : Scope),
    (e.resolveC env expected sc).1 = e.resolve env expected sc
  | .value id k, expected, sc => by rw [Expr.resolveC, Expr.resolve]; rfl
  | .call id name args raw, expected, sc => by
    rw [Expr.resolveC, Expr.resolve, fst_visit]
    cases env.funcs name with
    | none => rfl
    | some fs =>
      simp only [CRes.bind_eq, fst_bind, fst_free, Res.bind_eq]
      rw [candidatesC_fst fun f => resolveCallForFuncC_fst fun ps c sc => resolveArgsC_fst env args ps c sc]
theorem resolveArgsC_fst (env : Env) : ∀ (es : List Expr) (ps : List (Ty × Nat)) (c : Nat) (sc : Scope),
    (Expr.resolveArgsC env es ps c sc).1 = Expr.resolveArgs env es ps c sc
  | [], _, c, sc => by simp [Expr.resolveArgsC, Expr.resolveArgs]
  | _ :: _, [], c, sc => by simp [Expr.resolveArgsC, Expr.resolveArgs]
  | e :: es, (t, m) :: ps, c, sc => by
    rw [Expr.resolveArgsC, Expr.resolveArgs]
    simp only [CRes.bind_eq, fst_bind, fst_free, Res.bind_eq, resolveC_fst env e, resolveArgsC_fst env es]
end

theorem resolveSpecC_fst (env : Env) : ∀ (items : List (Alias × Expr)) (sc : Scope),
    (resolveSpecC env items sc).1 = resolveSpec env items sc
  | [], _ => rfl
  | item :: items, sc => by
    simp only [resolveSpecC, resolveSpec, resolveItemC, resolveItem, CRes.bind_eq, fst_bind, fst_free, Res.bind_eq, resolveC_fst,
      resolveSpecC_fst env items]

theorem mapCRes_fst {α β : Type} {fC : α → CRes β} {f : α → Res β} (h : ∀ a, (fC a).1 = f a) : ∀ l, (mapCRes fC l).1 = mapRes f l
  | [] => rfl
  | x :: xs => by simp only [mapCRes, mapRes, fst_bind, h, mapCRes_fst h xs, fst_free]

theorem evalExprC_fst (E : Ext) (env : Env) (m : Metadata) (vars : Vars) : ∀ (n : Nat) (e : Expr),
    (evalExprC E env m vars n e).1 = evalExpr E env m vars n e
  | 0, _ => rfl
  | n + 1, .value id k => rfl
  | n + 1, .call id name args raw => by
    rw [evalExprC, evalExpr, fst_visit]
    cases m.calls id with
    | none => rfl
    | some md =>
      simp only [CRes.bind_eq, fst_bind, fst_free, Res.bind_eq, mapCRes_fst (evalExprC_fst E env m vars n)]

theorem evalSpecC_fst (E : Ext) (env : Env) (m : Metadata) : ∀ (items : List (Alias × Expr)) (vars : Vars) (b : List (Alias × VKind)),
    (evalSpecC E env m items vars b).1 = evalSpec E env m items vars b
  | [], _, _ => rfl
  | (a, e) :: items, vars, b => by
    simp only [evalSpecC, evalSpec, CRes.bind_eq, fst_bind, Res.bind_eq, evalExprC_fst, evalSpecC_fst E env m items]

theorem makeSubstitutionsC_fst (E : Ext) (env : Env) (order : List (Alias × VKind) → List (Alias × VKind)) (items : List (Alias × Expr)) :
    (makeSubstitutionsC E env order items).1 = makeSubstitutions E env order items := by
  simp only [makeSubstitutionsC, makeSubstitutions, CRes.bind_eq, fst_bind, Res.bind_eq, resolveSpecC_fst, evalSpecC_fst, fst_free]

/-! ## Upper bounds -/

theorem candidatesC_le {attempt : Func → CRes (Nat × Scope × List Expr)} {b : Nat} : ∀ {fs : List Func}, (∀ f ∈ fs, (attempt f).2 ≤ b) →
    (candidatesC attempt fs).2 ≤ fs.length * b
  | [], _ => Nat.zero_le _
  | f :: fs, h => by
    have ih := candidatesC_le (b := b) fun g hg => h g (List.mem_cons_of_mem _ hg)
    have hf := h f List.mem_cons_self
    rw [List.length_cons, Nat.add_mul, Nat.one_mul, candidatesC]
    generalize attempt f = x at hf ⊢
    obtain ⟨r, n⟩ := x
    have hf : n ≤ b := hf
    cases r with
    | ok r => exact Nat.le_trans (Nat.add_le_add hf ih) (by omega)
    | panic => exact Nat.le_trans hf (by omega)
    | err e => cases e <;> first | exact Nat.le_trans (Nat.add_le_add hf ih) (by omega) | exact Nat.le_trans hf (by omega)

theorem resolveCallForFuncC_le {name f args raw expected sc b}
    {go : List (Ty × Nat) → Nat → Scope → CRes (Nat × Scope × List Expr)} (h : ∀ ps c sc, (go ps c sc).2 ≤ b) :
    (resolveCallForFuncC name f args raw expected sc go).2 ≤ raw.toList.length + b := by
  unfold resolveCallForFuncC
  rw [CRes.bind_eq, free_bind_snd]
  cases outCoercion f expected with
  | err e => exact Nat.zero_le _
  | panic => exact Nat.zero_le _
  | ok c =>
    cases hr : f.rawArg raw with
    | some r =>
      have : raw.toList.length = 1 := by
        unfold Func.rawArg at hr
        split at hr
        · rw [hr]; rfl
        · cases hr
      rw [this]
      exact Nat.le_trans (CRes.snd_bind_le (a := 1) (b := 0) (by simp) (by simp)) (by omega)
    | none =>
      simp only
      split
      · exact Nat.le_trans (h _ _ _) (Nat.le_add_left _ _)
      · split
        · exact Nat.le_trans (h _ _ _) (Nat.le_add_left _ _)
        · exact Nat.zero_le _

mutual
/-- Every node is visited at most `m` times as often as the call around it, if functions have at most `m` overloads. -/
theorem resolveC_le {env : Env} {m : Nat} (hm : 0 < m) (hT : ∀ name fs, env.funcs name = some fs → fs.length ≤ m) :
    ∀ (e : Expr) (expected : Option Ty) (sc : Scope), (e.resolveC env expected sc).2 ≤ (ids e).length * m ^ nesting e
  | .value id k, expected, sc => by simp [Expr.resolveC, ids, nesting]
  | .call id name args raw, expected, sc => by
    rw [Expr.resolveC, snd_visit]
    have hp : 0 < m ^ nestingL args := Nat.pow_pos hm
    have hr : (raw.map (·.1)).toList.length = raw.toList.length := by cases raw <;> rfl
    simp only [ids, nesting, List.length_append, List.length_cons, hr, Nat.pow_succ]
    cases hf : env.funcs name with
    | none => simp only [snd_free]; exact Nat.mul_pos (by omega) (Nat.mul_pos hp hm)
    | some fs =>
      have h1 := CRes.snd_bind_le (f := fun cs => CRes.free (selectCandidate id (.signature (env.prettySig name) (showCall name args raw)) expected cs)) (b := 0)
        (candidatesC_le (fs := fs) fun f _ => resolveCallForFuncC_le (name := name) (f := f) (raw := raw) (expected := expected) (sc := sc) (args := args) fun ps c sc => resolveArgsC_le hm hT args ps c sc)
        (by simp)
      simp only [CRes.bind_eq]
      refine Nat.le_trans (Nat.add_le_add_right h1 1) ?_
      have h2 : fs.length * (raw.toList.length + (idsL args).length * m ^ nestingL args) ≤ m * (raw.toList.length + (idsL args).length * m ^ nestingL args) :=
        Nat.mul_le_mul_right _ (hT _ _ hf)
      have h3 : raw.toList.length ≤ raw.toList.length * m ^ nestingL args := Nat.le_mul_of_pos_right _ hp
      have h4 : m * (raw.toList.length + (idsL args).length * m ^ nestingL args) ≤ m * (raw.toList.length * m ^ nestingL args + (idsL args).length * m ^ nestingL args) :=
        Nat.mul_le_mul_left _ (by omega)
      have h5 : 0 < m ^ nestingL args * m := Nat.mul_pos hp hm
      have h6 : (raw.toList.length + 1 + (idsL args).length) * (m ^ nestingL args * m) =
          m * (raw.toList.length * m ^ nestingL args + (idsL args).length * m ^ nestingL args) + m ^ nestingL args * m := by
        generalize m ^ nestingL args = p
        generalize raw.toList.length = a
        generalize (idsL args).length = b
        grind
      omega
theorem resolveArgsC_le {env : Env} {m : Nat} (hm : 0 < m) (hT : ∀ name fs, env.funcs name = some fs → fs.length ≤ m) :
    ∀ (es : List Expr) (ps : List (Ty × Nat)) (c : Nat) (sc : Scope), (Expr.resolveArgsC env es ps c sc).2 ≤ (idsL es).length * m ^ nestingL es
  | [], _, c, sc => by simp [Expr.resolveArgsC]
  | _ :: _, [], c, sc => by simp [Expr.resolveArgsC]
  | e :: es, (t, k) :: ps, c, sc => by
    rw [Expr.resolveArgsC]
    simp only [CRes.bind_eq]
    refine Nat.le_trans (CRes.snd_bind_le (b := (idsL es).length * m ^ nestingL es) (resolveC_le hm hT e (some t) sc) fun sc1 _ => ?_) ?_
    · rw [free_bind_snd]; split
      · rw [free_bind_snd]; split
        · rw [free_bind_snd]; split
          · exact CRes.snd_bind_le (b := 0) (resolveArgsC_le hm hT es ps _ sc1) (by simp)
          · simp
        · simp
      · simp
    · simp only [idsL, nestingL, List.length_append, Nat.add_mul]
      exact Nat.add_le_add (Nat.mul_le_mul_left _ (Nat.pow_le_pow_right hm (Nat.le_max_left _ _)))
        (Nat.mul_le_mul_left _ (Nat.pow_le_pow_right hm (Nat.le_max_right _ _)))
end

theorem resolveSpecC_le {env : Env} {m : Nat} (hm : 0 < m) (hT : ∀ name fs, env.funcs name = some fs → fs.length ≤ m) :
    ∀ (items : List (Alias × Expr)) (sc : Scope), (resolveSpecC env items sc).2 ≤ (items.map fun i => (ids i.2).length * m ^ nesting i.2).sum
  | [], _ => by simp [resolveSpecC]
  | i :: items, sc => by
    simp only [resolveSpecC, resolveItemC, CRes.bind_eq, List.map_cons, List.sum_cons]
    refine CRes.snd_bind_le ?_ fun sc1 _ => resolveSpecC_le hm hT items sc1
    exact CRes.snd_bind_le (b := 0) (resolveC_le hm hT i.2 none sc) (by simp)

/-! ## Evaluation -/

theorem mapCRes_le {α β : Type} {f : α → CRes β} {g : α → Nat} : ∀ {l : List α}, (∀ a ∈ l, (f a).2 ≤ g a) → (mapCRes f l).2 ≤ (l.map g).sum
  | [], _ => by simp [mapCRes]
  | x :: xs, h => by
    simp only [mapCRes, List.map_cons, List.sum_cons]
    refine CRes.snd_bind_le (h x List.mem_cons_self) fun _ _ => ?_
    exact CRes.snd_bind_le (b := 0) (mapCRes_le fun a ha => h a (List.mem_cons_of_mem _ ha)) (by simp)

theorem sum_ids : ∀ (es : List Expr), (es.map fun e => (ids e).length).sum = (idsL es).length
  | [] => rfl
  | e :: es => by simp [idsL, sum_ids es]

mutual
theorem evalExprC_le {E : Ext} {env : Env} {m : Metadata} {vars : Vars} : ∀ {e : Expr} {te : TExpr} {n : Nat},
    Records m e te → (evalExprC E env m vars n e).2 ≤ (ids e).length
  | _, _, 0, _ => by simp [evalExprC]
  | _, _, n + 1, .value hv => by simp [evalExprC, ids]
  | _, _, n + 1, .call (args := args) (raw := raw) (args' := args') (f := f) (t := t) hc ha hl => by
    simp only [evalExprC, hc, snd_visit, CRes.bind_eq, ids, List.length_append, List.length_cons]
    have h1 : (mapCRes (evalExprC E env m vars n) args').2 ≤ (raw.map (·.1)).toList.length + (idsL args).length := by
      refine Nat.le_trans (mapCRes_le (g := fun e => (ids e).length) (evalExprC_leL hl)) ?_
      rw [sum_ids]
      rcases ha with rfl | ⟨i, ts, rfl, rfl⟩
      · omega
      · simp [idsL, ids]
    have := CRes.snd_bind_le (b := 0) h1 (f := fun args => (CRes.free (f.impl E env.seed args)).bind fun r => CRes.free (tryCast E r t))
      (fun y _ => by rw [free_bind_snd]; split <;> simp)
    exact Nat.le_trans (Nat.add_le_add_right this 1) (by omega)
theorem evalExprC_leL {E : Ext} {env : Env} {m : Metadata} {vars : Vars} {n : Nat} : ∀ {es : List Expr} {tes : List TExpr},
    RecordsL m es tes → ∀ e ∈ es, (evalExprC E env m vars n e).2 ≤ (ids e).length
  | _, _, .nil, _, h => by cases h
  | _, _, .cons h1 h2, e, h => by
    rcases List.mem_cons.1 h with rfl | h
    · exact evalExprC_le h1
    · exact evalExprC_leL h2 e h
end

theorem evalSpecC_le {E : Ext} {env : Env} {m : Metadata} : ∀ {items : List (Alias × Expr)} {vars : Vars} {b : List (Alias × VKind)},
    (∀ i ∈ items, ∃ te, Records m i.2 te) → (evalSpecC E env m items vars b).2 ≤ (items.map fun i => (ids i.2).length).sum
  | [], _, _, _ => by simp [evalSpecC]
  | (a, e) :: items, vars, b, h => by
    simp only [evalSpecC, CRes.bind_eq, List.map_cons, List.sum_cons]
    obtain ⟨te, ht⟩ := h _ List.mem_cons_self
    exact CRes.snd_bind_le (evalExprC_le ht) fun v _ => evalSpecC_le fun i hi => h i (List.mem_cons_of_mem _ hi)

/-! ## Nested calls of `normalize2` -/

/-- The tokens `normalize2(…normalize2(x)…)`. -/
def towerToks (x : Str) : Nat → Toks
  | 0 => [.ident x]
  | d + 1 => [.ident (S "normalize2"), .group .paren (towerToks x d)]

/-- The expression written like this. -/
def tower (x : Str) : Nat → Expr
  | 0 => .value 0 (.ident x)
  | d + 1 => .call (2 * d + 2) (S "normalize2") [tower x d] (some (2 * d + 1, towerToks x d))

theorem ids_tower (x : Str) : ∀ d, ids (tower x d) = (List.range (2 * d + 1)).reverse
  | 0 => rfl
  | d + 1 => by
    have : 2 * (d + 1) + 1 = 2 * d + 1 + 1 + 1 := by omega
    simp [tower, ids, idsL, ids_tower x d, this, List.range_succ]

theorem nesting_tower (x : Str) : ∀ d, nesting (tower x d) = d
  | 0 => rfl
  | d + 1 => by simp [tower, nesting, nestingL, nesting_tower x d]

theorem bestC_least : ∀ {cs : List Candidate} {c : Candidate}, bestC cs = some c → ∀ b ∈ cs, c.cost ≤ b.cost
  | x :: xs, c, h, b, hb => by
    have key : ∀ p q : Candidate, p.le q = true → p.cost ≤ q.cost := by
      intro p q hpq
      unfold Candidate.le at hpq
      split at hpq
      · exact Nat.le_of_lt (of_decide_eq_true hpq)
      · omega
    have key' : ∀ p q : Candidate, p.le q = false → q.cost ≤ p.cost := by
      intro p q hpq
      unfold Candidate.le at hpq
      split at hpq
      · have := of_decide_eq_false hpq; omega
      · omega
    rw [bestC] at h
    split at h
    · rename_i hn
      cases h
      rcases List.mem_cons.1 hb with rfl | hb
      · exact Nat.le_refl _
      · cases xs with
        | nil => cases hb
        | cons y ys =>
          rw [bestC] at hn
          split at hn
          · cases hn
          · split at hn <;> cases hn
    · rename_i y hy
      have ih := bestC_least hy
      split at h
      · rename_i hle
        cases h
        rcases List.mem_cons.1 hb with rfl | hb
        · exact Nat.le_refl _
        · exact Nat.le_trans (key _ _ hle) (ih b hb)
      · rename_i hle
        cases h
        rcases List.mem_cons.1 hb with rfl | hb
        · exact key' _ _ (by simpa using hle)
        · exact ih b hb

theorem bestC_some {x : Candidate} {xs : List Candidate} : ∃ c, bestC (x :: xs) = some c := by
  rw [bestC]
  split
  · exact ⟨_, rfl⟩
  · split <;> exact ⟨_, rfl⟩

theorem normalize2For_shape {t : Ty} (i : Nat) (ht : t ≠ .raw) (htv : ∀ u, t ≠ .variadic u) (raw : Option (Nat × Toks)) :
    (normalize2For i t).rawArg raw = none ∧ (normalize2For i t).isVariadic = false ∧ (normalize2For i t).params 1 = [(t, 1)] ∧
      (normalize2For i t).args.length = 1 := by
  cases t <;> first | exact absurd rfl ht | exact absurd rfl (htv _) | exact ⟨rfl, rfl, rfl, rfl⟩

theorem attempt_tower_ok {env : Env} {x : Str} {d i : Nat} {t : Ty} {expected : Option Ty} {sc sc' : Scope} {co c n : Nat} (ht : t ≠ .raw) (htv : ∀ u, t ≠ .variadic u)
    (ho : outCoercion (normalize2For i t) expected = .ok co) (hco : co ≤ 5)
    (hr : (tower x d).resolveC env (some t) sc = mk (.ok sc') n) (hc : recordedCost (tower x d) sc'.md = .ok c) (hc4 : c ≤ 5) (raw : Option (Nat × Toks)) :
    resolveCallForFuncC (S "normalize2") (normalize2For i t) [tower x d] raw expected sc
      (fun ps c sc => Expr.resolveArgsC env [tower x d] ps c sc) = mk (.ok (co + c, sc', [tower x d])) n := by
  obtain ⟨h1, h2, h3, h4⟩ := normalize2For_shape i ht htv raw
  have hu : u32 c = .ok c := if_pos (by omega)
  have hu' : u32 (co + c) = .ok (co + c) := if_pos (by omega)
  simp only [resolveCallForFuncC, CRes.bind_eq, ho, h1, h2, h3, h4, List.length_singleton, free_ok_bind, mk_ok_bind, mk_err_bind, Expr.resolveArgsC, hr, hc, hu, hu', Nat.mul_one, Bool.not_false,
    Bool.true_and, beq_self_eq_true, if_true, fst_free, snd_free, Nat.add_zero]

theorem attempt_tower_err {env : Env} {x : Str} {d i : Nat} {t : Ty} {expected : Option Ty} {sc : Scope} {co n : Nat} {e : Err} (ht : t ≠ .raw)
    (htv : ∀ u, t ≠ .variadic u) (ho : outCoercion (normalize2For i t) expected = .ok co)
    (hr : (tower x d).resolveC env (some t) sc = mk (.err e) n) (raw : Option (Nat × Toks)) :
    resolveCallForFuncC (S "normalize2") (normalize2For i t) [tower x d] raw expected sc
      (fun ps c sc => Expr.resolveArgsC env [tower x d] ps c sc) = mk (.err e) n := by
  obtain ⟨h1, h2, h3, h4⟩ := normalize2For_shape i ht htv raw
  simp only [resolveCallForFuncC, CRes.bind_eq, ho, h1, h2, h3, h4, List.length_singleton, free_ok_bind, mk_ok_bind, mk_err_bind, Expr.resolveArgsC, hr, Bool.not_false,
    Bool.true_and, beq_self_eq_true, if_true]

theorem attempt_tower_out {env : Env} {x : Str} {d i : Nat} {t : Ty} {expected : Option Ty} {sc : Scope} {e : Err}
    (ho : outCoercion (normalize2For i t) expected = .err e) (raw : Option (Nat × Toks)) :
    resolveCallForFuncC (S "normalize2") (normalize2For i t) [tower x d] raw expected sc
      (fun ps c sc => Expr.resolveArgsC env [tower x d] ps c sc) = mk (.err e) 0 := by
  simp only [resolveCallForFuncC, CRes.bind_eq, ho, free_err_bind]

theorem normalize2_funcs (seed : Nat) : (Env.builtin seed).funcs (S "normalize2") =
    some [normalize2For 11 .ident, normalize2For 12 .litStr, normalize2For 13 .litInt, normalize2For 14 .path,
      normalize2For 15 .type, normalize2For 16 .expr, normalize2For 17 .tokens] := rfl

/-- What resolving a tower takes: `(7 * 5 ^ d - 3) / 4` visits where an identifier is accepted, one elsewhere. -/
def TowerAt (seed : Nat) (x : Str) (d : Nat) (sc : Scope) : Prop :=
  (∀ expected ∈ [none, some Ty.ident, some .path, some .type, some .expr, some .tokens], ∃ sc' n c,
    (tower x d).resolveC (Env.builtin seed) expected sc = (.ok sc', n) ∧ 4 * n + 3 = 7 * 5 ^ d ∧ recordedCost (tower x d) sc'.md = .ok c ∧ c ≤ 4 ∧
      (expected = some .ident → c = 0)) ∧
  (∀ t ∈ [Ty.litStr, .litInt], ∃ e, (tower x d).resolveC (Env.builtin seed) (some t) sc = (.err e, 1) ∧ e ≠ .internal)

theorem towerAt (seed : Nat) {x : Str} {sc : Scope} (hx : sc.aliases x = none) : ∀ d, TowerAt seed x d sc
  | 0 => by
    have hv : valueFromType (.ident x) sc = .ok .ident := by simp [valueFromType, hx, VKind.ty]
    constructor
    · intro expected he
      simp only [List.mem_cons, List.not_mem_nil, or_false] at he
      rcases he with rfl | rfl | rfl | rfl | rfl | rfl <;>
        exact ⟨_, 1, _, by simp only [tower, Expr.resolveC, resolveValue, hv]; rfl, rfl,
          by simp only [tower, recordedCost, Metadata.setValue, if_true]; rfl, by decide, by decide⟩
    · intro t ht
      simp only [List.mem_cons, List.not_mem_nil, or_false] at ht
      rcases ht with rfl | rfl <;>
        exact ⟨_, by simp only [tower, Expr.resolveC, resolveValue, hv]; rfl, by simp⟩
  | d + 1 => by
    obtain ⟨ih1, ih2⟩ := towerAt seed hx d
    constructor
    · intro expected he
      have ho : ∃ co, (∀ i t, outCoercion (normalize2For i t) expected = .ok co) ∧ co ≤ 4 ∧ (expected = some .ident → co = 0) := by
        simp only [List.mem_cons, List.not_mem_nil, or_false] at he
        rcases he with rfl | rfl | rfl | rfl | rfl | rfl <;> exact ⟨_, fun i t => rfl, by decide, by decide⟩
      obtain ⟨co, ho, hco, hco'⟩ := ho
      obtain ⟨s1, n1, c1, r1, e1, k1, l1, z1⟩ := ih1 (some .ident) (by simp)
      obtain ⟨s2, n2, c2, r2, e2, k2, l2, -⟩ := ih1 (some .path) (by simp)
      obtain ⟨s3, n3, c3, r3, e3, k3, l3, -⟩ := ih1 (some .type) (by simp)
      obtain ⟨s4, n4, c4, r4, e4, k4, l4, -⟩ := ih1 (some .expr) (by simp)
      obtain ⟨s5, n5, c5, r5, e5, k5, l5, -⟩ := ih1 (some .tokens) (by simp)
      obtain ⟨x6, r6, i6⟩ := ih2 .litStr (by simp)
      obtain ⟨x7, r7, i7⟩ := ih2 .litInt (by simp)
      have a1 := attempt_tower_ok (i := 11) (by simp) (by simp) (ho _ _) (by omega) r1 k1 (by omega) (some (2 * d + 1, towerToks x d))
      have a2 := attempt_tower_ok (i := 14) (by simp) (by simp) (ho _ _) (by omega) r2 k2 (by omega) (some (2 * d + 1, towerToks x d))
      have a3 := attempt_tower_ok (i := 15) (by simp) (by simp) (ho _ _) (by omega) r3 k3 (by omega) (some (2 * d + 1, towerToks x d))
      have a4 := attempt_tower_ok (i := 16) (by simp) (by simp) (ho _ _) (by omega) r4 k4 (by omega) (some (2 * d + 1, towerToks x d))
      have a5 := attempt_tower_ok (i := 17) (by simp) (by simp) (ho _ _) (by omega) r5 k5 (by omega) (some (2 * d + 1, towerToks x d))
      have a6 := attempt_tower_err (i := 12) (by simp) (by simp) (ho _ _) r6 (some (2 * d + 1, towerToks x d))
      have a7 := attempt_tower_err (i := 13) (by simp) (by simp) (ho _ _) r7 (some (2 * d + 1, towerToks x d))
      have hcs : ∃ cs, candidatesC (fun f => resolveCallForFuncC (S "normalize2") f [tower x d] (some (2 * d + 1, towerToks x d)) expected sc
          (fun ps c sc => Expr.resolveArgsC (Env.builtin seed) [tower x d] ps c sc)) [normalize2For 11 .ident, normalize2For 12 .litStr, normalize2For 13 .litInt, normalize2For 14 .path,
            normalize2For 15 .type, normalize2For 16 .expr, normalize2For 17 .tokens] =
          CRes.mk (.ok (⟨co + c1, s1, normalize2For 11 .ident, [tower x d]⟩ :: cs)) (n1 + (1 + (1 + (n2 + (n3 + (n4 + (n5 + 0))))))) := by
        refine ⟨[⟨co + c2, s2, normalize2For 14 .path, [tower x d]⟩, ⟨co + c3, s3, normalize2For 15 .type, [tower x d]⟩,
          ⟨co + c4, s4, normalize2For 16 .expr, [tower x d]⟩, ⟨co + c5, s5, normalize2For 17 .tokens, [tower x d]⟩], ?_⟩
        simp only [candidatesC, CRes.mk, a1, a2, a3, a4, a5, a6, a7]
        cases x6 <;> cases x7 <;> first | exact absurd rfl i6 | exact absurd rfl i7 | rfl
      obtain ⟨cs, hcs⟩ := hcs
      obtain ⟨b, hb⟩ := bestC_some (x := ⟨co + c1, s1, normalize2For 11 .ident, [tower x d]⟩) (xs := cs)
      refine ⟨{ b.scope with md := b.scope.md.setCall (2 * d + 2) ⟨b.args, b.func, expected.getD b.func.out, b.cost⟩ }, n1 + n2 + n3 + n4 + n5 + 3, b.cost, ?_, by rw [Nat.pow_succ]; omega, ?_, ?_, ?_⟩
      · rw [tower, Expr.resolveC, normalize2_funcs]
        simp only [CRes.bind_eq, hcs, mk_ok_bind, selectCandidate_eq, hb]
        show (_, n1 + (1 + (1 + (n2 + (n3 + (n4 + (n5 + 0)))))) + 0 + 1) = _
        rw [show n1 + (1 + (1 + (n2 + (n3 + (n4 + (n5 + 0)))))) + 0 + 1 = n1 + n2 + n3 + n4 + n5 + 3 by omega]
        rfl
      · simp [tower, recordedCost, Metadata.setCall, Res.ofOption]
      · have := bestC_least hb _ List.mem_cons_self
        simp only [z1 rfl] at this
        omega
      · intro h
        have := bestC_least hb _ List.mem_cons_self
        simp only [z1 rfl, hco' h] at this
        omega
    · intro t ht
      have ho : ∀ i u, outCoercion (normalize2For i u) (some t) = .err (.typeError (.coercion .ident t)) := by
        simp only [List.mem_cons, List.not_mem_nil, or_false] at ht
        rcases ht with rfl | rfl <;> exact fun i u => rfl
      refine ⟨.signature ((Env.builtin seed).prettySig (S "normalize2")) (showCall (S "normalize2") [tower x d] (some (2 * d + 1, towerToks x d))), ?_, ?_⟩
      · rw [tower, Expr.resolveC, normalize2_funcs]
        simp only [CRes.bind_eq, candidatesC, attempt_tower_out (ho _ _)]
        rfl
      · simp

/-! ## Towers are written like this -/

theorem towerToks_noComma (x : Str) : ∀ d, untilComma (towerToks x d) = (towerToks x d, [])
  | 0 => by simp [towerToks, untilComma, peekPunct]
  | d + 1 => by simp [towerToks, untilComma, peekPunct]

theorem towerToks_ne (x : Str) (d : Nat) : towerToks x d ≠ [] := by cases d <;> simp [towerToks]

/-- `x` alone is read as an identifier, and one id is drawn. -/
theorem parseValue_ident (Y : Syn) (ids : Nat → Nat) {x : Str} (hx : x ∉ keywords) (k : Nat) :
    parseValue Y ids [.ident x] k = (.ok (.value (ids k) (.ident x), []), k + 1) := by
  have hc : ∀ n, leafCount (List.take n [Tok.ident x]) ≤ 1 := by
    intro n
    cases n <;> simp [leafCount, Tok.leaves]
  have hb : ∀ n, isBetter (some (1, .value (ids k) (.ident x), [])) (leafCount (List.take n [Tok.ident x])) = false := by
    intro n
    simpa [isBetter] using hc n
  have key : ∀ (l : List Kind), (∀ q ∈ l, ∀ v n r, q [.ident x] = some (v, n, r) → n ≤ 1) →
      tryKinds ids [.ident x] l (some (1, .value (ids k) (.ident x), [])) (k + 1) = (some (1, .value (ids k) (.ident x), []), k + 1) := by
    intro l hl
    induction l with
    | nil => rfl
    | cons q l ih =>
      rw [tryKinds]
      cases h : tryParse q [.ident x] with
      | none => exact ih fun q hq => hl q (List.mem_cons_of_mem _ hq)
      | some w =>
        obtain ⟨n, v, r⟩ := w
        have hn : n ≤ 1 := by
          unfold tryParse at h
          split at h
          · cases h
          · rename_i v' n' r' hq
            split at h
            · cases h; exact hl q List.mem_cons_self _ _ _ hq
            · cases h
        have : isBetter (some (1, .value (ids k) (.ident x), [])) n = false := by simpa [isBetter] using hn
        simp only [this]
        exact ih fun q hq => hl q (List.mem_cons_of_mem _ hq)
  have hext : ∀ (p : Toks → Option Nat) (mk : Toks → VKind) v n r, Kind.ext p mk [.ident x] = some (v, n, r) → n ≤ 1 := by
    intro p mk v n r h
    simp only [Kind.ext, Option.map_eq_some_iff] at h
    obtain ⟨m, -, h⟩ := h
    cases h
    exact hc m
  have h1 : ∀ v n r, Kind.ident [.ident x] = some (v, n, r) → n ≤ 1 := by
    intro v n r h
    simp [Kind.ident, opened, Tok.opened, hx] at h
    omega
  have hkinds : tryKinds ids [.ident x] (kinds Y) none k = (some (1, .value (ids k) (.ident x), []), k + 1) := by
    rw [kinds, tryKinds, tryKinds, tryKinds]
    by_cases hu : x = S "_"
    · subst hu
      simp only [tryParse, Kind.litInt, Kind.litStr, Kind.underscore, opened, Tok.opened, beq_self_eq_true, if_true, List.isEmpty_nil, Bool.true_or, isBetter, List.append_nil]
      refine key _ ?_
      intro q hq
      simp only [List.mem_cons, List.not_mem_nil, or_false] at hq
      rcases hq with rfl | rfl | rfl | rfl
      · exact h1
      all_goals exact hext _ _
    · rw [tryKinds]
      simp only [tryParse, Kind.litInt, Kind.litStr, Kind.underscore, Kind.ident, opened, Tok.opened, beq_iff_eq, hu, if_false, List.contains_eq_mem, hx, decide_false, Bool.false_eq_true,
        List.isEmpty_nil, Bool.true_or, if_true, isBetter, List.append_nil]
      refine key _ ?_
      intro q hq
      simp only [List.mem_cons, List.not_mem_nil, or_false] at hq
      rcases hq with rfl | rfl | rfl <;> exact hext _ _
  simp only [parseValue, hkinds]

theorem normalize2_notKw : S "normalize2" ∉ keywords := by decide +kernel

theorem parse_tower (Y : Syn) {known : Str → Bool} (hk : known (S "normalize2") = true) {x : Str} (hx : x ∉ keywords) : ∀ d n, d < n →
    Wp (parseExpr Y known id n) (towerToks x d) 0 (fun e r k => e = tower x d ∧ r = [] ∧ k = 2 * d + 1) (fun _ _ => False)
  | 0, n + 1, _ => by
    simp only [parseExpr, wp_bind, wp_attempt, wp_parseIdentTok, towerToks]
    refine .inl ⟨x, [], .here (by simp), hx, ?_⟩
    have hv : Wp (parseValue Y id) [.ident x] 0 (fun e r k => e = tower x 0 ∧ r = [] ∧ k = 2 * 0 + 1) (fun _ _ => False) :=
      Wp.intro_ok (parseValue_ident Y id hx 0) ⟨rfl, rfl, rfl⟩
    by_cases h : known x
    · simp only [h, Bool.not_true, Bool.false_eq_true, if_false, wp_pure, wp_bind, wp_parseGroup]
      refine .inr ⟨fun c => ?_, ?_⟩
      · intro r h0; cases h0
      · simpa using hv
    · simp only [h, Bool.not_false, if_true, wp_bind, wp_fail]
      simpa using hv
  | d + 1, n + 1, hd => by
    have ih := parse_tower Y hk hx d n (by omega)
    simp only [parseExpr, wp_bind, wp_attempt, wp_parseIdentTok, towerToks]
    refine .inl ⟨S "normalize2", _, .here (by simp), normalize2_notKw, ?_⟩
    simp only [hk, Bool.not_true, Bool.false_eq_true, if_false, wp_pure, wp_bind, wp_parseGroup]
    refine .inl ⟨_, _, .here (by simp), ?_⟩
    simp only [wp_attempt, wp_within, wp_parseTerminated, parseTerminatedLoop, wp_bind, wp_look]
    refine wp_ite (fun h => absurd (isEmpty_iff.1 h) (towerToks_ne x d)) (fun _ => ?_)
    simp only [wp_bind]
    have ht : Wp (terminated (parseExpr Y known id n)) (towerToks x d) 0 (fun e r k => e = tower x d ∧ r = [] ∧ k = 2 * d + 1) (fun _ _ => False) := by
      rw [wp_terminated, towerToks_noComma]
      refine ih.mono ?_ fun _ _ h => h
      rintro e r k ⟨rfl, rfl, rfl⟩
      simp
    refine ht.mono ?_ ?_
    · rintro e r k ⟨rfl, rfl, rfl⟩
      simp [argsOr, tower]
      omega
    · exact fun _ _ h => h.elim

end Verif
