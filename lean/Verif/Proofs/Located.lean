import Verif.Model.Located
import Verif.Proofs.Seed
import Verif.Proofs.VisitorErrors
/-! # Facts about the places of errors -/

namespace Verif
open Spec

namespace LRes

@[simp] theorem bind_eq {α β} (x : LRes α) (f : α → LRes β) : x >>= f = x.bind f := rfl
@[simp] theorem bind_ok {α β} (a : α) (f : α → LRes β) : (ok a).bind f = f a := rfl
@[simp] theorem bind_err' {α β} (e : Err) (p : Place) (f : α → LRes β) : (err e p : LRes α).bind f = err e p := rfl
@[simp] theorem bind_panic {α β} (f : α → LRes β) : (panic : LRes α).bind f = panic := rfl

theorem bind_eq_err {α β} {x : LRes α} {f : α → LRes β} {e : Err} {p : Place} :
    x.bind f = err e p ↔ x = err e p ∨ ∃ a, x = ok a ∧ f a = err e p := by
  cases x <;> simp

theorem forget_bind {α β} (x : LRes α) (f : α → LRes β) : (x.bind f).forget = x.forget.bind fun a => (f a).forget := by
  cases x <;> rfl

@[simp] theorem forget_at {α} (p : Err → Place) (r : Res α) : (at_ p r).forget = r := by cases r <;> rfl

@[simp] theorem forget_ok {α} (a : α) : (ok a).forget = .ok a := rfl
@[simp] theorem forget_err {α} (e : Err) (p : Place) : (err e p : LRes α).forget = .err e := rfl
@[simp] theorem forget_panic {α} : (panic : LRes α).forget = .panic := rfl

theorem forget_eq_ok {α} {r : LRes α} {a : α} : r.forget = .ok a ↔ r = .ok a := by cases r <;> simp [forget]

theorem at_eq_err {α} {p : Err → Place} {r : Res α} {e : Err} {q : Place} : at_ p r = err e q ↔ r = .err e ∧ q = p e := by
  cases r with
  | ok a => simp [at_]
  | panic => simp [at_]
  | err x =>
    simp only [at_, err.injEq, Res.err.injEq]
    constructor
    · rintro ⟨rfl, rfl⟩; exact ⟨rfl, rfl⟩
    · rintro ⟨rfl, rfl⟩; exact ⟨rfl, rfl⟩

theorem at_eq_ok {α} {p : Err → Place} {r : Res α} {a : α} : at_ p r = ok a ↔ r = .ok a := by cases r <;> simp [at_]

end LRes

open LRes

/-! ## The same errors -/

theorem tryAddNameL_forget (sc : Scope) (name : Str) (id : Nat) : (sc.tryAddNameL name id).forget = sc.tryAddName name id := by
  unfold Scope.tryAddNameL Scope.tryAddName
  cases sc.aliases name <;> rfl

theorem resolveCallForFuncL_forget {id name f args raw expected sc}
    {goL : List (Ty × Nat) → Nat → Scope → LRes (Nat × Scope × List Expr)} {go : List (Ty × Nat) → Nat → Scope → Res (Nat × Scope × List Expr)}
    (h : ∀ ps c sc, (goL ps c sc).forget = go ps c sc) :
    (resolveCallForFuncL id name f args raw expected sc goL).forget = resolveCallForFunc name f args raw expected sc go := by
  unfold resolveCallForFuncL resolveCallForFunc
  simp only [LRes.bind_eq, forget_bind, forget_at, Res.bind_eq]
  congr 1
  funext c
  cases f.rawArg raw with
  | some r =>
    simp only [forget_bind, resolveValueL, forget_at, forget_ok]
  | none =>
    simp only
    split
    · exact h _ _ _
    · split
      · exact h _ _ _
      · rfl

theorem candidatesL_forget {attemptL : Func → LRes (Nat × Scope × List Expr)} {attempt : Func → Res (Nat × Scope × List Expr)}
    (h : ∀ f, (attemptL f).forget = attempt f) : ∀ fs, (candidatesL attemptL fs).forget = candidates attempt fs
  | [] => rfl
  | f :: fs => by
    have ih := candidatesL_forget h fs
    rw [candidatesL, candidates, ← h f]
    cases ha : attemptL f with
    | ok r =>
      simp only [forget_ok, forget_bind, ih]
      cases candidates attempt fs <;> rfl
    | panic => rfl
    | err e p => cases e <;> first | exact ih | rfl

mutual
theorem resolveL_forget (env : Env) : ∀ (e : Expr) (expected : Option Ty) (sc : Scope),
    (e.resolveL env expected sc).forget = e.resolve env expected sc
  | .value id k, expected, sc => by rw [Expr.resolveL, Expr.resolve, resolveValueL, forget_at]
  | .call id name args raw, expected, sc => by
    rw [Expr.resolveL, Expr.resolve]
    cases env.funcs name with
    | none => rfl
    | some fs =>
      simp only [LRes.bind_eq, forget_bind, forget_at, Res.bind_eq]
      rw [candidatesL_forget fun f => resolveCallForFuncL_forget fun ps c sc => resolveArgsL_forget env args ps c sc]
theorem resolveArgsL_forget (env : Env) : ∀ (es : List Expr) (ps : List (Ty × Nat)) (c : Nat) (sc : Scope),
    (Expr.resolveArgsL env es ps c sc).forget = Expr.resolveArgs env es ps c sc
  | [], _, c, sc => by simp [Expr.resolveArgsL, Expr.resolveArgs]
  | _ :: _, [], c, sc => by simp [Expr.resolveArgsL, Expr.resolveArgs]
  | e :: es, (t, m) :: ps, c, sc => by
    rw [Expr.resolveArgsL, Expr.resolveArgs]
    simp only [LRes.bind_eq, forget_bind, forget_at, Res.bind_eq, resolveL_forget env e, resolveArgsL_forget env es, forget_ok]
end

theorem resolveItemL_forget (env : Env) (item : Alias × Expr) (sc : Scope) : (resolveItemL env item sc).forget = resolveItem env item sc := by
  simp only [resolveItemL, resolveItem, LRes.bind_eq, forget_bind, resolveL_forget, tryAddNameL_forget, Res.bind_eq]

theorem resolveSpecL_forget (env : Env) : ∀ (items : List (Alias × Expr)) (sc : Scope),
    (resolveSpecL env items sc).forget = resolveSpec env items sc
  | [], _ => rfl
  | item :: items, sc => by
    simp only [resolveSpecL, resolveSpec, LRes.bind_eq, forget_bind, resolveItemL_forget, Res.bind_eq, resolveSpecL_forget env items]

theorem mapLRes_forget {α β : Type} {fL : α → LRes β} {f : α → Res β} (h : ∀ a, (fL a).forget = f a) :
    ∀ l, (mapLRes fL l).forget = mapRes f l
  | [] => rfl
  | x :: xs => by simp only [mapLRes, mapRes, forget_bind, h, mapLRes_forget h xs, forget_ok]

theorem evalExprL_forget (E : Ext) (env : Env) (m : Metadata) (vars : Vars) : ∀ (n : Nat) (e : Expr),
    (evalExprL E env m vars n e).forget = evalExpr E env m vars n e
  | 0, _ => rfl
  | n + 1, .value id k => by simp only [evalExprL, evalExpr, forget_at]
  | n + 1, .call id _ _ _ => by
    simp only [evalExprL, evalExpr]
    cases m.calls id with
    | none => rfl
    | some md =>
      simp only [LRes.bind_eq, forget_bind, forget_at, Res.bind_eq, mapLRes_forget (evalExprL_forget E env m vars n)]

theorem evalSpecL_forget (E : Ext) (env : Env) (m : Metadata) : ∀ (items : List (Alias × Expr)) (vars : Vars) (bindings : List (Alias × VKind)),
    (evalSpecL E env m items vars bindings).forget = evalSpec E env m items vars bindings
  | [], _, _ => rfl
  | (alias, e) :: items, vars, bindings => by
    simp only [evalSpecL, evalSpec, LRes.bind_eq, forget_bind, evalExprL_forget, Res.bind_eq, evalSpecL_forget E env m items]

theorem makeSubstitutionsL_forget (E : Ext) (env : Env) (order : List (Alias × VKind) → List (Alias × VKind)) (items : List (Alias × Expr)) :
    (makeSubstitutionsL E env order items).forget = makeSubstitutions E env order items := by
  simp only [makeSubstitutionsL, makeSubstitutions, LRes.bind_eq, forget_bind, resolveSpecL_forget, evalSpecL_forget, forget_ok, Res.bind_eq]

theorem loopSpecItemsL_forget {α : Type} : ∀ (ls : List (LoopAlias α × List (LoopSourceValue Expr))) (vs : List (LoopSourceValue Expr)),
    (loopSpecItemsL ls vs).forget = loopSpecItems ls vs
  | [], [] => rfl
  | [], _ :: _ => rfl
  | _ :: _, [] => rfl
  | l :: ls, v :: vs => by
    simp only [loopSpecItemsL, loopSpecItems, LRes.bind_eq, forget_bind, makeSpecItemsL, forget_at, forget_ok, Res.bind_eq, loopSpecItemsL_forget ls vs]

theorem expandLoopL_forget {α β : Type} (loops : List (LoopAlias α × List (LoopSourceValue Expr))) (spec : Option (AliasSpec α Expr)) (block : β) :
    ∀ (n : Nat) (cp : CrossProduct (LoopSourceValue Expr)), (expandLoopL loops spec block n cp).forget = expandLoop loops spec block n cp
  | 0, _ => rfl
  | n + 1, cp => by
    simp only [expandLoopL, expandLoop, LRes.bind_eq, forget_bind, forget_at, Res.bind_eq]
    congr 1
    funext r
    obtain ⟨r, cp'⟩ := r
    cases r with
    | none => rfl
    | some vals =>
      simp only [forget_bind, forget_ok, loopSpecItemsL_forget, expandLoopL_forget loops spec block n cp']
      cases spec <;> rfl

theorem expandL_forget {α β : Type} (ast : RawAst α Expr β) : (expandL ast).forget = expand ast := by
  unfold expandL expand
  cases ast.loops with
  | none => rfl
  | some ls => exact expandLoopL_forget _ _ _ _ _

theorem executeBlockRewriteL_forget (W : World) (env : Env) (order : List (Alias × VKind) → List (Alias × VKind)) (cell : ThreadCell)
    (br : BlockRewrite Alias Expr (List Stmt)) :
    (executeBlockRewriteL W env order cell br).forget = executeBlockRewrite W env order cell br := by
  simp only [executeBlockRewriteL, executeBlockRewrite, LRes.bind_eq, forget_bind, makeSubstitutionsL_forget, forget_at, Res.bind_eq]

theorem executeAllL_forget (W : World) (env : Env) (orders : Orders) (cell : ThreadCell) :
    ∀ (n : Nat) (brs : List (BlockRewrite Alias Expr (List Stmt))), (executeAllL W env orders cell n brs).forget = executeAll W env orders cell n brs
  | _, [] => rfl
  | n, br :: brs => by
    simp only [executeAllL, executeAll, LRes.bind_eq, forget_bind, executeBlockRewriteL_forget, executeAllL_forget W env orders cell (n + 1) brs,
      forget_ok, Res.bind_eq]

theorem executeL_forget (W : World) (env : Env) (orders : Orders) (cell : ThreadCell) (args : RawAst Alias Expr (List Stmt)) :
    (executeL W env orders cell args).forget = execute W env orders cell args := by
  simp only [executeL, execute, LRes.bind_eq, forget_bind, expandL_forget, executeAllL_forget, Res.bind_eq]

/-! ## The loops -/

/-- What one iteration gives. -/
def rewriteForL {α β : Type} (loops : List (LoopAlias α × List (LoopSourceValue Expr))) (spec : Option (AliasSpec α Expr)) (block : β)
    (vals : List (LoopSourceValue Expr)) : LRes (BlockRewrite α Expr β) :=
  (loopSpecItemsL loops vals).bind fun items => .ok
    (match spec with
    | some s => ⟨⟨items ++ s.items, s.isCommaUsed⟩, block⟩
    | none => ⟨⟨items, none⟩, block⟩)

theorem expandLoopL_of_yields {α β : Type} (loops : List (LoopAlias α × List (LoopSourceValue Expr))) (spec : Option (AliasSpec α Expr))
    (block : β) {cp : CrossProduct (LoopSourceValue Expr)} {xs : List (List (LoopSourceValue Expr))}
    (h : Yields cp xs) (n : Nat) (hn : xs.length < n) :
    expandLoopL loops spec block n cp = mapLRes (rewriteForL loops spec block) xs := by
  induction h generalizing n with
  | done h =>
    match n with
    | 0 => simp at hn
    | n + 1 => simp [expandLoopL, h, mapLRes, LRes.at_]
  | @step it it' x xs h _ ih =>
    match n with
    | 0 => simp at hn
    | n + 1 =>
      simp only [expandLoopL, h, LRes.at_, LRes.bind_eq, LRes.bind_ok, mapLRes]
      rw [ih n (by simpa using hn)]
      unfold rewriteForL
      cases loopSpecItemsL loops x <;> cases spec <;> simp

theorem mapLRes_err {α β : Type} {f : α → LRes β} {e : Err} {p : Place} : ∀ {l : List α}, mapLRes f l = .err e p → ∃ a ∈ l, f a = .err e p
  | [], h => by cases h
  | x :: xs, h => by
    simp only [mapLRes, LRes.bind_eq_err] at h
    rcases h with h | ⟨y, -, h | ⟨ys, -, h⟩⟩
    · exact ⟨x, List.mem_cons_self, h⟩
    · obtain ⟨a, ha, h⟩ := mapLRes_err h
      exact ⟨a, List.mem_cons_of_mem _ ha, h⟩
    · cases h

theorem loopSpecItemsL_err {α : Type} {x : Err} {p : Place} :
    ∀ {ls : List (LoopAlias α × List (LoopSourceValue Expr))} {vs : List (LoopSourceValue Expr)},
    loopSpecItemsL ls vs = .err x p → ∃ (i : Nat) (l : LoopAlias α × List (LoopSourceValue Expr)) (v : LoopSourceValue Expr) (w : Mismatch),
      ls[i]? = some l ∧ vs[i]? = some v ∧ Unmatched l.1 v w ∧ x = .typeError w ∧ p = .loopValue v
  | [], [], h => by cases h
  | [], _ :: _, h => by cases h
  | _ :: _, [], h => by cases h
  | l :: ls, v :: vs, h => by
    simp only [loopSpecItemsL, LRes.bind_eq, LRes.bind_eq_err] at h
    rcases h with h | ⟨_, -, h | ⟨_, -, h⟩⟩
    · obtain ⟨h1, rfl⟩ := at_eq_err.1 h
      obtain ⟨w, rfl, h2⟩ := makeSpecItems_err h1
      exact ⟨0, l, v, w, rfl, rfl, h2, rfl, rfl⟩
    · obtain ⟨i, l', v', w, h3, h4, h5⟩ := loopSpecItemsL_err h
      exact ⟨i + 1, l', v', w, h3, h4, h5⟩
    · cases h

theorem expandL_err {α β : Type} {a : RawAst α Expr β} {x : Err} {p : Place} (h : expandL a = .err x p) :
    ∃ (loops : List (LoopAlias α × List (LoopSourceValue Expr))) (vals : List (LoopSourceValue Expr)) (i : Nat)
      (l : LoopAlias α × List (LoopSourceValue Expr)) (v : LoopSourceValue Expr) (w : Mismatch), a.loops = some loops ∧ vals ∈ combinations (loops.map (·.2)) ∧
      loops[i]? = some l ∧ vals[i]? = some v ∧ Unmatched l.1 v w ∧ x = .typeError w ∧ p = .loopValue v := by
  unfold expandL at h
  cases hl : a.loops with
  | none => rw [hl] at h; cases h
  | some ls =>
    rw [hl] at h
    simp only at h
    have hy : Yields (CrossProduct.fromVecs (ls.map (·.2))) (combinations (ls.map (·.2))) := by
      have := CrossProduct.yields_todo _ (CrossProduct.fromVecs (ls.map (·.2))) (CrossProduct.inv_fromVecs _) rfl
      rwa [CrossProduct.todo_fromVecs] at this
    rw [expandLoopL_of_yields _ _ _ hy _ (by
      unfold combinations
      split
      · simp
      · rw [CrossProduct.picks_length]; exact Nat.lt_succ_self _)] at h
    obtain ⟨vals, hv, h⟩ := mapLRes_err h
    simp only [rewriteForL, LRes.bind_eq_err, reduceCtorEq, and_false, exists_false, or_false] at h
    obtain ⟨i, l, v, w, h1⟩ := loopSpecItemsL_err h
    exact ⟨ls, vals, i, l, v, w, rfl, hv, h1⟩

/-! ## What resolution records -/

/-- The metadata of calls belongs to calls of which `P` holds. -/
def Recorded (env : Env) (P : Expr → Prop) (m : Metadata) : Prop :=
  ∀ id md, m.calls id = some md → ∃ name args raw fs, P (.call id name args raw) ∧ env.funcs name = some fs ∧ md.func ∈ fs ∧
    (md.args = args ∨ md.func.args = [.raw] ∧ ∃ i ts, md.args = [.value i (.raw ts)])

/-- `P` is passed on to arguments. -/
def PassedOn (P : Expr → Prop) : Prop := ∀ id name args raw, P (.call id name args raw) → ∀ a ∈ args, P a

theorem resolveValue_recorded {env P id k expected sc sc'} (h : resolveValue id k expected sc = .ok sc') :
    sc'.aliases = sc.aliases ∧ (Recorded env P sc.md → Recorded env P sc'.md) := by
  simp only [resolveValue, Res.bind_eq, Res.bind_eq_ok] at h
  obtain ⟨t, -, h⟩ := h
  split at h
  · cases h; exact ⟨rfl, fun h => h⟩
  · cases h

theorem candidates_mem {attempt : Func → Res (Nat × Scope × List Expr)} : ∀ {fs : List Func} {cs : List Candidate}, candidates attempt fs = .ok cs →
    ∀ c ∈ cs, c.func ∈ fs ∧ attempt c.func = .ok (c.cost, c.scope, c.args)
  | [], cs, h, c, hc => by cases h; cases hc
  | f :: fs, cs, h, c, hc => by
    rw [candidates] at h
    split at h
    · rename_i c1 sc1 args1 ha
      cases h1 : candidates attempt fs with
      | panic => rw [h1] at h; cases h
      | err e => rw [h1] at h; cases h
      | ok l =>
        rw [h1] at h
        cases h
        rcases List.mem_cons.1 hc with rfl | hc
        · exact ⟨List.mem_cons_self, ha⟩
        · have := candidates_mem h1 c hc
          exact ⟨List.mem_cons_of_mem _ this.1, this.2⟩
    · cases h
    · have := candidates_mem h c hc
      exact ⟨List.mem_cons_of_mem _ this.1, this.2⟩
    · cases h

theorem resolveCallForFunc_recorded {env : Env} {P : Expr → Prop} {name f args raw expected sc}
    {go : List (Ty × Nat) → Nat → Scope → Res (Nat × Scope × List Expr)}
    (hgo : ∀ ps c sc r, go ps c sc = .ok r → args.length ≤ ps.length → r.2.1.aliases = sc.aliases ∧ (Recorded env P sc.md → Recorded env P r.2.1.md) ∧ r.2.2 = args)
    {r : Nat × Scope × List Expr} (h : resolveCallForFunc name f args raw expected sc go = .ok r) :
    r.2.1.aliases = sc.aliases ∧ (Recorded env P sc.md → Recorded env P r.2.1.md) ∧ (r.2.2 = args ∨ f.args = [.raw] ∧ ∃ i ts, r.2.2 = [.value i (.raw ts)]) := by
  unfold resolveCallForFunc at h
  simp only [Res.bind_eq, Res.bind_eq_ok] at h
  obtain ⟨c, -, h⟩ := h
  split at h
  · rename_i id ts hr
    simp only [Res.bind_eq_ok] at h
    obtain ⟨sc', h1, h⟩ := h
    cases h
    have := resolveValue_recorded (env := env) (P := P) h1
    refine ⟨this.1, this.2, .inr ⟨?_, id, ts, rfl⟩⟩
    unfold Func.rawArg at hr
    split at hr
    · assumption
    · cases hr
  · have hv := variadicArg_isSome f
    split at h
    · rename_i hn
      simp only [Bool.and_eq_true, Bool.not_eq_true', beq_iff_eq] at hn
      obtain ⟨h1, h2, h3⟩ := hgo _ _ _ _ h (by simp [Func.params, fixedArgs_of_not_variadic hn.1, hn.2])
      exact ⟨h1, h2, .inl h3⟩
    · split at h
      · rename_i hn
        simp only [Bool.and_eq_true, decide_eq_true_eq] at hn
        rw [hn.1] at hv
        obtain ⟨t, ht⟩ := Option.isSome_iff_exists.1 hv
        have := fixedArgs_length_le f
        obtain ⟨h1, h2, h3⟩ := hgo _ _ _ _ h (by simp [Func.params, ht]; omega)
        exact ⟨h1, h2, .inl h3⟩
      · cases h

mutual
theorem resolve_recorded {env : Env} {P : Expr → Prop} (hP : PassedOn P) : ∀ (e : Expr) {expected sc sc'}, P e →
    e.resolve env expected sc = .ok sc' → sc'.aliases = sc.aliases ∧ (Recorded env P sc.md → Recorded env P sc'.md)
  | .value id k, _, _, _, _, h => by rw [Expr.resolve] at h; exact resolveValue_recorded h
  | .call id name args raw, expected, sc, sc', he, h => by
    simp only [Expr.resolve] at h
    split at h
    · cases h
    · rename_i fs hfs
      simp only [Res.bind_eq, Res.bind_eq_ok, selectCandidate_eq] at h
      obtain ⟨cs, hcs, h⟩ := h
      split at h
      · cases h
      · rename_i c hc
        cases h
        obtain ⟨h1, h2⟩ := candidates_mem hcs c (bestC_mem hc)
        obtain ⟨h3, h4, h5⟩ := resolveCallForFunc_recorded
          (fun ps c sc r hr hl => resolveArgs_recorded hP args (fun a ha => hP _ _ _ _ he a ha) hl hr) h2
        refine ⟨h3, fun hg i md hi => ?_⟩
        simp only [Metadata.setCall] at hi
        split at hi
        · rename_i heq
          cases hi
          subst heq
          exact ⟨name, args, raw, fs, he, hfs, h1, h5⟩
        · exact h4 hg i md hi
theorem resolveArgs_recorded {env : Env} {P : Expr → Prop} (hP : PassedOn P) : ∀ (es : List Expr) {ps c sc r}, (∀ e ∈ es, P e) →
    es.length ≤ ps.length → Expr.resolveArgs env es ps c sc = .ok r →
    r.2.1.aliases = sc.aliases ∧ (Recorded env P sc.md → Recorded env P r.2.1.md) ∧ r.2.2 = es
  | [], _, _, _, _, _, _, h => by simp [Expr.resolveArgs] at h; subst h; exact ⟨rfl, fun h => h, rfl⟩
  | _ :: _, [], _, _, _, _, hl, h => by simp at hl
  | e :: es, (t, m) :: ps, c, sc, r, hes, hl, h => by
    rw [Expr.resolveArgs] at h
    simp only [Res.bind_eq, Res.bind_eq_ok] at h
    obtain ⟨sc1, h1, _, -, _, -, _, -, r1, h2, h⟩ := h
    cases h
    obtain ⟨h3, h4⟩ := resolve_recorded hP e (hes e List.mem_cons_self) h1
    obtain ⟨h5, h6, h7⟩ := resolveArgs_recorded hP es (fun x hx => hes x (List.mem_cons_of_mem _ hx)) (by simpa using hl) h2
    exact ⟨h5.trans h3, fun h => h6 (h4 h), by rw [h7]⟩
end

theorem resolveSpec_recorded {env : Env} {P : Expr → Prop} (hP : PassedOn P) : ∀ (items : List (Alias × Expr)) {sc sc'}, (∀ i ∈ items, P i.2) →
    resolveSpec env items sc = .ok sc' → (Recorded env P sc.md → Recorded env P sc'.md) ∧
      ∀ n, (sc'.aliases n).isSome ↔ (sc.aliases n).isSome ∨ n ∈ items.map (·.1.2)
  | [], _, _, _, h => by cases h; exact ⟨fun h => h, by simp⟩
  | item :: items, sc, sc', hi, h => by
    simp only [resolveSpec, resolveItem, Res.bind_eq, Res.bind_eq_ok] at h
    obtain ⟨sc1, ⟨sc2, h1, h2⟩, h3⟩ := h
    obtain ⟨h4, h5⟩ := resolve_recorded hP item.2 (hi item List.mem_cons_self) h1
    obtain ⟨h6, h7⟩ := resolveSpec_recorded hP items (fun i hi' => hi i (List.mem_cons_of_mem _ hi')) h3
    unfold Scope.tryAddName at h2
    split at h2
    · cases h2
    · cases h2
      refine ⟨fun h => h6 (h5 h), fun n => ?_⟩
      rw [h7, h4]
      simp only [List.map_cons, List.mem_cons]
      by_cases hn : n = item.1.2
      · simp [hn]
      · simp [hn]

/-! ## Resolution errors -/

theorem resolveSpecL_err {env : Env} {x : Err} {p : Place} : ∀ {items : List (Alias × Expr)} {sc : Scope}, resolveSpecL env items sc = .err x p →
    ∃ pre item post sc', items = pre ++ item :: post ∧ resolveSpec env pre sc = .ok sc' ∧ resolveItemL env item sc' = .err x p
  | [], _, h => by cases h
  | item :: items, sc, h => by
    simp only [resolveSpecL, LRes.bind_eq, LRes.bind_eq_err] at h
    rcases h with h | ⟨sc1, h1, h⟩
    · exact ⟨[], item, items, sc, rfl, rfl, h⟩
    · obtain ⟨pre, i, post, sc', rfl, h2, h3⟩ := resolveSpecL_err h
      refine ⟨item :: pre, i, post, sc', rfl, ?_, h3⟩
      have := resolveItemL_forget env item sc
      rw [h1] at this
      simp only [resolveSpec, ← this, forget_ok, Res.bind_eq, Res.bind_ok, h2]

theorem resolveValue_none_ok {id k sc x} : resolveValue id k none sc ≠ .err x := by
  intro h
  simp only [resolveValue, Res.bind_eq, Res.bind_eq_err] at h
  rcases h with h | ⟨t, -, h⟩
  · unfold valueFromType at h
    repeat' split at h
    all_goals cases h
  · simp [coercionCost_self] at h

/-- A definition is refused for its whole value, which is then a call, or for its name. -/
theorem resolveItemL_err {env : Env} {item : Alias × Expr} {sc : Scope} {x : Err} {p : Place} (h : resolveItemL env item sc = .err x p) :
    (∃ id name args raw, item.2 = .call id name args raw ∧ p = .expr id ∧
      (x = .undefinedFunction name ∧ env.funcs name = none ∨ x = .signature (env.prettySig name) (showCall name args raw))) ∨
    (x = .redefined item.1.2 ∧ p = .expr item.2.id ∧ ∃ sc', item.2.resolve env none sc = .ok sc' ∧ (sc'.aliases item.1.2).isSome) := by
  simp only [resolveItemL, LRes.bind_eq, LRes.bind_eq_err] at h
  rcases h with h | ⟨sc1, h1, h⟩
  · left
    have hn := resolve_not_internal (env := env) item.2 (expected := none) (sc := sc)
    rw [← resolveL_forget, h] at hn
    match hi : item.2 with
    | .value id k =>
      rw [hi, Expr.resolveL, resolveValueL] at h
      exact absurd (at_eq_err.1 h).1 resolveValue_none_ok
    | .call id name args raw =>
      rw [hi, Expr.resolveL] at h
      refine ⟨id, name, args, raw, rfl, ?_⟩
      split at h
      · rename_i hf
        cases h
        exact ⟨rfl, .inl ⟨rfl, hf⟩⟩
      · rename_i fs hf
        simp only [LRes.bind_eq, LRes.bind_eq_err] at h
        rcases h with h | ⟨cs, -, h⟩
        · exfalso
          have := candidatesL_forget (fun f => resolveCallForFuncL_forget (id := id) (name := name) (f := f) (args := args) (raw := raw) (expected := none) (sc := sc)
            fun ps c sc => resolveArgsL_forget env args ps c sc) fs
          rw [h, candidates_eq fun f => resolveCallForFunc_not_internal fun ps c sc => resolveArgs_not_internal args] at this
          split at this <;> cases this
        · obtain ⟨h1, rfl⟩ := at_eq_err.1 h
          rw [selectCandidate_eq] at h1
          split at h1
          · cases h1; exact ⟨rfl, .inr rfl⟩
          · cases h1
  · right
    unfold Scope.tryAddNameL at h
    split at h
    · rename_i i hi
      cases h
      refine ⟨rfl, rfl, sc1, ?_, by simp [hi]⟩
      rw [← resolveL_forget, h1]; rfl
    · cases h

/-! ## Evaluation errors -/

theorem evalValue_err {E m vars id k x} (h : evalValue E m vars id k = .err x) : x = .internal := by
  unfold evalValue at h
  simp only at h
  split at h
  · cases h; rfl
  · split at h <;> cases h

/-- An error in evaluating an expression comes from a call whose arguments have values. -/
theorem evalExprL_err {E : Ext} {env : Env} {m : Metadata} {vars : Vars} {P : Expr → Prop} (hP : PassedOn P) (hm : Recorded env P m) {x : Err} {p : Place} :
    ∀ (n : Nat) (e : Expr), (P e ∨ ∃ i ts, e = .value i (.raw ts)) → evalExprL E env m vars n e = .err x p → x = .internal ∨
      ∃ id name args raw fs f vs, P (.call id name args raw) ∧ env.funcs name = some fs ∧ f ∈ fs ∧
        (∃ es, (es = args ∨ f.args = [.raw] ∧ ∃ i ts, es = [.value i (.raw ts)]) ∧ ∃ n, mapRes (evalExpr E env m vars n) es = .ok vs) ∧
        p = implPlace id x ∧ (f.impl E env.seed vs = .err x ∨ ∃ v t, f.impl E env.seed vs = .ok v ∧ tryCast E v t = .err x)
  | 0, _, _, h => by cases h
  | n + 1, .value id k, _, h => .inl (evalValue_err (at_eq_err.1 h).1)
  | n + 1, .call id name args raw, he, h => by
    simp only [evalExprL] at h
    split at h
    · cases h; exact .inl rfl
    · rename_i md hmd
      obtain ⟨name', args', raw', fs, hc, hf, hmem, ha⟩ := hm id md hmd
      simp only [LRes.bind_eq, LRes.bind_eq_err] at h
      have hvs : ∀ {vs}, mapLRes (evalExprL E env m vars n) md.args = .ok vs →
          ∃ es, (es = args' ∨ md.func.args = [.raw] ∧ ∃ i ts, es = [.value i (.raw ts)]) ∧ ∃ n, mapRes (evalExpr E env m vars n) es = .ok vs := by
        intro vs h
        refine ⟨md.args, ha, n, ?_⟩
        rw [← mapLRes_forget (evalExprL_forget E env m vars n), h]; rfl
      rcases h with h | ⟨vs, hv0, h | ⟨v, hv, h⟩⟩
      · obtain ⟨a, ha', h⟩ := mapLRes_err h
        refine evalExprL_err hP hm n a ?_ h
        rcases ha with h1 | ⟨-, i, ts, h1⟩
        · exact .inl (hP _ _ _ _ hc a (h1 ▸ ha'))
        · rw [h1] at ha'; exact .inr ⟨i, ts, by simpa using ha'⟩
      · obtain ⟨h1, rfl⟩ := at_eq_err.1 h
        exact .inr ⟨id, name', args', raw', fs, md.func, vs, hc, hf, hmem, hvs hv0, rfl, .inl h1⟩
      · obtain ⟨h1, rfl⟩ := at_eq_err.1 h
        exact .inr ⟨id, name', args', raw', fs, md.func, vs, hc, hf, hmem, hvs hv0, rfl, .inr ⟨v, _, at_eq_ok.1 hv, h1⟩⟩

theorem evalSpecL_err {E : Ext} {env : Env} {m : Metadata} {x : Err} {p : Place} : ∀ {items : List (Alias × Expr)} {vars : Vars} {b : List (Alias × VKind)},
    evalSpecL E env m items vars b = .err x p → ∃ item ∈ items, ∃ vars, evalExprL E env m vars item.2.depth item.2 = .err x p
  | [], _, _, h => by cases h
  | (alias, e) :: items, vars, b, h => by
    simp only [evalSpecL, LRes.bind_eq, LRes.bind_eq_err] at h
    rcases h with h | ⟨v, -, h⟩
    · exact ⟨_, List.mem_cons_self, vars, h⟩
    · obtain ⟨i, hi, h⟩ := evalSpecL_err h
      exact ⟨i, List.mem_cons_of_mem _ hi, h⟩

theorem executeAllL_err {W : World} {env : Env} {orders : Orders} {cell : ThreadCell} {x : Err} {p : Place} :
    ∀ {n : Nat} {brs : List (BlockRewrite Alias Expr (List Stmt))}, executeAllL W env orders cell n brs = .err x p →
    ∃ k, ∃ br ∈ brs, executeBlockRewriteL W env (orders k) cell br = .err x p
  | _, [], h => by cases h
  | n, br :: brs, h => by
    simp only [executeAllL, LRes.bind_eq, LRes.bind_eq_err, reduceCtorEq, and_false, exists_false, or_false] at h
    rcases h with h | ⟨_, -, h⟩
    · exact ⟨n, br, List.mem_cons_self, h⟩
    · obtain ⟨k, br, hb, h⟩ := executeAllL_err h
      exact ⟨k, br, List.mem_cons_of_mem _ hb, h⟩

/-- `e` stands in the value of a definition of `items`. -/
inductive StandsIn (items : List (Alias × Expr)) : Expr → Prop
  | value {al : Alias} {e : Expr} (h : (al, e) ∈ items) : StandsIn items e
  | arg {id : Nat} {name : Str} {args : List Expr} {raw : Option (Nat × Toks)} {a : Expr} (h : StandsIn items (.call id name args raw)) (ha : a ∈ args) :
      StandsIn items a

theorem standsIn_passedOn (items : List (Alias × Expr)) : PassedOn (StandsIn items) := fun _ _ _ _ h _ ha => .arg h ha

/-- All errors of the definitions of an iteration. -/
theorem makeSubstitutionsL_err {E : Ext} {env : Env} {order : List (Alias × VKind) → List (Alias × VKind)} {items : List (Alias × Expr)} {x : Err} {p : Place}
    (h : makeSubstitutionsL E env order items = .err x p) :
    (∃ al id name args raw, (al, .call id name args raw) ∈ items ∧ p = .expr id ∧
      (x = .undefinedFunction name ∧ env.funcs name = none ∨ x = .signature (env.prettySig name) (showCall name args raw))) ∨
    (∃ pre al e post, items = pre ++ (al, e) :: post ∧ x = .redefined al.2 ∧ p = .expr e.id ∧ al.2 ∈ pre.map (·.1.2)) ∨
    x = .internal ∨
    (∃ id name args raw fs f vs, StandsIn items (.call id name args raw) ∧ env.funcs name = some fs ∧ f ∈ fs ∧
      (∃ sc vars es n, resolveSpec env items Scope.empty = .ok sc ∧ (es = args ∨ f.args = [.raw] ∧ ∃ i ts, es = [.value i (.raw ts)]) ∧
        mapRes (evalExpr E env sc.md vars n) es = .ok vs) ∧ p = implPlace id x ∧
      (f.impl E env.seed vs = .err x ∨ ∃ v t, f.impl E env.seed vs = .ok v ∧ tryCast E v t = .err x)) := by
  simp only [makeSubstitutionsL, LRes.bind_eq, LRes.bind_eq_err, reduceCtorEq, and_false, exists_false, or_false] at h
  have hall : ∀ {l : List (Alias × Expr)}, (∀ i ∈ l, i ∈ items) → ∀ i ∈ l, StandsIn items i.2 := fun hl i hi => .value (al := i.1) (hl i hi)
  rcases h with h | ⟨sc, hsc, h⟩
  · obtain ⟨pre, item, post, sc', rfl, h1, h2⟩ := resolveSpecL_err h
    rcases resolveItemL_err h2 with ⟨id, name, args, raw, h3, rfl, h4⟩ | ⟨rfl, rfl, sc2, h3, h4⟩
    · refine .inl ⟨item.1, id, name, args, raw, ?_, rfl, h4⟩
      rw [← h3]; simp
    · refine .inr (.inl ⟨pre, item.1, item.2, post, rfl, rfl, rfl, ?_⟩)
      have ha := (resolve_recorded (standsIn_passedOn (pre ++ item :: post)) item.2 (hall (l := [item]) (by simp) item (by simp)) h3).1
      have hb := (resolveSpec_recorded (standsIn_passedOn (pre ++ item :: post)) pre (hall fun i hi => List.mem_append_left _ hi) h1).2 item.1.2
      rw [ha, hb] at h4
      simpa [Scope.empty] using h4
  · obtain ⟨item, hi, vars, h⟩ := evalSpecL_err h
    have hs : resolveSpec env items Scope.empty = .ok sc := by rw [← resolveSpecL_forget, hsc]; rfl
    have hr := (resolveSpec_recorded (standsIn_passedOn items) items (hall fun i hi => hi) hs).1 (fun _ _ h => by cases h)
    rcases evalExprL_err (standsIn_passedOn items) hr _ _ (.inl (.value (al := item.1) hi)) h with h | ⟨id, name, args, raw, fs, f, vs, h1, h2, h3, ⟨es, h4, n, h5⟩, h6⟩
    · exact .inr (.inr (.inl h))
    · exact .inr (.inr (.inr ⟨id, name, args, raw, fs, f, vs, h1, h2, h3, ⟨sc, vars, es, n, hs, h4, h5⟩, h6⟩))

theorem substitute_err {W : World} {cell : ThreadCell} {block : List Stmt} {subs : Subs} {x : Err} (h : substitute W cell block subs = .err x) :
    ∃ n r, x = .substitution n r := by
  simp only [substitute, Res.bind_eq, Res.bind_eq_err, reduceCtorEq, and_false, exists_false, or_false] at h
  obtain ⟨n, v, -, h⟩ := visitBlock_err h
  exact ⟨n, _, h⟩

end Verif
