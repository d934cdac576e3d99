import Verif.Model.Release
import Verif.Proofs.Lib
/-! # With and without overflow checks -/

namespace Verif
open Spec

/-- The first panics, or they are the same. -/
def PanicOr {α : Type} (x y : Res α) : Prop := x = .panic ∨ y = x

theorem PanicOr.same {α : Type} (x : Res α) : PanicOr x x := .inr rfl

theorem PanicOr.bind {α β : Type} {x y : Res α} {f g : α → Res β} (h : PanicOr x y) (hf : ∀ a, x = .ok a → PanicOr (f a) (g a)) :
    PanicOr (x >>= f) (y >>= g) := by
  rcases h with h | h
  · subst h; exact .inl rfl
  · subst h
    cases y with
    | ok a => exact hf a rfl
    | err e => exact .inr rfl
    | panic => exact .inl rfl

theorem PanicOr.map {α β : Type} {x y : Res α} (f : α → β) (h : PanicOr x y) : PanicOr (x.map f) (y.map f) := by
  rcases h with h | h
  · subst h; exact .inl rfl
  · subst h; exact .inr rfl

theorem candidates_panicOr {a b : Func → Res (Nat × Scope × List Expr)} (h : ∀ f, PanicOr (a f) (b f)) : ∀ fs, PanicOr (candidates a fs) (candidates b fs)
  | [] => .same _
  | f :: fs => by
    have ih := candidates_panicOr h fs
    rcases h f with hf | hf
    · left; simp only [candidates, hf]
    · simp only [candidates, hf]
      cases a f with
      | ok r => exact ih.map _
      | panic => exact .same _
      | err e => cases e <;> first | exact .same _ | exact ih

theorem resolveCallForFunc_panicOr {name : Str} {f : Func} {args : List Expr} {raw : Option (Nat × Toks)} {expected : Option Ty} {sc : Scope}
    {a b : List (Ty × Nat) → Nat → Scope → Res (Nat × Scope × List Expr)} (h : ∀ ps c sc, PanicOr (a ps c sc) (b ps c sc)) :
    PanicOr (resolveCallForFunc name f args raw expected sc a) (resolveCallForFunc name f args raw expected sc b) := by
  unfold resolveCallForFunc
  refine (PanicOr.same _).bind fun c _ => ?_
  cases f.rawArg raw with
  | some r => exact .same _
  | none =>
    simp only
    split
    · exact h _ _ _
    · split
      · exact h _ _ _
      · exact .same _

mutual
theorem resolve_panicOr (env : Env) : ∀ (e : Expr) (expected : Option Ty) (sc : Scope), PanicOr (e.resolve env expected sc) (e.resolveR env expected sc)
  | .value _ _, _, _ => by simp only [Expr.resolve, Expr.resolveR]; exact .same _
  | .call id name args raw, expected, sc => by
    have ih := resolveArgs_panicOr env args
    simp only [Expr.resolve, Expr.resolveR]
    cases env.funcs name with
    | none => exact .same _
    | some fs => exact (candidates_panicOr (fun f => resolveCallForFunc_panicOr ih) fs).bind fun _ _ => .same _
theorem resolveArgs_panicOr (env : Env) : ∀ (es : List Expr) (ps : List (Ty × Nat)) (c : Nat) (sc : Scope),
    PanicOr (Expr.resolveArgs env es ps c sc) (Expr.resolveArgsR env es ps c sc)
  | [], _, _, _ => by simp only [Expr.resolveArgs, Expr.resolveArgsR]; exact .same _
  | _ :: _, [], _, _ => by simp only [Expr.resolveArgs, Expr.resolveArgsR]; exact .same _
  | e :: es, (t, m) :: ps, c, sc => by
    have ih := resolve_panicOr env e (some t) sc
    have ih2 := resolveArgs_panicOr env es ps
    simp only [Expr.resolveArgs, Expr.resolveArgsR]
    refine ih.bind fun sc _ => (PanicOr.same _).bind fun cost _ => ?_
    unfold u32
    by_cases h1 : cost * m < 2 ^ 32
    · by_cases h2 : c + cost * m < 2 ^ 32
      · simp only [h1, if_true, Res.bind_eq, Res.bind_ok, h2, wrap32, Nat.mod_eq_of_lt h1, Nat.mod_eq_of_lt h2]
        exact (ih2 _ _).bind fun _ _ => .same _
      · left; simp only [h1, if_true, Res.bind_eq, Res.bind_ok, h2, if_false]; rfl
    · left; simp only [h1, if_false]; rfl
end

theorem resolveSpec_panicOr (env : Env) : ∀ (items : List (Alias × Expr)) (sc : Scope), PanicOr (resolveSpec env items sc) (resolveSpecR env items sc)
  | [], _ => .same _
  | item :: items, sc => by
    simp only [resolveSpec, resolveSpecR, resolveItem, resolveItemR]
    exact ((resolve_panicOr env item.2 none sc).bind fun _ _ => .same _).bind fun sc _ => resolveSpec_panicOr env items sc

/-- Without an overflow, nothing is different. -/
theorem makeSubstitutionsR_eq {E : Ext} {env : Env} {order : List (Alias × VKind) → List (Alias × VKind)} {items : List (Alias × Expr)}
    (h : resolveSpec env items Scope.empty ≠ .panic) : makeSubstitutionsR E env order items = makeSubstitutions E env order items := by
  unfold makeSubstitutionsR makeSubstitutions
  rcases resolveSpec_panicOr env items Scope.empty with h' | h'
  · exact absurd h' h
  · rw [h']

variable (W : World)

theorem executeAll_panicOr (env : Env) (orders : Orders) (cell : ThreadCell) : ∀ (brs : List (BlockRewrite Alias Expr (List Stmt))) (n : Nat),
    PanicOr (executeAll W env orders cell n brs) (executeAllR W env orders cell n brs)
  | [], _ => .same _
  | br :: brs, n => by
    simp only [executeAll, executeAllR, executeBlockRewrite, executeBlockRewriteR]
    refine PanicOr.bind ?_ fun _ _ => (executeAll_panicOr env orders cell brs (n + 1)).bind fun _ _ => .same _
    refine PanicOr.bind ?_ fun _ _ => .same _
    exact (resolveSpec_panicOr env br.spec.items Scope.empty).bind fun _ _ => .same _

/-- What the two builds put out is the same, or the one with checks panics. -/
theorem composeCore_panicOr (ids : Nat → Nat) (orders : Orders) (inv : Invocation) (t : Thread) :
    (composeCoreR W ids orders inv t).2 = (composeCore W ids orders inv t).2 ∧
    ((composeCore W ids orders inv t).1 = .panicked ∨ (composeCoreR W ids orders inv t).1 = (composeCore W ids orders inv t).1) := by
  unfold composeCore composeCoreR
  cases (t.cell.maybeSet (Service.new inv.pre)).scoped with
  | err e => exact ⟨rfl, .inr rfl⟩
  | panic => exact ⟨rfl, .inr rfl⟩
  | ok cell =>
    refine ⟨rfl, ?_⟩
    simp only
    generalize parseArgs W.Y _ ids setupDraws cell inv = r
    cases r.1 with
    | err e => exact .inr rfl
    | panic => exact .inr rfl
    | ok a =>
      simp only [finish, finishR, execute, executeR]
      have : PanicOr (expand a.forget >>= fun x => executeAll W (Env.builtin (ids 0)) orders r.2.2 0 x)
          (expand a.forget >>= fun x => executeAllR W (Env.builtin (ids 0)) orders r.2.2 0 x) :=
        (PanicOr.same _).bind fun x _ => executeAll_panicOr W _ _ _ x 0
      rcases this with h | h
      · left; rw [h]; rfl
      · right; rw [h]

/-! ## Without overflow -/

theorem executeAllR_eq (env : Env) (orders : Orders) (cell : ThreadCell) : ∀ (brs : List (BlockRewrite Alias Expr (List Stmt))) (n : Nat),
    (∀ br ∈ brs, resolveSpec env br.spec.items Scope.empty ≠ .panic) → executeAllR W env orders cell n brs = executeAll W env orders cell n brs
  | [], _, _ => rfl
  | br :: brs, n, h => by
    simp only [executeAll, executeAllR, executeBlockRewrite, executeBlockRewriteR, makeSubstitutionsR_eq (h br (by simp)),
      executeAllR_eq env orders cell brs (n + 1) fun b hb => h b (by simp [hb])]

variable {W}

/-- If the costs of no iteration overflow, the two builds put out the same. -/
theorem composeCoreR_eq {l : Luck} {inv : Invocation} {t : Thread} (h : Idle t) (hf : Fair W l inv t)
    (hc : ∀ a its, Reads W inv a → iterations (tree a) = .ok its → ∀ defs ∈ its, overflowsSpec builtinFuncs defs (fun _ => none) = false) :
    composeCoreR W l.ids l.orders inv t = composeCore W l.ids l.orders inv t := by
  obtain ⟨s, hs⟩ := env_idle h (l.ids 0)
  simp only [composeCore, composeCoreR, scoped_idle h, hs, hasFunc_builtin]
  have := parseArgs_outcome W l.ids setupDraws ⟨[], 1, preOn t inv⟩ (Nat.le_refl _) inv
  have hi := hf.inj
  unfold idsDrawn at hi
  generalize parseArgs W.Y isBuiltin l.ids setupDraws (some ⟨[], 1, preOn t inv⟩) inv = x at this hi
  cases this with
  | err k w hn => rfl
  | ok a k' hr hu hk hd =>
    have hN := drawn_nodup hd hi
    have hm : expand (tree a) = (expand a.forget).map (·.map (BlockRewrite.map (·.2) Expr.erase)) := by
      rw [tree, conv_eq_map, expand_map]
    simp only [finish, finishR, execute, executeR]
    cases he : expand a.forget with
    | err e => rfl
    | panic => rfl
    | ok out =>
      simp only [Res.bind_eq, Res.bind_ok]
      rw [executeAllR_eq]
      intro br hbr hp
      have hov : overflowsSpec builtinFuncs (named br.spec.items) (fun _ => none) = true := by
        rcases resolveSpec_exact br.spec.items (env := Env.builtin (l.ids 0)) agrees_empty (clean_empty _) (rewrite_nodup hN he br hbr) with h | ⟨h, h1⟩
        · exact h.2
        · split at h1
          · obtain ⟨_, h2, -⟩ := h1; rw [hp] at h2; cases h2
          · rw [hp] at h1; cases h1.1
      have hit : iterations (tree a) = .ok (out.map fun br => eraseDefs (named br.spec.items)) := by
        unfold iterations
        rw [hm, he]
        simp [Res.map, BlockRewrite.map, AliasSpec.map, mapItems, eraseDefs, named, Function.comp_def]
      have := hc a _ hr hit _ (List.mem_map.2 ⟨br, hbr, rfl⟩)
      rw [overflowsSpec_erase, hov] at this
      cases this

theorem runAllR_thread (W : World) (hist : List (Invocation × Luck)) (t : Thread) : (runAllR W hist t).2 = (runAll W hist t).2 := by
  induction hist generalizing t with
  | nil => rfl
  | cons x rest ih => simp only [runAllR, runAll, ih, (composeCore_panicOr W x.2.ids x.2.orders x.1 t).1]

end Verif
