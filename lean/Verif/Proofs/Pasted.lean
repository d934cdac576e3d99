import Verif.Spec.Pasted
import Verif.Proofs.Rename
/-!
# Definitions in which names are written for aliases
-/

namespace Verif
open Spec

mutual
/-- Other names at the leaves of a typed expression. -/
def Spec.TExpr.otherLeaves (f : VKind → VKind) : TExpr → TExpr
  | .val k t => .val (f k) t
  | .call g args t => .call g (TExpr.otherLeavesL f args) t
def Spec.TExpr.otherLeavesL (f : VKind → VKind) : List TExpr → List TExpr
  | [] => []
  | e :: es => TExpr.otherLeaves f e :: TExpr.otherLeavesL f es
end

theorem Spec.TExpr.otherLeaves_target {f : VKind → VKind} (te : TExpr) : (te.otherLeaves f).target = te.target := by
  cases te <;> simp [TExpr.otherLeaves, TExpr.target]

theorem pastedL_length {f : VKind → VKind} : ∀ {es es' : List Expr}, PastedL f es es' → es'.length = es.length
  | _, _, .nil => rfl
  | _, _, .cons _ hs => by simp [pastedL_length hs]

/-- A leaf has the type of the other leaf. -/
structure SameTypes (f : VKind → VKind) (Γ Γ' : TyEnv) : Prop where
  raw : ∀ ts, f (.raw ts) = .raw ts
  types : ∀ k, natural Γ' (f k) = natural Γ k

/-- A leaf has the value of the other leaf. -/
def SameValues (f : VKind → VKind) (ρ ρ' : Str → Option VKind) : Prop := ∀ k, leaf ρ' (f k) = leaf ρ k

theorem natural_other {f : VKind → VKind} {Γ Γ' : TyEnv} (h : SameTypes f Γ Γ') (k : VKind) : natural Γ' (f k) = natural Γ k := h.types k

theorem leaf_other {f : VKind → VKind} {ρ ρ' : Str → Option VKind} (h : SameValues f ρ ρ') (k : VKind) : leaf ρ' (f k) = leaf ρ k := h k

theorem check_other_verbatim {f : VKind → VKind} {Γ Γ' : TyEnv} (hr : SameTypes f Γ Γ') {id id' : Nat} {name : Str} {args args' : List Expr} {rid rid' : Nat} {raw : Toks}
    (h : name = S "raw" ∨ name = S "normalize") (expected : Option Ty) :
    blurE (check builtinFuncs Γ' (.call id' name args' (some (rid', raw))) expected) =
      blurE ((check builtinFuncs Γ (.call id name args (some (rid, raw))) expected).map (fun p => (p.1, p.2.otherLeaves f))) := by
  have key : ∀ g : Func, g.args = [.raw] → builtinFuncs name = some [g] →
      blurE (check builtinFuncs Γ' (.call id' name args' (some (rid', raw))) expected) =
      blurE ((check builtinFuncs Γ (.call id name args (some (rid, raw))) expected).map (fun p => (p.1, p.2.otherLeaves f))) := by
    intro g hg hb
    simp only [check, hb, List.filterMap_cons, List.filterMap_nil, usable, hg, if_true]
    cases outCost g.out expected with
    | none => simp only [Option.bind_eq_bind, Option.bind_none, best, Except.map]; exact congrArg Except.error (blur_refusal _ _ _)
    | some co => simp [best, Except.map, TExpr.otherLeaves, TExpr.otherLeavesL, hr.raw]
  rcases h with rfl | rfl
  · exact key _ rfl builtin_raw
  · exact key _ rfl builtin_normalize

theorem check_other_cases {f : VKind → VKind} {Γ Γ' : TyEnv} {e e' : Expr} {expected : Option Ty}
    (h : blurE (check builtinFuncs Γ' e' expected) =
      blurE ((check builtinFuncs Γ e expected).map (fun p => (p.1, p.2.otherLeaves f)))) :
    (∃ c te, check builtinFuncs Γ e expected = .ok (c, te) ∧ check builtinFuncs Γ' e' expected = .ok (c, te.otherLeaves f)) ∨
    ∃ z z', check builtinFuncs Γ e expected = .error z ∧ check builtinFuncs Γ' e' expected = .error z' ∧ blur z = blur z' := by
  cases hc : check builtinFuncs Γ e expected with
  | error z =>
    rw [hc] at h
    rcases blurE_cases h with ⟨p, -, h2⟩ | ⟨z', w, h1, h2, h3⟩
    · cases h2
    · cases h2; exact .inr ⟨_, _, rfl, h1, h3.symm⟩
  | ok p =>
    rw [hc] at h
    rcases blurE_cases h with ⟨q, h1, h2⟩ | ⟨z', w, -, h2, -⟩
    · cases h2; exact .inl ⟨_, _, rfl, h1⟩
    · cases h2

mutual
theorem check_other {f : VKind → VKind} {Γ Γ' : TyEnv} (hr : SameTypes f Γ Γ') {e e' : Expr} (h : Pasted f e e')
    (expected : Option Ty) : blurE (check builtinFuncs Γ' e' expected) =
      blurE ((check builtinFuncs Γ e expected).map (fun p => (p.1, p.2.otherLeaves f))) := by
  match h with
  | .value id id' k =>
    simp only [check, natural_other hr]
    cases coercionCost (natural Γ k) (expected.getD (natural Γ k)) <;> simp [Except.map, TExpr.otherLeaves, blurE, blur]
  | .verbatim id id' name args args' rid rid' raw h => exact check_other_verbatim hr h expected
  | .call id id' name args args' raw raw' h ha =>
    simp only [check, pastedL_length ha]
    cases hb : builtinFuncs name with
    | none => simp [Except.map]
    | some fs =>
      simp only
      rw [filterMap_map_mem (u := usable raw args.length expected (fun ps => checkArgs builtinFuncs Γ args ps))
        (g := fun c => ⟨c.cost, c.func, TExpr.otherLeavesL f c.args⟩) fs (fun g hg => by
          rw [usable_raw (raw := raw) (no_raw hb h g hg)]
          exact usable_map (by intro ts; simp [TExpr.otherLeavesL, TExpr.otherLeaves, hr.raw])
            (fun ps => checkArgs_other hr ha ps)), best_map (by simp)]
      cases best _ with
      | none => exact congrArg Except.error (blur_refusal fs _ _)
      | some ch => simp [Except.map, TExpr.otherLeaves]
theorem checkArgs_other {f : VKind → VKind} {Γ Γ' : TyEnv} (hr : SameTypes f Γ Γ') {es es' : List Expr} (h : PastedL f es es')
    (ps : List (Ty × Nat)) : checkArgs builtinFuncs Γ' es' ps =
      (checkArgs builtinFuncs Γ es ps).map (fun r => (r.1, TExpr.otherLeavesL f r.2)) := by
  match h, ps with
  | .nil, _ => simp [checkArgs, TExpr.otherLeavesL]
  | .cons _ _, [] => simp [checkArgs, TExpr.otherLeavesL]
  | .cons h hs, (t, m) :: ps =>
    simp only [checkArgs, checkArgs_other hr hs]
    rename_i e e' es es'
    rcases check_other_cases (check_other hr h (some t)) with ⟨c, te, h1, h2⟩ | ⟨z, z', h1, h2, -⟩
    · rw [h1, h2]
      cases checkArgs builtinFuncs Γ es ps <;> simp [TExpr.otherLeavesL]
    · rw [h1, h2]; rfl
end

mutual
theorem overflows_other {f : VKind → VKind} {Γ Γ' : TyEnv} (hr : SameTypes f Γ Γ') {e e' : Expr} (h : Pasted f e e')
    (expected : Option Ty) : overflows builtinFuncs Γ' e' expected = overflows builtinFuncs Γ e expected := by
  match h with
  | .value id id' k => simp only [overflows]
  | .verbatim id id' name args args' rid rid' raw h => rw [overflows_verbatim h, overflows_verbatim h]
  | .call id id' name args args' raw raw' h ha =>
    simp only [overflows, pastedL_length ha]
    cases hb : builtinFuncs name with
    | none => rfl
    | some fs =>
      simp only
      have : ∀ ps c, overflowsArgs builtinFuncs Γ' args' ps c = overflowsArgs builtinFuncs Γ args ps c :=
        fun ps c => overflowsArgs_other hr ha ps c
      simp only [this]
      have hnr := no_raw hb h
      clear hb
      induction fs with
      | nil => rfl
      | cons f fs ih =>
        simp only [List.any_cons, if_neg (hnr f (by simp)), ih (fun g hg => hnr g (by simp [hg]))]
theorem overflowsArgs_other {f : VKind → VKind} {Γ Γ' : TyEnv} (hr : SameTypes f Γ Γ') {es es' : List Expr} (h : PastedL f es es')
    (ps : List (Ty × Nat)) (c : Nat) :
    overflowsArgs builtinFuncs Γ' es' ps c = overflowsArgs builtinFuncs Γ es ps c := by
  match h, ps with
  | .nil, _ => simp only [overflowsArgs]
  | .cons _ _, [] => simp only [overflowsArgs]
  | .cons h hs, (t, m) :: ps =>
    simp only [overflowsArgs, overflows_other hr h]
    rename_i e e' es es'
    rcases check_other_cases (check_other hr h (some t)) with ⟨c, te, h1, h2⟩ | ⟨z, z', h1, h2, -⟩
    · rw [h1, h2]
      simp only [overflowsArgs_other hr hs]
    · rw [h1, h2]
end

mutual
theorem eval_other {E : Ext} {seed : Nat} {f : VKind → VKind} {ρ ρ' : Str → Option VKind} (hr : SameValues f ρ ρ') :
    ∀ (te : TExpr), (te.otherLeaves f).eval E seed ρ' = te.eval E seed ρ
  | .val k t => by rw [TExpr.otherLeaves, eval_val, eval_val, leaf_other hr]
  | .call g args t => by simp only [TExpr.otherLeaves, TExpr.eval, evalL_other hr args]
theorem evalL_other {E : Ext} {seed : Nat} {f : VKind → VKind} {ρ ρ' : Str → Option VKind} (hr : SameValues f ρ ρ') :
    ∀ (tes : List TExpr), TExpr.evalL E seed ρ' (TExpr.otherLeavesL f tes) = TExpr.evalL E seed ρ tes
  | [] => by simp [TExpr.otherLeavesL, TExpr.evalL]
  | te :: tes => by simp only [TExpr.otherLeavesL, TExpr.evalL, eval_other hr te, evalL_other hr tes]
end

/-- The name `a` stays, and nothing else becomes it. -/
def Alone (f : VKind → VKind) (a : Str) : Prop := f (.ident a) = .ident a ∧ ∀ k, f k = .ident a → k = .ident a

theorem natural_extend {Γ : TyEnv} {a : Str} {t : Ty} {k : VKind} (h : k ≠ .ident a) : natural (extend Γ a t) k = natural Γ k := by
  cases k <;> try rfl
  rename_i s
  have : s ≠ a := fun e => h (by rw [e])
  simp [natural, Spec.extend, this]

theorem leaf_extend {ρ : Str → Option VKind} {a : Str} {v : VKind} {k : VKind} (h : k ≠ .ident a) : leaf (extend ρ a v) k = leaf ρ k := by
  cases k <;> try rfl
  rename_i s
  have : s ≠ a := fun e => h (by rw [e])
  simp [leaf, Spec.extend, this]

theorem SameTypes.extend {f : VKind → VKind} {Γ Γ' : TyEnv} (h : SameTypes f Γ Γ') {a : Str} (ha : Alone f a) (t : Ty) :
    SameTypes f (extend Γ a t) (extend Γ' a t) := by
  refine ⟨h.raw, fun k => ?_⟩
  by_cases hn : k = .ident a
  · subst hn; rw [ha.1]; simp [natural, Spec.extend]
  · rw [natural_extend hn, natural_extend fun e => hn (ha.2 k e), h.types]

theorem SameValues.extend {f : VKind → VKind} {ρ ρ' : Str → Option VKind} (h : SameValues f ρ ρ') {a : Str} (ha : Alone f a) (v : VKind) :
    SameValues f (extend ρ a v) (extend ρ' a v) := by
  intro k
  by_cases hn : k = .ident a
  · subst hn; rw [ha.1]; simp [leaf, Spec.extend]
  · rw [leaf_extend hn, leaf_extend fun e => hn (ha.2 k e), h k]

theorem checkSpec_other {f : VKind → VKind} : ∀ {items items' : List (Str × Expr)} {Γ Γ' : TyEnv}, SameTypes f Γ Γ' → PastedDefs f items items' →
    (∀ a ∈ items.map (·.1), Alone f a ∧ (Γ' a).isSome = (Γ a).isSome) →
    blurE (checkSpec builtinFuncs items' Γ') =
      blurE ((checkSpec builtinFuncs items Γ).map (·.map fun p => (p.1, p.2.otherLeaves f))) ∧
    overflowsSpec builtinFuncs items' Γ' = overflowsSpec builtinFuncs items Γ
  | _, _, Γ, Γ', _, .nil, _ => by simp [checkSpec, overflowsSpec, Except.map]
  | _, _, Γ, Γ', hr, .cons (n := n) (e := e) h hs, ha => by
    rename_i e' items items'
    have hn := ha n (by simp)
    simp only [checkSpec, overflowsSpec, overflows_other hr h, hn.2]
    rcases check_other_cases (check_other hr h none) with ⟨c, te, h1, h2⟩ | ⟨z, z', h1, h2, h3⟩
    · rw [h1, h2]
      simp only [TExpr.otherLeaves_target]
      obtain ⟨h1, h2⟩ := checkSpec_other (hr.extend hn.1 te.target) hs (fun a h => by
        have := ha a (by simp only [List.map_cons, List.mem_cons]; exact .inr h)
        refine ⟨this.1, ?_⟩
        simp only [Spec.extend]
        split
        · rfl
        · exact this.2)
      simp only [h2]
      split
      · simp [Except.map]
      · cases hc : checkSpec builtinFuncs items (extend Γ n te.target) with
        | error z =>
          rw [hc] at h1
          rcases blurE_cases h1 with ⟨q, -, h4⟩ | ⟨z', w, h3, h4, h5⟩
          · cases h4
          · cases h4; rw [h3]; exact ⟨congrArg Except.error h5, trivial⟩
        | ok tes =>
          rw [hc] at h1
          rcases blurE_cases h1 with ⟨q, h3, h4⟩ | ⟨z', w, -, h4, -⟩
          · cases h4; rw [h3]; exact ⟨rfl, trivial⟩
          · cases h4
    · rw [h1, h2]; exact ⟨congrArg Except.error h3.symm, rfl⟩

theorem evalSpecT_other {E : Ext} {seed : Nat} {f : VKind → VKind} : ∀ (tes : List (Str × TExpr)) {ρ ρ' : Str → Option VKind}, SameValues f ρ ρ' →
    (∀ a ∈ tes.map (·.1), Alone f a) → evalSpecT E seed (tes.map fun p => (p.1, p.2.otherLeaves f)) ρ' = evalSpecT E seed tes ρ
  | [], _, _, _, _ => rfl
  | (n, te) :: tes, ρ, ρ', hr, ha => by
    simp only [List.map_cons, evalSpecT, Res.bind_eq, eval_other hr te]
    cases te.eval E seed ρ with
    | err e => rfl
    | panic => rfl
    | ok w =>
      simp only [Res.bind_ok]
      rw [evalSpecT_other tes (hr.extend (ha n (by simp)) w) (fun a h => ha a (by simp only [List.map_cons, List.mem_cons]; exact .inr h))]

/-- Definitions after others: the values are those of the definitions by themselves, with the values of the others written in. -/
theorem outcome_pasted {E : Ext} {env : Env} (henv : env.funcs = builtinFuncs) {f : VKind → VKind} {pre post post' : List (Str × Expr)} {vs : Subs}
    (h : outcome E env pre = .ok vs) (hv : ∀ k, f k = writtenLeaf vs k) (hp : PastedDefs f post post')
    (ha : ∀ a ∈ post.map (·.1), Alone f a ∧ vs.get a = none) :
    blurR (outcome E env (pre ++ post)) = blurR ((outcome E env post').map (vs ++ ·)) := by
  have ht : SameTypes f (fun n => (vs.get n).map (·.ty)) (fun _ => none) := by
    refine ⟨fun ts => hv _, fun k => ?_⟩
    rw [hv]
    cases k <;> try rfl
    rename_i n
    simp only [writtenLeaf, natural, get_eq_lookup]
    cases List.lookup n vs with
    | none => rfl
    | some v => cases v <;> rfl
  have hw : SameValues f vs.get (fun _ => none) := by
    intro k
    rw [hv]
    cases k <;> try rfl
    rename_i n
    simp only [writtenLeaf, leaf, get_eq_lookup]
    cases List.lookup n vs with
    | none => rfl
    | some v => cases v <;> rfl
  obtain ⟨h1, h2⟩ := checkSpec_other ht hp fun a h => ⟨(ha a h).1, by simp [(ha a h).2]⟩
  rw [outcome_append henv h, outcome, denote, henv, h2]
  split
  · rfl
  · cases hc : checkSpec builtinFuncs post (fun n => (vs.get n).map (·.ty)) with
    | error z =>
      rw [hc] at h1
      rcases blurE_cases h1 with ⟨q, -, h4⟩ | ⟨z', w, h3, h4, h5⟩
      · cases h4
      · cases h4; rw [h3]; exact congrArg Res.err h5.symm
    | ok tes =>
      rw [hc] at h1
      rcases blurE_cases h1 with ⟨q, h3, h4⟩ | ⟨z', w, -, h4, -⟩
      · cases h4
        rw [h3]
        simp only
        rw [evalSpecT_other tes hw fun a h => (ha a (by rw [← (checkSpec_names hc).1]; exact h)).1]
        cases evalSpecT E env.seed tes vs.get <;> rfl
      · cases h4

end Verif
