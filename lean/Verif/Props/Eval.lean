import Verif.Proofs.OverflowCongr
import Verif.Proofs.Subst
import Verif.Model.Demo
/-!
# Properties C23–C26, C34, C35 and C56: checking and evaluating alias definitions

Node ids are assumed to be different (`specIds items` has no duplicates), which is C50.
-/

namespace Verif.Props
open Verif Spec

/-- Two results are the same as far as the rest of the program can see: the same error, or maps with the same values. -/
inductive Same : Res Subs → Res Subs → Prop
  | ok {a b : Subs} : (∀ n, a.get n = b.get n) → Same (.ok a) (.ok b)
  | err (x : Err) : Same (.err x) (.err x)
  | panic : Same .panic .panic

theorem Same.symm {a b : Res Subs} (h : Same a b) : Same b a := by
  cases h with
  | ok h => exact .ok (fun n => (h n).symm)
  | err x => exact .err x
  | panic => exact .panic

theorem Same.refl (a : Res Subs) : Same a a := by
  cases a with
  | ok vs => exact .ok (fun _ => rfl)
  | err x => exact .err x
  | panic => exact .panic

theorem Same.trans {a b c : Res Subs} (h : Same a b) (h' : Same b c) : Same a c := by
  cases h with
  | ok h => cases h' with | ok h' => exact .ok (fun n => (h n).trans (h' n))
  | err x => exact h'
  | panic => exact h'

theorem Same.blur {a b : Res Subs} (h : Same a b) : Same (blurR a) (blurR b) := by
  cases h with
  | ok h => exact .ok h
  | err x => exact .err _
  | panic => exact .panic

theorem Same.ok_left {a : Subs} {b : Res Subs} (h : Same (.ok a) b) : ∃ b', b = .ok b' ∧ ∀ n, a.get n = b'.get n := by
  cases h with | ok h => exact ⟨_, rfl, h⟩

theorem Same.err_left {x : Err} {b : Res Subs} (h : Same (.err x) b) : b = .err x := by cases h; rfl

theorem Same.panic_left {b : Res Subs} (h : Same .panic b) : b = .panic := by cases h; rfl

/-- Definitions small enough for costs to fit in 32 bits, see C29. -/
def Small (items : List (Alias × Expr)) : Prop := ∀ i ∈ items, 5 * nodes i.2 * 2 ^ nesting i.2 < 2 ^ 32

/-- A hash map iteration order: any permutation, depending on the contents. -/
def IsOrder (order : List (Alias × VKind) → List (Alias × VKind)) : Prop := ∀ l, (order l).Perm l

variable {E : Ext} {env : Env} {order : List (Alias × VKind) → List (Alias × VKind)} {items : List (Alias × Expr)}

/-! ## C24 -/

/-- **C24**, costs and types: what is recorded for an expression is what the pure typing says, whatever overloads were
tried; the aliases in scope and the records of all other nodes are untouched. -/
theorem C24_types_and_costs {Γ : TyEnv} {sc sc' : Scope} {e : Expr} {expected : Option Ty} (hA : Agrees Γ sc)
    (hC : Clean sc.md (ids e)) (hN : (ids e).Nodup) (h : e.resolve env expected sc = .ok sc') :
    ∃ c te, check env.funcs Γ e expected = .ok (c, te) ∧ recordedCost e sc'.md = .ok c ∧
      recTy sc'.md e.id = some te.target ∧ sc'.aliases = sc.aliases ∧
      ∀ i, i ∉ ids e → sc'.md.vals i = sc.md.vals i ∧ sc'.md.calls i = sc.md.calls i := by
  rcases resolve_spec e (env := env) (expected := expected) hA hC hN with ⟨h1, -⟩ | h1
  · rw [h] at h1; cases h1
  · split at h1
    · rename_i c te hc
      obtain ⟨sc1, h2, hR⟩ := h1
      rw [h] at h2
      cases h2
      exact ⟨c, te, hc, hR.cost, hR.ty, hR.aliases, hR.same⟩
    · rw [h] at h1; cases h1.1

/-- **C24**, values: the alias map (or the error) is that of the pure specification, unless costs overflow (C29). -/
theorem C24_values (hN : (specIds items).Nodup) (ho : IsOrder order) :
    (resolveSpec env items Scope.empty = .panic ∧ ¬ Small items) ∨
      Same (makeSubstitutions E env order items) (denote E env (named items)) := by
  rcases makeSubstitutions_spec (E := E) (env := env) (order := order) hN ho with ⟨h1, -, i, hi, hb⟩ | h
  · refine Or.inl ⟨h1, fun hs => ?_⟩
    have := hs i hi
    have := costBound_le i.2
    omega
  · refine Or.inr ?_
    cases hd : denote E env (named items) with
    | ok vs =>
      rw [hd] at h
      obtain ⟨subs, h1, h2, -, h3⟩ := h
      rw [h1]
      exact .ok (fun n => Subs.get_perm h2 ((h2.map _).nodup_iff.2 h3) n)
    | err x => rw [hd] at h; simp only at h; rw [h]; exact .err x
    | panic => rw [hd] at h; simp only at h; rw [h]; exact .panic

/-- **C24**, values, without exception: the alias map, the error or the panic is that of the pure specification, in which a
panic is either an overflow of costs or the panic of a function. -/
theorem C24_exact (hN : (specIds items).Nodup) (ho : IsOrder order) :
    Same (makeSubstitutions E env order items) (outcome E env (named items)) := by
  unfold outcome
  rcases makeSubstitutions_exact (E := E) (env := env) (order := order) hN ho with ⟨-, h, h1⟩ | ⟨h1, h⟩
  · rw [h, h1]
    exact .panic
  · rw [h1]
    simp only [Bool.false_eq_true, if_false]
    cases hd : denote E env (named items) with
    | ok vs =>
      rw [hd] at h
      obtain ⟨subs, h1, h2, -, h3⟩ := h
      rw [h1]
      exact .ok (fun n => Subs.get_perm h2 ((h2.map _).nodup_iff.2 h3) n)
    | err x => rw [hd] at h; simp only at h; rw [h]; exact .err x
    | panic => rw [hd] at h; simp only at h; rw [h]; exact .panic

theorem resolveSpec_of_ok {subs : Subs} (h : makeSubstitutions E env order items = .ok subs) :
    resolveSpec env items Scope.empty ≠ .panic := by
  intro hp
  simp [makeSubstitutions, hp] at h

theorem same_denote_ok (hN : (specIds items).Nodup) (ho : IsOrder order) {subs : Subs}
    (h : makeSubstitutions E env order items = .ok subs) :
    ∃ vs : Subs, denote E env (named items) = .ok vs ∧ ∀ n, subs.get n = vs.get n := by
  rcases C24_values (E := E) (env := env) hN ho with ⟨h1, -⟩ | h1
  · exact absurd h1 (resolveSpec_of_ok h)
  · rw [h] at h1
    exact h1.ok_left

theorem same_outcome_ok (hN : (specIds items).Nodup) (ho : IsOrder order) {subs : Subs}
    (h : makeSubstitutions E env order items = .ok subs) :
    ∃ vs : Subs, outcome E env (named items) = .ok vs ∧ ∀ n, subs.get n = vs.get n := by
  have := C24_exact (E := E) (env := env) hN ho
  rw [h] at this
  exact this.ok_left

/-- Three definitions: `x = concat(a, b)`, `y = upper(x)`, `z = concat(y, 1)`. -/
def threeDefs : List (Alias × Expr) :=
  [((0, S "x"), .call 1 (S "concat") [.value 2 (.ident (S "a")), .value 3 (.ident (S "b"))] none),
   ((4, S "y"), .call 5 (S "upper") [.value 6 (.ident (S "x"))] none),
   ((7, S "z"), .call 8 (S "concat") [.value 9 (.ident (S "y")), .value 10 (.litInt ⟨false, S "1", 1⟩)] none)]

theorem threeDefs_nodup : (specIds threeDefs).Nodup := by decide
theorem threeDefs_small : Small threeDefs := by unfold Small threeDefs; decide

example : (makeSubstitutions Ext.demo (Env.builtin 0) List.reverse threeDefs).map (fun s => (s.get (S "x"), s.get (S "y"), s.get (S "z")))
    = .ok (some (.ident (S "ab")), some (.ident (S "AB")), some (.ident (S "AB1"))) := by decide +kernel

/-! ## C23 -/

/-- **C23**: definitions that pass the checking phase never fail in the evaluation with an internal error, nor with a
failing cast of a value (which is a panic): the only panics are those of a built-in function applied, with arguments of
its parameter types, in the course of the evaluation (C36). -/
theorem C23_no_internal_failure (henv : env.funcs = builtinFuncs) (hN : (specIds items).Nodup) {sc : Scope}
    (h : resolveSpec env items Scope.empty = .ok sc) :
    (∃ bs, evalSpec E env sc.md items (fun _ => none) [] = .ok bs) ∨
    (∃ x, evalSpec E env sc.md items (fun _ => none) [] = .err x ∧ x ≠ .internal) ∨
    (evalSpec E env sc.md items (fun _ => none) [] = .panic ∧ ∃ tes f vs,
      checkSpec env.funcs (named items) (fun _ => none) = .ok tes ∧ AppliedSpec E env.seed tes (fun _ => none) f vs ∧
      f ∈ builtins ∧ TypesFit f vs ∧ f.impl E env.seed vs = .panic) := by
  rcases resolveSpec_spec items (env := env) agrees_empty (clean_empty _) hN with ⟨h1, -⟩ | h1
  · rw [h] at h1; cases h1
  cases hc : checkSpec env.funcs (named items) (fun _ => none) with
  | error x => rw [hc] at h1; rw [h] at h1; cases h1.1
  | ok tes =>
    rw [hc] at h1
    obtain ⟨sc1, h2, -, hrec⟩ := h1
    rw [h] at h2
    cases h2
    obtain ⟨-, h4, -⟩ := checkSpec_names hc
    have hnm : (named items).map (·.1) = items.map (·.1.2) := by simp [named, Function.comp_def]
    rw [hnm] at h4
    have he := evalSpec_spec (E := E) (env := env) (vars := fun _ => none) (bs := []) hrec h4 (by simp)
    rcases evalSpecT_sound (E := E) henv hc typed_empty with ⟨vs, hv, -⟩ | ⟨x, hx, hi⟩ | ⟨hp, f, vs, ha, hf, hi⟩
    · rw [hv] at he
      obtain ⟨bs, hb, -⟩ := he
      exact Or.inl ⟨_, hb⟩
    · rw [hx] at he
      exact Or.inr (Or.inl ⟨x, he, hi⟩)
    · rw [hp] at he
      exact Or.inr (Or.inr ⟨he, tes, f, vs, rfl, ha, (appliedSpec_fits henv hc typed_empty ha).1, hf, hi⟩)

/-- **C23** for the two phases together: no internal error comes out, and a panic is either one of the checking phase
(an overflow of a cost, C29) or one of a built-in function applied to arguments of its parameter types. -/
theorem C23_definitions (henv : env.funcs = builtinFuncs) (hN : (specIds items).Nodup) (ho : IsOrder order) :
    makeSubstitutions E env order items ≠ .err .internal ∧
    (makeSubstitutions E env order items = .panic →
      (∃ i ∈ items, 2 ^ 32 ≤ costBound i.2) ∨ ∃ f vs, f ∈ builtins ∧ TypesFit f vs ∧ f.impl E env.seed vs = .panic) := by
  rcases makeSubstitutions_spec (E := E) (env := env) hN ho with ⟨-, hp, hb⟩ | h
  · rw [hp]; exact ⟨(fun x => by cases x), fun _ => .inl hb⟩
  have h1 := resolveSpec_spec items (env := env) agrees_empty (clean_empty _) hN
  unfold denote at h
  cases hc : checkSpec env.funcs (named items) (fun _ => none) with
  | error x =>
    simp only [hc] at h h1
    rw [h]
    refine ⟨fun e => ?_, fun e => by cases e⟩
    cases e
    rcases h1 with ⟨hp, -⟩ | ⟨-, h2⟩
    · unfold makeSubstitutions at h; rw [hp] at h; cases h
    · exact h2 rfl
  | ok tes =>
    simp only [hc] at h
    rcases evalSpecT_sound (E := E) henv hc typed_empty with ⟨vs, hv, -⟩ | ⟨x, hx, hi⟩ | ⟨hp, f, vs, ha, hf, hi⟩
    · simp only [hv] at h
      obtain ⟨subs, hs, -⟩ := h
      rw [hs]; exact ⟨(fun x => by cases x), (fun x => by cases x)⟩
    · simp only [hx] at h
      rw [h]; exact ⟨fun e => hi (by cases e; rfl), (fun x => by cases x)⟩
    · simp only [hp] at h
      rw [h]
      exact ⟨(fun x => by cases x), fun _ => .inr ⟨f, vs, (appliedSpec_fits henv hc typed_empty ha).1, hf, hi⟩⟩

example : (Env.builtin 0).funcs = builtinFuncs ∧ (specIds threeDefs).Nodup ∧
    (resolveSpec (Env.builtin 0) threeDefs Scope.empty).isOk = true := ⟨rfl, threeDefs_nodup, rfl⟩

/-! ## C25 -/

/-- **C25**: if the definitions are accepted all alias names are different, and each has a value. -/
theorem C25_names_distinct (hN : (specIds items).Nodup) (ho : IsOrder order) {subs : Subs}
    (h : makeSubstitutions E env order items = .ok subs) :
    (items.map (·.1.2)).Nodup ∧ ∀ n, subs.get n ≠ none ↔ n ∈ items.map (·.1.2) := by
  obtain ⟨vs, hd, hg⟩ := same_denote_ok hN ho h
  obtain ⟨h1, h2⟩ := denote_names hd
  have hnm : (named items).map (·.1) = items.map (·.1.2) := by simp [named, Function.comp_def]
  rw [hnm] at h1
  refine ⟨h1 ▸ h2, fun n => ?_⟩
  rw [hg, ne_eq, Subs.get_eq_none, h1]
  exact Classical.not_not

/-- **C25**: a repeated name makes the definitions fail. -/
theorem C25_duplicate_fails (hN : (specIds items).Nodup) (ho : IsOrder order) (hd : ¬ (items.map (·.1.2)).Nodup)
    (subs : Subs) : makeSubstitutions E env order items ≠ .ok subs :=
  fun h => hd (C25_names_distinct hN ho h).1

/-- **C25**: the error "redefined" is reported only for a definition whose name was defined before, and for the first
one: the names before it are all different. -/
theorem C25_redefined (hN : (specIds items).Nodup) {n : Str}
    (h : resolveSpec env items Scope.empty = .err (.redefined n)) :
    ∃ pre aid e post, items = pre ++ ((aid, n), e) :: post ∧ (pre.map (·.1.2)).Nodup ∧ n ∈ pre.map (·.1.2) := by
  rcases resolveSpec_spec items (env := env) agrees_empty (clean_empty _) hN with ⟨h1, -⟩ | h1
  · rw [h] at h1; cases h1
  · split at h1
    · obtain ⟨_, h2, -⟩ := h1; rw [h] at h2; cases h2
    · rename_i x hx
      rw [h] at h1
      cases h1.1
      obtain ⟨pre, e, post, he, h3, -, h4⟩ := checkSpec_redefined hx
      simp only [Option.isSome_none, Bool.false_eq_true, or_false] at h4
      obtain ⟨pre', rest, rfl, hp, hr⟩ := List.map_eq_append_iff.1 he
      obtain ⟨⟨⟨aid, m⟩, e'⟩, post', rfl, hd, -⟩ := List.map_eq_cons_iff.1 hr
      simp only [Prod.mk.injEq] at hd
      obtain ⟨rfl, rfl⟩ := hd
      subst hp
      have := named_names pre'
      simp only [named] at this
      rw [this] at h3 h4
      exact ⟨pre', aid, e', post', rfl, h3, h4⟩

/-- **C25**: a definition that is otherwise fine and repeats an earlier name is reported as such, whatever follows. -/
theorem C25_duplicate_reported {pre post : List (Alias × Expr)} {aid : Nat} {n : Str} {e : Expr}
    (hN : (specIds (pre ++ [((aid, n), e)])).Nodup) {sc sc' : Scope} (h : resolveSpec env pre Scope.empty = .ok sc)
    (h' : e.resolve env none sc = .ok sc') (hn : n ∈ pre.map (·.1.2)) :
    makeSubstitutions E env order (pre ++ ((aid, n), e) :: post) = .err (.redefined n) := by
  have key : sc'.tryAddName n e.id = .err (.redefined n) := by
    cases ha : sc'.aliases n with
    | some i => simp [Scope.tryAddName, ha]
    | none =>
      exfalso
      have hr : ∃ sc2, resolveSpec env (pre ++ [((aid, n), e)]) Scope.empty = .ok sc2 := by
        rw [resolveSpec_append, h, Res.bind_ok]
        simp only [resolveSpec, resolveItem, Res.bind_eq, h', Res.bind_ok, Scope.tryAddName, ha]
        exact ⟨_, rfl⟩
      obtain ⟨sc2, hr⟩ := hr
      rcases resolveSpec_spec (pre ++ [((aid, n), e)]) (env := env) agrees_empty (clean_empty _) hN with ⟨h1, -⟩ | h1
      · rw [hr] at h1; cases h1
      · split at h1
        · rename_i tes hc
          have := (checkSpec_names hc).2.1
          rw [named_names, List.map_append, List.nodup_append] at this
          exact this.2.2 n hn n (by simp) rfl
        · rw [hr] at h1; cases h1.1
  simp only [makeSubstitutions, Res.bind_eq]
  rw [resolveSpec_append, h, Res.bind_ok]
  simp only [resolveSpec, resolveItem, Res.bind_eq, h', Res.bind_ok, key, Res.bind_err]

example : (makeSubstitutions Ext.demo (Env.builtin 0) id (threeDefs ++ [((11, S "y"), .value 12 (.ident (S "q")))])
    = .err (.redefined (S "y"))) := by
  refine C25_duplicate_reported (by decide) rfl rfl (by decide)

/-! ## C26 -/

/-- **C26**: adding definitions at the end does not change the values of the ones before. -/
theorem C26_prefix {pre post : List (Alias × Expr)} (hN : (specIds (pre ++ post)).Nodup) {order'} (ho : IsOrder order)
    (ho' : IsOrder order') {subs : Subs} (h : makeSubstitutions E env order (pre ++ post) = .ok subs) :
    ∃ subs', makeSubstitutions E env order' pre = .ok subs' ∧ ∀ n ∈ pre.map (·.1.2), subs.get n = subs'.get n := by
  obtain ⟨vs, hd, hg⟩ := same_denote_ok hN ho h
  have hN' : (specIds pre).Nodup := by
    rw [specIds_append, List.nodup_append] at hN
    exact hN.1
  rw [named_append] at hd
  obtain ⟨ws, us, h1, rfl⟩ := denote_prefix hd
  have hr : resolveSpec env pre Scope.empty ≠ .panic := by
    have := resolveSpec_of_ok h
    intro hp
    rw [resolveSpec_append, hp, Res.bind_panic] at this
    exact this rfl
  rcases C24_values (E := E) (env := env) hN' ho' with ⟨h2, -⟩ | h2
  · exact absurd h2 hr
  rw [h1] at h2
  obtain ⟨subs', h3, h4⟩ := h2.symm.ok_left
  refine ⟨subs', h3, fun n hn => ?_⟩
  rw [hg, ← h4, Subs.get_append]
  have : Subs.get ws n ≠ none := by
    rw [ne_eq, Subs.get_eq_none, (denote_names h1).1, named_names]
    exact fun h => h hn
  cases hw : Subs.get ws n with
  | none => exact absurd hw this
  | some v => rfl

/-- The value of the last definition, from the outcome of a list of definitions. -/
def lastValue (r : Res Subs) (n : Str) : Res (Option VKind) := r.bind fun subs => .ok (subs.get n)

/-- **C26**: the value of a definition — as well as the error or the panic it may end in — depends only on the values of
the aliases it uses: placed after other definitions that give the identifiers it contains the same values (or none, so that
they are taken literally) it gets the same value. -/
theorem C26_only_used_aliases (henv : env.funcs = builtinFuncs) {pre pre' : List (Alias × Expr)} {a a' : Alias} {e : Expr}
    (hN : (specIds (pre ++ [(a, e)])).Nodup) (hN' : (specIds (pre' ++ [(a', e)])).Nodup) (ho : IsOrder order)
    {subs subs' : Subs} (h : makeSubstitutions E env order pre = .ok subs) (h' : makeSubstitutions E env order pre' = .ok subs')
    (hu : ∀ n ∈ used e, subs.get n = subs'.get n) (ha : a.2 ∉ pre.map (·.1.2)) (ha' : a'.2 ∉ pre'.map (·.1.2)) :
    lastValue (makeSubstitutions E env order (pre ++ [(a, e)])) a.2 =
      lastValue (makeSubstitutions E env order (pre' ++ [(a', e)])) a'.2 := by
  have hN1 : (specIds pre).Nodup := by rw [specIds_append, List.nodup_append] at hN; exact hN.1
  have hN1' : (specIds pre').Nodup := by rw [specIds_append, List.nodup_append] at hN'; exact hN'.1
  obtain ⟨vs, hd, hg⟩ := same_outcome_ok hN1 ho h
  obtain ⟨vs', hd', hg'⟩ := same_outcome_ok hN1' ho h'
  obtain ⟨o, h1, h2⟩ := outcome_last henv hd hd' (e := e) (fun n hn => by rw [← hg, ← hg', hu n hn])
    (a := a.2) (a' := a'.2) (by rw [named_names]; exact ha) (by rw [named_names]; exact ha')
  have e1 : vs.get a.2 = none := by
    rw [Subs.get_eq_none, (denote_names (outcome_ok.1 hd).2).1, named_names]; exact ha
  have e2 : vs'.get a'.2 = none := by
    rw [Subs.get_eq_none, (denote_names (outcome_ok.1 hd').2).1, named_names]; exact ha'
  have h3 := C24_exact (E := E) (env := env) hN ho
  have h4 := C24_exact (E := E) (env := env) hN' ho
  rw [named_append] at h3 h4
  simp only [named, List.map_cons, List.map_nil] at h1 h2 h3 h4
  rw [h1] at h3
  rw [h2] at h4
  cases o with
  | ok v =>
    obtain ⟨r, hr, hr'⟩ := h3.symm.ok_left
    obtain ⟨q, hq, hq'⟩ := h4.symm.ok_left
    rw [hr, hq]
    show Res.ok _ = Res.ok _
    rw [← hr', ← hq', Subs.get_append, Subs.get_append, e1, e2]
    simp [Subs.get_cons]
  | err x =>
    simp only [Res.bind_err] at h3 h4
    rw [h3.symm.err_left, h4.symm.err_left]
    rfl
  | panic =>
    simp only [Res.bind_panic] at h3 h4
    rw [h3.symm.panic_left, h4.symm.panic_left]
    rfl

/-- **C26**: a name that is not defined before — in particular the name being defined, or one defined later — is taken
literally. -/
theorem C26_undefined_is_literal {pre : List (Alias × Expr)} {a : Alias} {id : Nat} {s : Str} (henv : env.funcs = builtinFuncs)
    (hN : (specIds (pre ++ [(a, .value id (.ident s))])).Nodup) (ho : IsOrder order) {subs : Subs}
    (h : makeSubstitutions E env order pre = .ok subs) (hs : s ∉ pre.map (·.1.2)) (ha : a.2 ∉ pre.map (·.1.2)) :
    ∃ r, makeSubstitutions E env order (pre ++ [(a, .value id (.ident s))]) = .ok r ∧ r.get a.2 = some (.ident s) := by
  have hN1 : (specIds pre).Nodup := by rw [specIds_append, List.nodup_append] at hN; exact hN.1
  have hget := (C25_names_distinct hN1 ho h).2
  have hnil : makeSubstitutions E env order [] = .ok [] := by
    have : order [] = [] := List.Perm.eq_nil (ho [])
    simp [makeSubstitutions, resolveSpec, evalSpec, this, collectSubs]
  have hone : ∃ r, makeSubstitutions E env order [(a, .value id (.ident s))] = .ok r ∧ r.get a.2 = some (.ident s) := by
    have ho1 : order [(a, .ident s)] = [(a, .ident s)] := List.perm_singleton.1 (ho _)
    refine ⟨[(a.2, .ident s)], ?_, by simp [Subs.get_cons]⟩
    simp [makeSubstitutions, resolveSpec, resolveItem, Expr.resolve, resolveValue, valueFromType, Scope.empty, VKind.ty,
      coercionCost, coercionCostBasic, Scope.tryAddName, evalSpec, evalExpr, Expr.depth, evalValue, Metadata.setValue, tryCast,
      insertKey, ho1, collectSubs]
  obtain ⟨r0, hr0, hv0⟩ := hone
  have key := C26_only_used_aliases (pre := []) (pre' := pre) (a := a) (a' := a) henv
    (by simp [specIds, idsL, ids]) hN ho hnil h (by
      intro n hn
      simp only [used, leafName, List.mem_singleton] at hn
      subst hn
      cases hg : subs.get n with
      | none => rfl
      | some v => exact absurd ((hget n).1 (by simp [hg])) hs) (by simp) ha
  rw [List.nil_append, hr0] at key
  simp only [lastValue, Res.bind_ok, hv0] at key
  have := Res.bind_eq_ok.1 key.symm
  obtain ⟨r, hr, hv⟩ := this
  cases hv' : r.get a.2 <;> simp [hv'] at hv
  exact ⟨r, hr, by rw [hv', hv]⟩

/-- **C26**: an alias used in a definition behaves as its value: replacing it by the value changes nothing, provided the
value is not itself the name of an alias (which would be looked up again). Only the quotation of the definition in an error
message changes. -/
theorem C26_alias_as_value (henv : env.funcs = builtinFuncs) {pre post : List (Alias × Expr)} {a : Alias} {e : Expr} {s : Str}
    {v : VKind} (hN : (specIds (pre ++ (a, e) :: post)).Nodup) (ho : IsOrder order)
    {subs : Subs} (h : makeSubstitutions E env order pre = .ok subs) (hs : subs.get s = some v)
    (hv : ∀ n, v = .ident n → n ∉ pre.map (·.1.2)) :
    Same (blurR (makeSubstitutions E env order (pre ++ (a, replaceAlias s v e) :: post)))
      (blurR (makeSubstitutions E env order (pre ++ (a, e) :: post))) := by
  have hN1 : (specIds pre).Nodup := by rw [specIds_append, List.nodup_append] at hN; exact hN.1
  obtain ⟨vs, hd, hg⟩ := same_outcome_ok hN1 ho h
  obtain ⟨q1, -, -⟩ := replaceAlias_sizes (s := s) (v := v) e
  have hN2 : (specIds (pre ++ (a, replaceAlias s v e) :: post)).Nodup := by
    rw [specIds_append] at hN ⊢
    simpa [specIds, idsL, q1] using hN
  refine (C24_exact hN2 ho).blur.trans (Same.trans ?_ (C24_exact hN ho).blur.symm)
  rw [named_append, named_append]
  simp only [named, List.map_cons]
  have := outcome_inline henv hd (s := s) (v := v) (by rw [← hg, hs]) (by
    intro n hn
    rw [Subs.get_eq_none, (denote_names (outcome_ok.1 hd).2).1, named_names]
    exact hv n hn) a.2 e (named post)
  simp only [named] at this
  rw [this]
  exact Same.refl _

/-- The proviso is needed: with `b = q`, `a = b'` where the value of `x` is the identifier `b`, using `x` gives `b`, but using
`b` gives `q`. -/
example :
    ((makeSubstitutions Ext.demo (Env.builtin 0) id
      [((0, S "x"), .value 1 (.ident (S "b"))), ((2, S "b"), .value 3 (.ident (S "q"))), ((4, S "y"), .value 5 (.ident (S "x")))]).map
        (fun s => s.get (S "y")),
     (makeSubstitutions Ext.demo (Env.builtin 0) id
      [((0, S "x"), .value 1 (.ident (S "b"))), ((2, S "b"), .value 3 (.ident (S "q"))), ((4, S "y"), .value 5 (.ident (S "b")))]).map
        (fun s => s.get (S "y"))) = (.ok (some (.ident (S "b"))), .ok (some (.ident (S "q")))) := by decide +kernel

example : ∃ subs, makeSubstitutions Ext.demo (Env.builtin 0) id (threeDefs.take 2) = .ok subs ∧
    subs.get (S "y") = some (.ident (S "AB")) ∧ (S "AB") ∉ (threeDefs.take 2).map (·.1.2) := ⟨_, rfl, rfl, by decide⟩

/-! ## C34 -/

/-- **C34**: arguments of `raw(...)` and `normalize(...)` are not evaluated: dropping them, everywhere and at any depth,
changes nothing, apart from the quotation of the definition in an error message. -/
theorem C34_arguments_ignored (henv : env.funcs = builtinFuncs) (hN : (specIds items).Nodup) (ho : IsOrder order) :
    Same (blurR (makeSubstitutions E env order (items.map (fun i => (i.1, dropUnused i.2)))))
      (blurR (makeSubstitutions E env order items)) := by
  have hsub : ∀ l : List (Alias × Expr), (specIds (l.map (fun i => (i.1, dropUnused i.2)))).Sublist (specIds l) := by
    intro l
    induction l with
    | nil => simp [specIds, idsL]
    | cons i l ih =>
      simp only [specIds, List.map_cons, idsL] at ih ⊢
      exact (dropUnused_sizes i.2).1.append ih
  refine (C24_exact ((hsub items).nodup hN) ho).blur.trans (Same.trans ?_ (C24_exact hN ho).blur.symm)
  have : named (items.map (fun i => (i.1, dropUnused i.2))) = (named items).map (fun p => (p.1, dropUnused p.2)) := by
    simp [named, Function.comp_def]
  rw [this]
  unfold outcome denote
  rw [henv, overflowsSpec_dropUnused]
  split
  · exact Same.refl _
  · rcases blurE_cases (checkSpec_dropUnused (named items) fun _ => none) with ⟨p, h1, h2⟩ | ⟨x, y, h1, h2, h3⟩
    · rw [h1, h2]; exact Same.refl _
    · rw [h1, h2]; simp only [blurR, h3]; exact Same.refl _

/-- **C34**: the value of `raw(...)` is its tokens, and that of `normalize(...)` is computed from the text of its tokens,
whatever the arguments and the aliases defined before are. -/
theorem C34_value (henv : env.funcs = builtinFuncs) {pre : List (Alias × Expr)} {a : Alias} {id : Nat} {name : Str}
    {args : List Expr} {i : Nat} {ts : Toks} (hN : (specIds (pre ++ [(a, .call id name args (some (i, ts)))])).Nodup)
    (ho : IsOrder order) {r : Subs} (hr : makeSubstitutions E env order (pre ++ [(a, .call id name args (some (i, ts)))]) = .ok r) :
    (name = S "raw" → r.get a.2 = some (.tokens ts)) ∧
    (name = S "normalize" → r.get a.2 = some (.ident (normalize E.toCharClass (E.render ts)))) := by
  obtain ⟨ws, hw, hgw⟩ := same_denote_ok hN ho hr
  have hnr := (C25_names_distinct hN ho hr).1
  rw [named_append] at hw
  obtain ⟨vs, us, hd, -⟩ := denote_prefix hw
  rw [denote_append henv hd] at hw
  have e1 : Subs.get vs a.2 = none := by
    rw [Subs.get_eq_none, (denote_names hd).1, named_names]
    intro hm
    rw [List.map_append, List.nodup_append] at hnr
    exact hnr.2.2 _ hm a.2 (by simp) rfl
  simp only [named, List.map_cons, List.map_nil, checkSpec, check, henv, e1, Option.map_none, Option.isSome_none,
    Bool.false_eq_true, if_false] at hw
  constructor
  · rintro rfl
    have hu : usable (some (i, ts)) args.length none (fun ps => checkArgs builtinFuncs (fun n => (Subs.get vs n).map (·.ty)) args ps)
        (rawFunc 33) = some ⟨0, rawFunc 33, [.val (.raw ts) .raw]⟩ := rfl
    simp only [builtin_raw, List.filterMap_cons, List.filterMap_nil, hu, best] at hw
    simp only [evalSpecT, TExpr.eval, TExpr.evalL, tryCast, Res.bind_eq, VKind.ty, if_true, Res.bind_ok, rawFunc,
      Option.getD_none] at hw
    cases hw
    rw [hgw, Subs.get_append, e1]
    simp [Subs.get_cons]
  · rintro rfl
    have hu : usable (some (i, ts)) args.length none (fun ps => checkArgs builtinFuncs (fun n => (Subs.get vs n).map (·.ty)) args ps)
        (normalizeFunc 10) = some ⟨0, normalizeFunc 10, [.val (.raw ts) .raw]⟩ := rfl
    simp only [builtin_normalize, List.filterMap_cons, List.filterMap_nil, hu, best] at hw
    simp only [evalSpecT, TExpr.eval, TExpr.evalL, tryCast, Res.bind_eq, VKind.ty, if_true, Res.bind_ok, normalizeFunc,
      Option.getD_none, newIdent] at hw
    split at hw
    · simp only [Res.bind_ok, if_true] at hw
      cases hw
      rw [hgw, Subs.get_append, e1]
      simp [Subs.get_cons]
    · cases hw

example : (makeSubstitutions Ext.demo (Env.builtin 0) id
    [((0, S "x"), .value 1 (.ident (S "q"))),
     ((2, S "y"), .call 3 (S "raw") [.value 4 (.ident (S "x"))] (some (5, [.ident (S "x")])))]).map (fun s => s.get (S "y"))
      = .ok (some (.tokens [.ident (S "x")])) := by decide +kernel

/-! ## C35 -/

/-- The type recorded for an expression by the checking phase. -/
def RecordedType (m : Metadata) : Expr → Ty → Prop
  | .value id _, t => ∃ c, m.vals id = some ⟨t, c⟩
  | .call id _ _ _, t => ∃ md, m.calls id = some md ∧ md.target = t ∧ md.func.out = t

/-- **C35**: the value of each alias has the type recorded by the checking phase, which for a call is the output type of
the chosen overload. -/
theorem C35_value_type (henv : env.funcs = builtinFuncs) (hN : (specIds items).Nodup) (ho : IsOrder order) {subs : Subs}
    {sc : Scope} (hs : resolveSpec env items Scope.empty = .ok sc) (h : makeSubstitutions E env order items = .ok subs)
    {a : Alias} {e : Expr} (hm : (a, e) ∈ items) : ∃ v, subs.get a.2 = some v ∧ RecordedType sc.md e v.ty := by
  obtain ⟨vs, hd, hg⟩ := same_denote_ok hN ho h
  have hnd := (denote_names hd).2
  rcases resolveSpec_spec items (env := env) agrees_empty (clean_empty _) hN with ⟨h1, -⟩ | h1
  · rw [hs] at h1; cases h1
  unfold denote at hd
  cases hc : checkSpec env.funcs (named items) (fun _ => none) with
  | error x => rw [hc] at hd; cases hd
  | ok tes =>
    rw [hc] at hd h1
    obtain ⟨sc1, h2, -, hrec⟩ := h1
    rw [hs] at h2
    cases h2
    rcases evalSpecT_sound (E := E) henv hc typed_empty with ⟨vs', hv, hty⟩ | ⟨x, hx, -⟩ | ⟨hp, -⟩
    · simp only at hd
      rw [hd] at hv
      cases hv
      suffices key : ∃ te v, (a.2, v) ∈ vs ∧ v.ty = te.target ∧ Records sc.md e te ∧
          (∀ f tes t, te = .call f tes t → t = f.out) by
        obtain ⟨te, v, hmem, ht, hr, hout⟩ := key
        refine ⟨v, by rw [hg]; exact (Subs.get_eq_some hnd).2 hmem, ?_⟩
        cases hr with
        | value hv => exact ⟨_, by rw [hv, ht]; rfl⟩
        | call hv _ _ =>
          refine ⟨_, hv, ht.symm, ?_⟩
          rw [ht]
          exact (hout _ _ _ rfl).symm
      have houts := checkSpec_outs hc
      clear hc hd h hs hg hnd
      induction hrec generalizing vs with
      | nil => cases hm
      | @cons i te is tes hi his ih =>
        cases vs with
        | nil => simp at hty
        | cons p vs =>
          simp only [List.map_cons, List.cons.injEq, Prod.mk.injEq] at hty
          rcases List.mem_cons.1 hm with hm | hm
          · subst hm
            obtain ⟨n, v⟩ := p
            refine ⟨te.2, v, ?_, hty.1.2, hi.2, houts te (by simp)⟩
            have : n = a.2 := hty.1.1.trans hi.1.symm
            rw [this]
            simp
          · have hN' : (specIds is).Nodup := by
              simp only [specIds, List.map_cons, idsL, List.nodup_append] at hN
              exact hN.2.1
            obtain ⟨te', v, hmem, h3⟩ := ih hN' hm vs hty.2 (fun q hq => houts q (by simp [hq]))
            exact ⟨te', v, by simp [hmem], h3⟩
    · simp only at hd; rw [hd] at hx; cases hx
    · simp only at hd; rw [hd] at hp; cases hp

/-- **C35**: the types of values are those of their names. -/
theorem C35_kinds (s r : Str) (ts : Toks) (i : IntLit) :
    (VKind.ident s).ty = .ident ∧ (VKind.path ts).ty = .path ∧ (VKind.type ts).ty = .type ∧ (VKind.expr ts).ty = .expr ∧
    (VKind.litStr r s).ty = .litStr ∧ (VKind.litInt i).ty = .litInt ∧ (VKind.tokens ts).ty = .tokens ∧ (VKind.raw ts).ty = .raw :=
  ⟨rfl, rfl, rfl, rfl, rfl, rfl, rfl, rfl⟩

/-- **C35**, inside definitions: whenever a function is applied, it is a built-in one and its arguments have exactly the
types of its parameters. -/
theorem C35_argument_types (henv : env.funcs = builtinFuncs) {defs : List (Str × Expr)} {tes : List (Str × TExpr)}
    (hc : checkSpec env.funcs defs (fun _ => none) = .ok tes) {f : Func} {vs : List VKind}
    (ha : AppliedSpec E env.seed tes (fun _ => none) f vs) : f ∈ builtins ∧ TypesFit f vs :=
  appliedSpec_fits henv hc typed_empty ha

example : ∃ sc subs, resolveSpec (Env.builtin 0) threeDefs Scope.empty = .ok sc ∧
    makeSubstitutions Ext.demo (Env.builtin 0) id threeDefs = .ok subs := ⟨_, _, rfl, rfl⟩

/-! ## C56 -/

/-- **C56**: the alias map (or the error) does not depend on the iteration order of the hash map of bindings. -/
theorem C56_order_independent {order' : List (Alias × VKind) → List (Alias × VKind)} (hN : (specIds items).Nodup)
    (ho : IsOrder order) (ho' : IsOrder order') :
    Same (makeSubstitutions E env order items) (makeSubstitutions E env order' items) := by
  rcases C24_values (E := E) (env := env) hN ho with ⟨h1, -⟩ | h1
  · simp only [makeSubstitutions, h1, Res.bind_eq, Res.bind_panic]
    exact .panic
  · rcases C24_values (E := E) (env := env) hN ho' with ⟨h2, -⟩ | h2
    · simp only [makeSubstitutions, h2, Res.bind_eq, Res.bind_panic]
      exact .panic
    · exact h1.trans h2.symm

/-- **C56**: maps with the same values give the same substitution. -/
theorem C56_substitution_same {subs subs' : Subs} (h : ∀ n, subs.get n = subs'.get n) (valid : Toks → Bool) (node : Toks) :
    substituteIdents E valid subs node = substituteIdents E valid subs' node := by
  have : subs.get = subs'.get := funext h
  have hf : fmtStr E subs = fmtStr E subs' := by funext s; simp only [fmtStr, this]
  have hv : substVisitor E valid subs = substVisitor E valid subs' := by simp only [substVisitor, this, hf]
  simp only [substituteIdents, hv]

example : IsOrder id ∧ IsOrder List.reverse := ⟨fun _ => List.Perm.refl _, fun l => List.reverse_perm l⟩

end Verif.Props
