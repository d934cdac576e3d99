import Verif.Proofs.Overload
import Verif.Proofs.Sound
import Verif.Model.Demo
/-!
# Properties C22, C27 and C29: choice of the overload, number of arguments, size of the costs

Hypotheses on the state: `Agrees Γ sc` says that the aliases in scope have the types `Γ`, `Clean` that the nodes of the
expression have not been resolved yet, and `Nodup` that node ids are different (C50). At the start of a definition list
they hold (`agrees_empty`, `clean_empty`), and resolving keeps them (`Verif.resolveSpec_spec`).
-/

namespace Verif.Props
open Verif Spec

/-! ## C22 -/

/-- An overload can be used for a call at a cost: its result coerces to what is expected, and either it takes the raw
tokens, or the number of arguments fits and each argument can be typed against its parameter. Arguments of a variadic
parameter count double. -/
inductive Applicable (T : Str → Option (List Func)) (Γ : TyEnv) (args : List Expr) (raw : Option (Nat × Toks))
    (expected : Option Ty) (f : Func) : Nat → Prop
  | raw {co i ts} : outCost f.out expected = some co → f.args = [.raw] → raw = some (i, ts) →
      Applicable T Γ args raw expected f co
  | args {co ps cs} : outCost f.out expected = some co → (f.args = [.raw] → raw = none) →
      paramsFor f args.length = some ps → All2 (fun ep c => ∃ te, check T Γ ep.1 (some ep.2.1) = .ok (c, te)) (args.zip ps) cs →
      Applicable T Γ args raw expected f (co + (ps.zip cs).foldr (fun pc s => pc.2 * pc.1.2 + s) 0)

/-- `(cost, overload)` comes before `(cost', overload')`: it is cheaper, or equally cheap and not variadic while the
other is, or has fewer parameters, or was declared first. -/
def Before (c : Nat) (f : Func) (c' : Nat) (g : Func) : Prop :=
  c < c' ∨ c = c' ∧ (f.isVariadic = false ∧ g.isVariadic = true ∨ f.isVariadic = g.isVariadic ∧
    (f.args.length < g.args.length ∨ f.args.length = g.args.length ∧ f.id < g.id))

theorem checkArgs_iff {T Γ} : ∀ {es : List Expr} {ps : List (Ty × Nat)}, es.length = ps.length → ∀ {c : Nat},
    (∃ tes, checkArgs T Γ es ps = some (c, tes)) ↔
      ∃ cs, All2 (fun ep c => ∃ te, check T Γ ep.1 (some ep.2.1) = .ok (c, te)) (es.zip ps) cs ∧
        c = (ps.zip cs).foldr (fun pc s => pc.2 * pc.1.2 + s) 0
  | [], [], _, c => by
    simp only [checkArgs, List.zip_nil_left]
    constructor
    · rintro ⟨_, h⟩; cases h; exact ⟨[], .nil, rfl⟩
    · rintro ⟨cs, h, rfl⟩; cases h; exact ⟨[], rfl⟩
  | e :: es, (t, m) :: ps, h, c => by
    have ih := fun c => checkArgs_iff (T := T) (Γ := Γ) (es := es) (ps := ps) (by simpa using h) (c := c)
    simp only [checkArgs, List.zip_cons_cons]
    constructor
    · rintro ⟨tes, h⟩
      split at h
      · rename_i c1 te hc
        rw [Option.map_eq_some_iff] at h
        obtain ⟨⟨c2, tes2⟩, h1, h2⟩ := h
        cases h2
        obtain ⟨cs, ha, rfl⟩ := (ih c2).1 ⟨tes2, h1⟩
        exact ⟨c1 :: cs, .cons ⟨te, hc⟩ ha, rfl⟩
      · cases h
    · rintro ⟨cs, h, rfl⟩
      cases h with
      | cons h1 h2 =>
        obtain ⟨te, hc⟩ := h1
        obtain ⟨tes, ht⟩ := (ih _).2 ⟨_, h2, rfl⟩
        simp only at hc
        simp only [hc, ht, Option.map_some]
        exact ⟨te :: tes, rfl⟩
  | [], _ :: _, h, _ => by simp at h
  | _ :: _, [], h, _ => by simp at h

theorem applicable_iff {T Γ args raw expected f c} : Applicable T Γ args raw expected f c ↔
    ∃ tes, usable raw args.length expected (fun ps => checkArgs T Γ args ps) f = some ⟨c, f, tes⟩ := by
  constructor
  · intro h
    cases h with
    | @raw co i ts h1 h2 h3 => exact ⟨[.val (.raw ts) .raw], by
        simp only [usable, h1, h2, h3, if_true, Option.bind_eq_bind, Option.bind_some]⟩
    | args h1 h2 h3 h4 =>
      have hl := paramsFor_length h3
      obtain ⟨tes, ht⟩ := (checkArgs_iff hl.symm).2 ⟨_, h4, rfl⟩
      refine ⟨tes, ?_⟩
      have : (if f.args = [.raw] then raw else none) = none := by split <;> simp_all
      simp only [usable, h1, this, h3, ht, Option.bind_eq_bind, Option.bind_some]
  · rintro ⟨tes, h⟩
    obtain ⟨-, co, h1, ⟨h2, i, ts, h3, h4⟩ | ⟨h2, ps, c', tes', h3, h4, h5⟩⟩ := usable_cost h
    · simp only at h4
      rw [h4.1]
      exact .raw h1 h2 h3
    · obtain ⟨cs, ha, hc⟩ := (checkArgs_iff (paramsFor_length h3).symm).1 ⟨_, h4⟩
      simp only at h5
      rw [h5.1, hc]
      exact .args h1 (fun hr => by cases raw <;> simp_all) h3 ha

/-- **C22**: the recorded overload is applicable at the recorded cost and comes before every other applicable one. -/
theorem C22_chosen_is_first {env : Env} {Γ : TyEnv} {sc sc' : Scope} {id : Nat} {name : Str} {args : List Expr}
    {raw : Option (Nat × Toks)} {expected : Option Ty} (hA : Agrees Γ sc) (hC : Clean sc.md (ids (.call id name args raw)))
    (hN : (ids (.call id name args raw)).Nodup) (h : Expr.resolve env (.call id name args raw) expected sc = .ok sc') :
    ∃ fs md, env.funcs name = some fs ∧ sc'.md.calls id = some md ∧ md.func ∈ fs ∧
      Applicable env.funcs Γ args raw expected md.func md.cost ∧ md.target = expected.getD md.func.out ∧
      ∀ g ∈ fs, ∀ c, Applicable env.funcs Γ args raw expected g c →
        (g.id = md.func.id ∧ c = md.cost) ∨ Before md.cost md.func c g := by
  rcases resolve_spec (.call id name args raw) (env := env) (expected := expected) hA hC hN with ⟨h1, -⟩ | h1
  · rw [h] at h1; cases h1
  simp only [check] at h1
  cases hf : env.funcs name with
  | none => rw [hf] at h1; simp only at h1; rw [h] at h1; cases h1.1
  | some fs =>
    rw [hf] at h1
    simp only at h1
    cases hb : best (fs.filterMap (usable raw args.length expected fun ps => checkArgs env.funcs Γ args ps)) with
    | none => rw [hb] at h1; simp only at h1; rw [h] at h1; cases h1.1
    | some ch =>
      rw [hb] at h1
      obtain ⟨sc1, h2, hR⟩ := h1
      rw [h] at h2
      cases h2
      obtain ⟨g, hg, hu⟩ := List.mem_filterMap.1 (best_mem hb)
      have hgf := usable_func hu
      cases hR.records with
      | call hmd _ _ =>
        refine ⟨fs, _, rfl, hmd, hgf ▸ hg, ?_, rfl, ?_⟩
        · have hc := hR.cost
          simp only [recordedCost, hmd, Option.map_some, Res.ofOption, Res.ok.injEq] at hc
          simp only [hc]
          exact applicable_iff.2 ⟨ch.args, by rw [hgf, hu, ← hgf]⟩
        · intro f hf' c' hap
          obtain ⟨tes, hu'⟩ := applicable_iff.1 hap
          have hnb := best_not_better hb _ (List.mem_filterMap.2 ⟨f, hf', hu'⟩)
          have hc := hR.cost
          simp only [recordedCost, hmd, Option.map_some, Res.ofOption, Res.ok.injEq] at hc
          simp only [hc]
          by_cases hbe : ch.better ⟨c', f, tes⟩
          · exact Or.inr hbe
          · have := better_total hbe hnb
            exact Or.inl ⟨this.2.2.2.symm, this.1.symm⟩

/-- **C22**: a call fails only if its function is unknown or no overload is applicable (or, C29, the costs overflow). -/
theorem C22_fails_only_if_none_applicable {env : Env} {Γ : TyEnv} {sc : Scope} {id : Nat} {name : Str}
    {args : List Expr} {raw : Option (Nat × Toks)} {expected : Option Ty} (hA : Agrees Γ sc)
    (hC : Clean sc.md (ids (.call id name args raw))) (hN : (ids (.call id name args raw)).Nodup) {x : Err}
    (h : Expr.resolve env (.call id name args raw) expected sc = .err x) :
    (env.funcs name = none ∧ x = .undefinedFunction name) ∨
    (∃ fs, env.funcs name = some fs ∧ x = refusal fs (.call id name args raw) ∧
      ∀ g ∈ fs, ∀ c, ¬ Applicable env.funcs Γ args raw expected g c) := by
  rcases resolve_spec (.call id name args raw) (env := env) (expected := expected) hA hC hN with ⟨h1, -⟩ | h1
  · rw [h] at h1; cases h1
  simp only [check] at h1
  cases hf : env.funcs name with
  | none =>
    rw [hf] at h1
    simp only at h1
    rw [h] at h1
    exact Or.inl ⟨rfl, by simpa using h1.1⟩
  | some fs =>
    rw [hf] at h1
    simp only at h1
    cases hb : best (fs.filterMap (usable raw args.length expected fun ps => checkArgs env.funcs Γ args ps)) with
    | none =>
      rw [hb] at h1
      simp only at h1
      rw [h] at h1
      refine Or.inr ⟨fs, rfl, by simpa using h1.1, ?_⟩
      intro g hg c hap
      obtain ⟨tes, hu⟩ := applicable_iff.1 hap
      have : (⟨c, g, tes⟩ : Choice) ∈ fs.filterMap (usable raw args.length expected fun ps => checkArgs env.funcs Γ args ps) :=
        List.mem_filterMap.2 ⟨g, hg, hu⟩
      rw [best_eq_none.1 hb] at this
      cases this
    | some ch =>
      rw [hb] at h1
      obtain ⟨sc1, h2, -⟩ := h1
      rw [h] at h2; cases h2

/-- **C22**: the order in which candidates are tried does not matter: with each list of overloads permuted, resolving
gives exactly the same scope, error or panic. Only the error for a call which fits no overload depends on the order, in which
it lists the signatures. -/
theorem C22_order_independent {env env' : Env} (h : ∀ name, (env.funcs name = none ∧ env'.funcs name = none) ∨
      ∃ fs fs', env.funcs name = some fs ∧ env'.funcs name = some fs' ∧ fs.Perm fs' ∧ (fs.map (·.id)).Nodup)
    (e : Expr) (expected : Option Ty) (sc : Scope) :
    e.resolve env expected sc = e.resolve env' expected sc ∨
    ∃ fs fs', fs.Perm fs' ∧ e.resolve env expected sc = .err (refusal fs e) ∧ e.resolve env' expected sc = .err (refusal fs' e) :=
  resolve_reordered h e

/-- The ids of the built-in functions are different, so that the choice is unique. -/
theorem C22_builtin_ids : (builtins.map (·.id)).Nodup := by decide

/-- `concat(a, 1)`: two of the five overloads are applicable, and the one for an identifier and tokens is chosen. -/
def c22Call : Expr := .call 0 (S "concat") [.value 1 (.ident (S "a")), .value 2 (.litInt ⟨false, S "1", 1⟩)] none

example : Agrees (fun _ => none) Scope.empty ∧ Clean Scope.empty.md (ids c22Call) ∧ (ids c22Call).Nodup :=
  ⟨agrees_empty, clean_empty _, by decide⟩

example : ∃ sc md, c22Call.resolve (Env.builtin 0) none Scope.empty = .ok sc ∧ sc.md.calls 0 = some md ∧ md.cost = 8 ∧
    md.func.args = [.ident, .variadic .tokens] := by
  refine ⟨_, _, rfl, rfl, rfl, rfl⟩

example : Applicable builtinFuncs (fun _ => none) [.value 1 (.ident (S "a")), .value 2 (.litInt ⟨false, S "1", 1⟩)] none none
    (concatTokens 25) (0 + (4 * 2 + (4 * 2 + 0))) := by
  refine .args (ps := [(.tokens, 2), (.tokens, 2)]) (cs := [4, 4]) rfl (by simp) rfl ?_
  exact .cons ⟨_, rfl⟩ (.cons ⟨_, rfl⟩ .nil)

/-! ## C27 -/

/-- The number of arguments fits an overload. -/
def CountFits (f : Func) (n : Nat) (raw : Option (Nat × Toks)) : Prop :=
  (f.args = [.raw] ∧ raw.isSome) ∨ ((∃ t, .variadic t ∈ f.args) ∧ f.args.length ≤ n) ∨
    ((¬ ∃ t, .variadic t ∈ f.args) ∧ f.args.length = n)

theorem isVariadic_iff {f : Func} : f.isVariadic = true ↔ ∃ t, .variadic t ∈ f.args := by
  simp only [Func.isVariadic, List.any_eq_true]
  constructor
  · rintro ⟨t, h, hv⟩
    cases t <;> first | (exact ⟨_, h⟩) | (simp [Ty.isVariadic] at hv)
  · rintro ⟨t, h⟩; exact ⟨_, h, rfl⟩

/-- **C27**: if the number of arguments fits no overload the call is rejected with a signature error, whatever the
arguments, the expected type and the state. -/
theorem C27_wrong_count_rejected {env : Env} {name : Str} {fs : List Func} (hf : env.funcs name = some fs)
    {args : List Expr} {raw : Option (Nat × Toks)} (h : ∀ f ∈ fs, ¬ CountFits f args.length raw) (id : Nat)
    (expected : Option Ty) (sc : Scope) :
    Expr.resolve env (.call id name args raw) expected sc = .err (refusal fs (.call id name args raw)) := by
  have hatt : ∀ f ∈ fs, ∃ x, x ≠ .internal ∧ resolveCallForFunc name f args raw expected sc
      (fun ps c sc => Expr.resolveArgs env args ps c sc) = .err x := by
    intro f hm
    have hn := h f hm
    simp only [CountFits, ← isVariadic_iff, not_or, not_and] at hn
    obtain ⟨h1, h2, h3⟩ := hn
    unfold resolveCallForFunc
    simp only [Res.bind_eq]
    cases ho : outCoercion f expected with
    | panic =>
      unfold outCoercion at ho
      split at ho
      · cases hc : coercionCost f.out ‹_› <;> rw [hc] at ho <;> cases ho
      · cases ho
    | err x =>
      refine ⟨x, ?_, by rw [Res.bind_err]⟩
      rintro rfl
      unfold outCoercion at ho
      split at ho
      · cases hc : coercionCost f.out ‹_› <;> rw [hc] at ho <;> cases ho
      · cases ho
    | ok c =>
      refine ⟨.signature f.signature (showCall name args raw), by simp, ?_⟩
      have hr : f.rawArg raw = none := by
        unfold Func.rawArg
        split
        · rename_i ha; have := h1 ha; cases raw <;> simp_all
        · rfl
      rw [Res.bind_ok]
      simp only [hr]
      cases hv : f.isVariadic with
      | true => simp [h2 hv]
      | false => simp [h3 (by simp [hv])]
  have hc : candidates (fun f => resolveCallForFunc name f args raw expected sc
      (fun ps c sc => Expr.resolveArgs env args ps c sc)) fs = .ok [] := by
    clear h hf
    induction fs with
    | nil => rfl
    | cons f fs ih =>
      obtain ⟨x, hx, ha⟩ := hatt f (by simp)
      rw [candidates]
      simp only [ha]
      cases x <;> first | exact absurd rfl hx | exact ih (fun g hg => hatt g (by simp [hg]))
  rw [Expr.resolve, refusal_eq hf id, hf]
  simp only [hc, Res.bind_eq, Res.bind_ok]
  rfl

/-- `upper(a, b)` is rejected. -/
example (a b : Expr) (sc : Scope) : Expr.resolve (Env.builtin 0) (.call 0 (S "upper") [a, b] none) none sc =
    .err (.signature c! "upper(str) -> str | upper(ident) -> ident"
      ([.str c! "upper", .str c! "("] ++ (exprText a ++ .str c! ", " :: exprText b) ++ [.str c! ")"])) := by
  have h := C27_wrong_count_rejected (env := Env.builtin 0) (name := S "upper") builtin_upper (args := [a, b]) (raw := none) (by
    intro f hf
    simp only [strFuncs, List.mem_cons, List.not_mem_nil, or_false] at hf
    rcases hf with rfl | rfl <;> simp [CountFits]) 0 none sc
  rw [h, refusal]
  simp only [exprText, exprTexts, List.intercalate, List.intersperse, List.flatten_cons, List.flatten_nil, List.append_nil,
    List.cons_append, List.nil_append]
  rfl

/-- `concat()` is rejected. -/
example (sc : Scope) : Expr.resolve (Env.builtin 0) (.call 0 (S "concat") [] none) none sc =
    .err (.signature (c! "concat(ident...) -> ident | concat(ident, tokens...) -> ident | concat(str...) -> str | " ++
      c! "concat(int...) -> int | concat(tokens...) -> tokens") [.str c! "concat", .str c! "(", .str c! ")"]) := by
  have h := C27_wrong_count_rejected (env := Env.builtin 0) (name := S "concat") builtin_concat (args := []) (raw := none) (by
    intro f hf
    simp only [List.mem_cons, List.not_mem_nil, or_false] at hf
    rcases hf with rfl | rfl | rfl | rfl | rfl <;>
      simp [CountFits, concatIdents, concatIdentTokens, concatLitStrs, concatLitInts, concatTokens]) 0 none sc
  exact h

/-! ## C29 -/

/-- **C29** is false: thirty nested calls of `concat` around an expression overflow the cost. -/
theorem C29_false (ts : Toks) (seed : Nat) : ∃ e : Expr, nesting e = 30 ∧ nodes e = 31 ∧ (ids e).Nodup ∧
    Expr.resolve (Env.builtin seed) e none Scope.empty = .panic := by
  have h : ∀ d, nesting (nest ts d) = d ∧ nodes (nest ts d) = d + 1 := by
    intro d
    induction d with
    | zero => exact ⟨rfl, rfl⟩
    | succ d ih => simp [nest, nesting, nestingL, nodes, nodesL, ih]
  refine ⟨nest ts 30, (h 30).1, (h 30).2, ?_, resolve_nest_panic seed ts none (Or.inl rfl)⟩
  rw [ids_nest, (List.reverse_perm _).nodup_iff]
  exact List.nodup_range

/-- **C29**, as far as it holds: resolving definitions overflows only if one of them is large. Missing: definitions with
`5 * nodes * 2 ^ nesting ≥ 2 ^ 32`, for some of which it does overflow. -/
theorem C29_no_overflow_partial {env : Env} {items : List (Alias × Expr)} (hN : (specIds items).Nodup)
    (h : ∀ i ∈ items, 5 * nodes i.2 * 2 ^ nesting i.2 < 2 ^ 32) : resolveSpec env items Scope.empty ≠ .panic := by
  intro hp
  rcases resolveSpec_spec items (env := env) agrees_empty (clean_empty _) hN with ⟨-, i, hi, hb⟩ | h1
  · have := costBound_le i.2
    have := h i hi
    omega
  · split at h1
    · obtain ⟨_, h2, -⟩ := h1; rw [hp] at h2; cases h2
    · rw [hp] at h1; cases h1.1

/-- **C29**, exactly: resolving definitions panics if and only if a sum of costs does not fit into 32 bits, which depends
only on the definitions. -/
theorem C29_exact {env : Env} {items : List (Alias × Expr)} (hN : (specIds items).Nodup) :
    resolveSpec env items Scope.empty = .panic ↔ overflowsSpec env.funcs (named items) (fun _ => none) = true := by
  rcases resolveSpec_exact items (env := env) agrees_empty (clean_empty _) hN with h | ⟨h, h1⟩
  · simp [h.1, h.2]
  · rw [h]
    simp only [Bool.false_eq_true, iff_false]
    intro hp
    split at h1
    · obtain ⟨_, h2, -⟩ := h1; rw [hp] at h2; cases h2
    · rw [hp] at h1; cases h1.1

example : ∀ i ∈ [((0, S "x"), c22Call)], 5 * nodes i.2 * 2 ^ nesting i.2 < 2 ^ 32 := by decide

end Verif.Props
