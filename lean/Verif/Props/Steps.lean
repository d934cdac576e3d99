import Verif.Proofs.Steps
import Verif.Proofs.Worst
import Verif.Model.Demo
/-! # C77: how much is done for the definitions -/

namespace Verif.Props
open Verif Verif.Spec

/-- Number of nodes of the definitions: calls, values and the unparsed arguments of calls. -/
def nodes (items : List (Alias × Expr)) : Nat := (items.map fun i => (ids i.2).length).sum

/-- The longest chain of calls within calls. -/
def deepest (items : List (Alias × Expr)) : Nat := (items.map fun i => nesting i.2).foldr max 0

/-- Counting changes no outcome. -/
theorem C77_same_outcome (E : Ext) (env : Env) (order : List (Alias × VKind) → List (Alias × VKind)) (items : List (Alias × Expr)) :
    (resolveSpecC env items Scope.empty).1 = resolveSpec env items Scope.empty ∧
    (∀ m vars b, (evalSpecC E env m items vars b).1 = evalSpec E env m items vars b) ∧
    (makeSubstitutionsC E env order items).1 = makeSubstitutions E env order items :=
  ⟨resolveSpecC_fst _ _ _, fun _ _ _ => evalSpecC_fst _ _ _ _ _ _, makeSubstitutionsC_fst _ _ _ _⟩

/-- A built-in function has at most seven overloads. -/
theorem overloads_le (seed : Nat) : ∀ name fs, (Env.builtin seed).funcs name = some fs → fs.length ≤ 7 := by
  intro name fs h
  have hmem : ∀ f ∈ builtins, (builtins.filter fun g => g.name == f.name).length ≤ 7 := by decide +kernel
  replace h : builtinFuncs name = some fs := h
  unfold builtinFuncs at h
  cases heq : builtins.filter fun g => g.name == name with
  | nil => rw [heq] at h; cases h
  | cons f gs =>
    have hf : f ∈ builtins.filter fun g => g.name == name := by rw [heq]; exact List.mem_cons_self
    obtain ⟨h1, h2⟩ := List.mem_filter.1 hf
    have hn : f.name = name := by simpa using h2
    have h3 := hmem f h1
    rw [hn] at h3
    rw [heq] at h h3
    cases h
    exact h3

theorem sum_le_deepest (m : Nat) (hm : 0 < m) : ∀ (items : List (Alias × Expr)),
    (items.map fun i => (ids i.2).length * m ^ nesting i.2).sum ≤ nodes items * m ^ deepest items
  | [] => by simp
  | i :: items => by
    have ih := sum_le_deepest m hm items
    simp only [nodes, deepest, List.map_cons, List.sum_cons, List.foldr_cons, Nat.add_mul] at ih ⊢
    exact Nat.add_le_add (Nat.mul_le_mul_left _ (Nat.pow_le_pow_right hm (Nat.le_max_left _ _)))
      (Nat.le_trans ih (Nat.mul_le_mul_left _ (Nat.pow_le_pow_right hm (Nat.le_max_right _ _))))

theorem all2_records {m : Metadata} : ∀ {items : List (Alias × Expr)} {tes : List (Str × TExpr)},
    All2 (fun item te => item.1.2 = te.1 ∧ Records m item.2 te.2) items tes → ∀ i ∈ items, ∃ te, Records m i.2 te
  | _, _, .nil, _, h => by cases h
  | _, _, .cons h1 h2, i, h => by
    rcases List.mem_cons.1 h with rfl | h
    · exact ⟨_, h1.2⟩
    · exact all2_records h2 i h

/-- Evaluation enters no node more than once: it visits at most as many nodes as there are. -/
theorem C77_evaluation {E : Ext} {env : Env} {items : List (Alias × Expr)} {sc : Scope} (hN : (specIds items).Nodup)
    (hr : resolveSpec env items Scope.empty = .ok sc) : (evalSpecC E env sc.md items (fun _ => none) []).2 ≤ nodes items := by
  rcases resolveSpec_spec (env := env) items agrees_empty (clean_empty _) hN with ⟨h, -⟩ | h
  · rw [hr] at h; cases h
  · split at h
    · obtain ⟨sc', h1, -, h2⟩ := h
      rw [hr] at h1
      cases h1
      exact evalSpecC_le (all2_records h2)
    · rw [hr] at h; cases h.1

/-- Resolution may take seven times as long for each level of calls within calls, not more. -/
theorem C77_resolution_partial (seed : Nat) (items : List (Alias × Expr)) (sc : Scope) :
    (resolveSpecC (Env.builtin seed) items sc).2 ≤ nodes items * 7 ^ deepest items :=
  Nat.le_trans (resolveSpecC_le (by decide) (overloads_le seed) items sc) (sum_le_deepest 7 (by decide) items)

/-- The definitions of an iteration together. Without calls within calls (`deepest items ≤ 1`) this is at most eight visits for each node. -/
theorem C77_total_partial {E : Ext} {seed : Nat} {order : List (Alias × VKind) → List (Alias × VKind)} {items : List (Alias × Expr)}
    (hN : (specIds items).Nodup) : (makeSubstitutionsC E (Env.builtin seed) order items).2 ≤ nodes items * 7 ^ deepest items + nodes items := by
  simp only [makeSubstitutionsC, CRes.bind_eq]
  refine CRes.snd_bind_le (C77_resolution_partial seed items _) fun sc hsc => ?_
  rw [resolveSpecC_fst] at hsc
  refine Nat.le_trans (CRes.snd_bind_le (C77_evaluation hN hsc) (b := 0) fun _ _ => Nat.le_refl _) (Nat.le_refl _)

/-- The one definition `t = normalize2(normalize2(… (x)))`, with `d` calls. -/
def towerDef (x : Str) (d : Nat) : List (Alias × Expr) := [((2 * d + 1, S "t"), tower x d)]

theorem tower_visits (seed : Nat) (x : Str) (d : Nat) : nodes (towerDef x d) = 2 * d + 1 ∧
    ∃ sc n, resolveSpecC (Env.builtin seed) (towerDef x d) Scope.empty = (.ok sc, n) ∧ 4 * n + 3 = 7 * 5 ^ d := by
  constructor
  · simp [nodes, towerDef, ids_tower]
  · obtain ⟨sc, n, c, h1, h2, -⟩ := (towerAt seed (sc := Scope.empty) (x := x) rfl d).1 none (by simp)
    have ha : sc.aliases = Scope.empty.aliases := by
      have h := resolveC_fst (Env.builtin seed) (tower x d) none Scope.empty
      rw [h1] at h
      exact (resolve_recorded (P := fun _ => True) (fun _ _ _ _ _ _ _ => trivial) _ trivial h.symm).1
    have hs : sc.aliases (S "t") = none := by rw [ha]; rfl
    refine ⟨{ sc with aliases := fun n => if n = S "t" then some (tower x d).id else sc.aliases n }, n, ?_, h2⟩
    replace h1 : (tower x d).resolveC (Env.builtin seed) none Scope.empty = CRes.mk (.ok sc) n := h1
    simp only [towerDef, resolveSpecC, resolveItemC, CRes.bind_eq, h1, CRes.mk_ok_bind, Scope.tryAddName, hs]
    rfl

/-- What is written `normalize2(normalize2(… (x)))`, with `d` calls, has `2 * d + 1` nodes and is resolved, after `(7 * 5 ^ d - 3) / 4` visits: the argument of
each call is resolved anew for each of the seven overloads. (Two of them reject it at once.) -/
theorem C77_exponential (Y : Syn) (seed : Nat) {x : Str} (hx : x ∉ keywords) (d : Nat) :
    parseE Y isBuiltin id (towerToks x d) 0 = (.ok (tower x d, []), 2 * d + 1) ∧ nodes (towerDef x d) = 2 * d + 1 ∧
    ∃ sc n, resolveSpecC (Env.builtin seed) (towerDef x d) Scope.empty = (.ok sc, n) ∧ 4 * n + 3 = 7 * 5 ^ d := by
  refine ⟨?_, tower_visits seed x d⟩
  · have h := parse_tower Y (known := isBuiltin) (by decide +kernel) hx d (nestL (towerToks x d) + 1) ?_
    · have h1 := h.run
      unfold WpRun at h1
      unfold parseE
      split at h1
      · rename_i heq
        obtain ⟨rfl, rfl, rfl⟩ := h1
        exact heq
      · exact h1.elim
      · exact h1.elim
    · have : ∀ d, nestL (towerToks x d) = d := by
        intro d
        induction d with
        | zero => rfl
        | succ d ih => simp [towerToks, nestL, Tok.nest, ih]
      rw [this]
      exact Nat.lt_succ_self d

/-- Number of values in the definitions, at least one for each call. -/
def valuesIn (items : List (Alias × Expr)) : Nat := (items.map fun i => tips i.2).sum

/-- The worst case: with calls nested to the depth `d`, a definition is resolved with at most `(7 * 5 ^ d - 3) / 4` visits for each value that stands in it; more
exactly, with `v` values at most `(7 * 5 ^ d * v - 3) / 4`. The towers of `C77_exponential` take just this. -/
theorem C77_worst (seed : Nat) (items : List (Alias × Expr)) (sc : Scope) :
    4 * (resolveSpecC (Env.builtin seed) items sc).2 + 3 * items.length ≤ 7 * 5 ^ deepest items * valuesIn items := by
  have h := resolveSpecC_worst seed items sc
  refine Nat.le_trans (Nat.add_le_add_right h _) ?_
  clear h
  have pos : ∀ e : Expr, 0 < tips e := fun e => by cases e <;> rw [tips] <;> omega
  induction items with
  | nil => simp [valuesIn]
  | cons i items ih =>
    have h1 : 7 * 5 ^ nesting i.2 * tips i.2 ≤ 7 * 5 ^ deepest (i :: items) * tips i.2 :=
      Nat.mul_le_mul_right _ (Nat.mul_le_mul_left _ (Nat.pow_le_pow_right (by decide) (by simp only [deepest, List.map_cons, List.foldr_cons]; omega)))
    have h2 : 7 * 5 ^ deepest items * valuesIn items ≤ 7 * 5 ^ deepest (i :: items) * valuesIn items :=
      Nat.mul_le_mul_right _ (Nat.mul_le_mul_left _ (Nat.pow_le_pow_right (by decide) (by simp only [deepest, List.map_cons, List.foldr_cons]; omega)))
    have h3 : 3 ≤ 7 * 5 ^ nesting i.2 * tips i.2 := by
      have : 0 < 5 ^ nesting i.2 * tips i.2 := Nat.mul_pos (Nat.pow_pos (by decide)) (pos _)
      rw [Nat.mul_assoc]; omega
    have h4 : valuesIn (i :: items) = tips i.2 + valuesIn items := by simp [valuesIn]
    rw [h4, Nat.mul_add]
    simp only [List.map_cons, List.sum_cons, List.length_cons]
    omega

/-- The work is not bounded by any polynomial in the number of nodes. -/
theorem C77_false (E : Ext) (seed : Nat) (order : List (Alias × VKind) → List (Alias × VKind)) (K p : Nat) :
    ∃ items : List (Alias × Expr), (specIds items).Nodup ∧ K * nodes items ^ p < (makeSubstitutionsC E (Env.builtin seed) order items).2 := by
  have hsq : ∀ m, (m + 4) * (m + 4) ≤ 2 ^ (m + 4) := by
    intro m
    induction m with
    | zero => decide
    | succ m ih =>
      have h1 : (m + 1 + 4) * (m + 1 + 4) ≤ 2 * ((m + 4) * (m + 4)) := by grind
      have h2 : 2 ^ (m + 1 + 4) = 2 * 2 ^ (m + 4) := by rw [show m + 1 + 4 = (m + 4) + 1 by omega, Nat.pow_succ]; omega
      omega
  obtain ⟨m, hm⟩ : ∃ m, m = K + 3 * p + 4 := ⟨_, rfl⟩
  have hd : K + (m + 2) * p < 2 ^ m := by
    have h1 := hsq (K + 3 * p)
    rw [← hm] at h1
    have h2 : m * m = m * p + m * (K + 2 * p + 4) := by rw [← Nat.mul_add]; congr 1; omega
    have h3 : K + 2 * p + 4 ≤ m * (K + 2 * p + 4) := Nat.le_mul_of_pos_left _ (by omega)
    have h4 : (m + 2) * p = m * p + 2 * p := Nat.add_mul _ _ _
    omega
  obtain ⟨hn, sc, n, h1, h2⟩ := tower_visits seed (S "x") (2 ^ m)
  refine ⟨towerDef (S "x") (2 ^ m), ?_, ?_⟩
  · simp only [specIds, towerDef, List.map_cons, List.map_nil, idsL, List.append_nil, ids_tower]
    exact (List.reverse_perm _).nodup_iff.2 List.nodup_range
  · have h3 : n ≤ (makeSubstitutionsC E (Env.builtin seed) order (towerDef (S "x") (2 ^ m))).2 := by
      simp only [makeSubstitutionsC, CRes.bind_eq, h1, CRes.bind]
      exact Nat.le_add_right _ _
    refine Nat.lt_of_lt_of_le ?_ h3
    have h4 : 2 ^ 2 ^ m ≤ n := by
      have : 2 ^ 2 ^ m ≤ 5 ^ 2 ^ m := Nat.pow_le_pow_left (by decide) _
      have : 0 < 5 ^ 2 ^ m := Nat.pow_pos (by decide)
      omega
    refine Nat.lt_of_lt_of_le ?_ h4
    have h5 : nodes (towerDef (S "x") (2 ^ m)) ≤ 2 ^ (m + 2) := by
      rw [hn, Nat.pow_add]
      have : 0 < 2 ^ m := Nat.pow_pos (by decide)
      omega
    calc K * nodes (towerDef (S "x") (2 ^ m)) ^ p ≤ 2 ^ K * (2 ^ (m + 2)) ^ p :=
          Nat.mul_le_mul (Nat.le_of_lt Nat.lt_two_pow_self) (Nat.pow_le_pow_left h5 p)
      _ = 2 ^ (K + (m + 2) * p) := by rw [← Nat.pow_mul, ← Nat.pow_add]
      _ < 2 ^ 2 ^ m := Nat.pow_lt_pow_right (by decide) hd

/-- Examples: `normalize2(normalize2(foo))` is resolved after 43 visits, `normalize2(normalize2(normalize2(foo)))` after 218; evaluation takes 3 and 4. -/
example : (resolveSpecC (Env.builtin 0) (towerDef (S "foo") 2) Scope.empty).2 = 43 ∧
    (resolveSpecC (Env.builtin 0) (towerDef (S "foo") 3) Scope.empty).2 = 218 ∧
    (makeSubstitutionsC Ext.demo (Env.builtin 0) (fun l => l) (towerDef (S "foo") 2)).2 = 46 := by decide +kernel

/-- The bound of `C77_worst` is attained, for every depth: for 3 it is `7 * 5 ^ 3`. -/
example (seed : Nat) (x : Str) (d : Nat) : deepest (towerDef x d) = d ∧ valuesIn (towerDef x d) = 1 ∧
    4 * (resolveSpecC (Env.builtin seed) (towerDef x d) Scope.empty).2 + 3 * 1 = 7 * 5 ^ d := by
  obtain ⟨-, sc, n, h1, h2⟩ := tower_visits seed x d
  have ht : ∀ d, tips (tower x d) = 1 := fun d => by
    induction d with
    | zero => rfl
    | succ d ih => simp [tower, tips, tipsL, ih]
  exact ⟨by simp [deepest, towerDef, nesting_tower], by simp [valuesIn, towerDef, ht], by rw [h1]; exact h2⟩

/-- Two definitions without calls within calls: `a = upper(x), b = concat(a, y)`: two calls with their unparsed arguments, and three values. -/
def flatDefs : List (Alias × Expr) :=
  [((0, S "a"), .call 1 (S "upper") [.value 2 (.ident (S "x"))] (some (3, []))),
   ((4, S "b"), .call 5 (S "concat") [.value 6 (.ident (S "a")), .value 7 (.ident (S "y"))] (some (8, [])))]

example : (specIds flatDefs).Nodup ∧ deepest flatDefs = 1 ∧ nodes flatDefs = 7 ∧
    (makeSubstitutionsC Ext.demo (Env.builtin 0) (fun l => l) flatDefs).1.isOk = true := by decide +kernel

end Verif.Props
