import Verif.Proofs.Copies
import Verif.Props.Steps
import Verif.Spec.Run
/-! # C111: what is copied to try the overloads of a function -/

namespace Verif.Props
open Verif Verif.Spec

/-- Listing the copies changes no outcome. -/
theorem C111_same_outcome (seed : Nat) (items : List (Alias × Expr)) (sc : Scope) :
    (resolveSpecT (Env.builtin seed) items sc).1 = resolveSpec (Env.builtin seed) items sc :=
  (keeps_resolveSpec (overloads_le seed) items sc).1.trans (resolveSpecC_fst _ _ _)

/-- At most seven copies are made for each visit of a node. -/
theorem C111_visits (seed : Nat) (items : List (Alias × Expr)) (sc : Scope) :
    (resolveSpecT (Env.builtin seed) items sc).2.length ≤ 7 * (resolveSpecC (Env.builtin seed) items sc).2 :=
  (keeps_resolveSpec (overloads_le seed) items sc).2

/-- So the number of copies is bounded as that of the visits (`C77_worst`). -/
theorem C111_worst (seed : Nat) (items : List (Alias × Expr)) (sc : Scope) :
    4 * (resolveSpecT (Env.builtin seed) items sc).2.length + 21 * items.length ≤ 49 * 5 ^ deepest items * valuesIn items := by
  have h1 := C111_visits seed items sc
  have h2 := C77_worst seed items sc
  have h3 : 49 * 5 ^ deepest items * valuesIn items = 7 * (7 * 5 ^ deepest items * valuesIn items) := by
    simp only [← Nat.mul_assoc]
  omega

/-- A copy made for a definition holds what was found out about this definition and those before it, and their names: nothing of what comes after, whatever
the functions are. -/
theorem C111_held {env : Env} {items : List (Alias × Expr)} {s : Scope} (hs : s ∈ (resolveSpecT env items Scope.empty).2) :
    ∃ pre i post, items = pre ++ i :: post ∧ HoldsOnly (idsL (pre.map (·.2)) ++ ids i.2) (pre.map (·.1.2)) s :=
  copies_resolveSpec items [] Scope.empty holdsOnly_empty s hs

theorem length_le_of_subset : ∀ {l N : List Nat}, l.Nodup → l ⊆ N → l.length ≤ N.length
  | [], _, _, _ => Nat.zero_le _
  | x :: xs, N, hn, hs => by
    obtain ⟨h1, h2⟩ := List.nodup_cons.1 hn
    have hx : x ∈ N := hs List.mem_cons_self
    have h3 := length_le_of_subset (N := N.erase x) h2 fun y hy =>
      (List.mem_erase_of_ne (fun h : y = x => h1 (h ▸ hy))).2 (hs (List.mem_cons_of_mem _ hy))
    rw [List.length_erase_of_mem hx] at h3
    have := List.length_pos_of_mem hx
    simp only [List.length_cons]
    omega

/-- A copy has no more entries than the definitions have nodes. -/
theorem C111_entries {env : Env} {items : List (Alias × Expr)} {s : Scope} (hs : s ∈ (resolveSpecT env items Scope.empty).2) {l : List Nat}
    (hn : l.Nodup) (hl : ∀ i ∈ l, (s.md.vals i).isSome ∨ (s.md.calls i).isSome) : l.length ≤ nodes items := by
  obtain ⟨pre, i, post, rfl, hw⟩ := C111_held hs
  have h1 := length_le_of_subset hn fun j hj => (hl j hj).elim (hw.vals j) (hw.calls j)
  refine Nat.le_trans h1 ?_
  rw [List.length_append, ← sum_ids, List.map_map]
  simp only [nodes, List.map_append, List.map_cons, List.sum_append, List.sum_cons, Function.comp_def]
  omega

/-- The calls in the definitions. -/
def callsIn (items : List (Alias × Expr)) : List Str := items.flatMap fun i => calls i.2

theorem callsL_flat : ∀ {es : List Expr}, nestingL es = 0 → callsL es = []
  | [], _ => rfl
  | .call .. :: _, h => by simp [nestingL, nesting] at h
  | .value _ _ :: es, h => by
    have : nestingL es = 0 := by simp [nestingL] at h; omega
    simp [callsL, calls, callsL_flat this]

/-- Without calls within calls, exactly one copy is made for each call and each overload of the function, if the definitions are accepted. -/
theorem C111_flat_exact {env : Env} : ∀ {items : List (Alias × Expr)} {sc sc' : Scope} {l : List Scope}, deepest items ≤ 1 →
    resolveSpecT env items sc = (.ok sc', l) → l.length = ((callsIn items).map (overloads env)).sum
  | [], _, _, _, _, h => by cases h; rfl
  | i :: items, sc, sc', l, hd, h => by
    have hd1 : nesting i.2 ≤ 1 ∧ deepest items ≤ 1 := by
      simp only [deepest, List.map_cons, List.foldr_cons] at hd ⊢
      omega
    simp only [resolveSpecT, resolveItemT, TRes.bind_eq] at h
    obtain ⟨sc1, l1, l2, h1, h2, rfl⟩ := bind_ok h
    obtain ⟨sc2, l3, l4, h3, h4, rfl⟩ := bind_ok h1
    have h5 : l4 = [] := (congrArg Prod.snd h4).symm
    have ih := C111_flat_exact hd1.2 h2
    have h6 : l3.length = ((calls i.2).map (overloads env)).sum := by
      obtain ⟨a, e⟩ := i
      cases e with
      | value id k =>
        rw [Expr.resolveT] at h3
        have : l3 = [] := (congrArg Prod.snd h3).symm
        rw [this]; rfl
      | call id name args raw =>
        have hn : nestingL args = 0 := by
          have := hd1.1
          simp only [nesting] at this
          omega
        rw [resolveT_flat hn h3]
        simp [calls, callsL_flat hn]
    simp only [h5, List.append_nil, List.length_append, ih, h6, callsIn, List.flatMap_cons, List.map_append, List.sum_append]

/-- Examples: for `a = upper(x), b = concat(a, y)` two copies are made for `upper` and five for `concat`; `normalize2(normalize2(foo))` takes 56, seven for the
outer call and seven for the inner one for each overload of the outer one. -/
example : (resolveSpecT (Env.builtin 0) flatDefs Scope.empty).2.length = 7 ∧ deepest flatDefs = 1 ∧
    (resolveSpecT (Env.builtin 0) flatDefs Scope.empty).1.isOk = true ∧
    (callsIn flatDefs).map (overloads (Env.builtin 0)) = [2, 5] ∧
    (resolveSpecT (Env.builtin 0) (towerDef (S "foo") 2) Scope.empty).2.length = 56 := by decide +kernel

/-- The copies made for `concat` hold the entries of the definition before, the call with its argument, and its name. -/
example : ((resolveSpecT (Env.builtin 0) flatDefs Scope.empty).2.drop 2).all (fun s =>
    (s.md.vals 2).isSome && (s.md.calls 1).isSome && (s.aliases (S "a")).isSome && (s.md.vals 6).isNone) = true := by decide +kernel

end Verif.Props
