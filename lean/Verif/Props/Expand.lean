import Verif.Proofs.Expand
/-! # Properties C38, C41, C42: loops at the level of the expand phase -/

namespace Verif.Props
open Verif Spec Tup

variable {α β ε : Type}

/-- **C38** (expand level): with loops, a successful expansion has exactly one block rewrite per combination of loop
values; the number is the product of the list lengths, hence none if some list is empty. -/
theorem C38_one_copy_per_combination (ast : RawAst α ε β) (loops) (h : ast.loops = some loops) (hne : loops ≠ [])
    (out : List (BlockRewrite α ε β)) (hout : expand ast = .ok out) :
    out.length = product (loops.map (·.2.length)) := by
  rw [expand_loops_eq ast loops h] at hout
  rw [mapRes_length hout]
  have hne' : loops.map (·.2) ≠ [] := by simpa using hne
  simp only [combinations, hne', if_false]
  rw [CrossProduct.picks_length, List.map_map]
  rfl

/-- `Binds loops vals items`: with these values the loops bind `items`, outer loop first. -/
inductive Binds : List (LoopAlias α × List (LoopSourceValue ε)) → List (LoopSourceValue ε) → List (α × ε) → Prop
  | nil : Binds [] [] []
  | cons (l : LoopAlias α × List (LoopSourceValue ε)) (ls v vs items rest)
      (h : makeSpecItems l.1 v = .ok items) (hr : Binds ls vs rest) : Binds (l :: ls) (v :: vs) (items ++ rest)

theorem binds_of_loopSpecItems {loops : List (LoopAlias α × List (LoopSourceValue ε))} {vals : List (LoopSourceValue ε)}
    {items : List (α × ε)} (hl : vals.length = loops.length) (h : loopSpecItems loops vals = .ok items) :
    Binds loops vals items := by
  induction loops generalizing vals items with
  | nil =>
    match vals with
    | [] => simp [loopSpecItems] at h; subst h; exact .nil
    | _ :: _ => simp at hl
  | cons l ls ih =>
    match vals with
    | [] => simp at hl
    | v :: vs =>
      simp only [loopSpecItems, Res.bind_eq, Res.bind_eq_ok, Res.ok.injEq] at h
      obtain ⟨i, h1, r, h2, rfl⟩ := h
      exact .cons _ _ _ _ _ _ h1 (ih (by simpa using hl) h2)

theorem loopSpecItems_of_binds {loops : List (LoopAlias α × List (LoopSourceValue ε))} {vals : List (LoopSourceValue ε)}
    {items : List (α × ε)} (h : Binds loops vals items) : loopSpecItems loops vals = .ok items := by
  induction h with
  | nil => rfl
  | cons l ls v vs items rest h _ ih => simp [loopSpecItems, h, ih]

theorem picks_mem_length {γ : Type} (ss : List (List γ)) : ∀ xs ∈ picks ss, xs.length = ss.length := by
  induction ss with
  | nil => intro xs h; simp [picks] at h; subst h; rfl
  | cons s ss ih =>
    intro xs h
    simp only [picks, List.mem_flatMap, List.mem_map] at h
    obtain ⟨x, -, ys, hy, rfl⟩ := h
    simp [ih ys hy]

theorem combinations_mem_length {γ : Type} (ss : List (List γ)) : ∀ xs ∈ combinations ss, xs.length = ss.length := by
  intro xs h
  unfold combinations at h
  split at h
  · cases h
  · exact picks_mem_length ss xs h

theorem mapRes_getElem {γ δ : Type} {f : γ → Res δ} {xs : List γ} {ys : List δ} (h : mapRes f xs = .ok ys) (i : Nat) :
    (∀ x, xs[i]? = some x → ∃ y, f x = .ok y ∧ ys[i]? = some y) := by
  induction xs generalizing ys i with
  | nil => simp
  | cons x xs ih =>
    simp only [mapRes, Res.bind_eq_ok, Res.ok.injEq] at h
    obtain ⟨y, h1, ys', h2, rfl⟩ := h
    intro z hz
    cases i with
    | zero => simp at hz; subst hz; exact ⟨y, h1, rfl⟩
    | succ i => simpa using ih h2 i z (by simpa using hz)

theorem mapRes_ok {γ δ : Type} {f : γ → Res δ} {xs : List γ} (h : ∀ x ∈ xs, ∃ y, f x = .ok y) : ∃ ys, mapRes f xs = .ok ys := by
  induction xs with
  | nil => exact ⟨[], rfl⟩
  | cons x xs ih =>
    obtain ⟨y, hy⟩ := h x List.mem_cons_self
    obtain ⟨ys, hys⟩ := ih (fun z hz => h z (List.mem_cons_of_mem _ hz))
    exact ⟨y :: ys, by simp [mapRes, hy, hys]⟩

/-- **C38** (contents): the `i`-th copy is that of the `i`-th combination (first loop varying slowest); its definitions are
the bindings of the loops, outermost loop first, followed by the definitions as written, and it has the block as
written. -/
theorem C38_copy_contents (ast : RawAst α ε β) (loops) (h : ast.loops = some loops) (out : List (BlockRewrite α ε β))
    (hout : expand ast = .ok out) (i : Nat) (vals) (hv : (combinations (loops.map (·.2)))[i]? = some vals) :
    ∃ br items, out[i]? = some br ∧ Binds loops vals items ∧ br.block = ast.block ∧
      br.spec.items = items ++ (match ast.spec with | some s => s.items | none => []) := by
  rw [expand_loops_eq ast loops h] at hout
  obtain ⟨br, h1, h2⟩ := mapRes_getElem hout i vals hv
  have hlen := combinations_mem_length _ vals (List.mem_of_getElem? hv)
  unfold rewriteFor at h1
  cases hl : loopSpecItems loops vals with
  | ok items =>
    rw [hl] at h1
    refine ⟨br, items, h2, binds_of_loopSpecItems (by simpa using hlen) hl, ?_, ?_⟩ <;>
      · simp only [Res.map, Res.ok.injEq] at h1
        subst h1
        cases ast.spec <;> simp
  | err e => rw [hl] at h1; cases h1
  | panic => rw [hl] at h1; cases h1

/-- **C38** (success): the expansion succeeds as soon as every combination can be bound, in particular for plain loop
aliases and plain values. -/
theorem C38_succeeds_if_bindable (ast : RawAst α ε β) (loops) (h : ast.loops = some loops)
    (hb : ∀ vals ∈ combinations (loops.map (·.2)), ∃ items, Binds loops vals items) : ∃ out, expand ast = .ok out := by
  rw [expand_loops_eq ast loops h]
  refine mapRes_ok fun vals hv => ?_
  obtain ⟨items, hi⟩ := hb vals hv
  rw [rewriteFor, loopSpecItems_of_binds hi]
  exact ⟨_, rfl⟩

/-- **C38**: without loops the block is generated exactly once, with the definitions as written. -/
theorem C38_no_loops_once (ast : RawAst α ε β) (h : ast.loops = none) :
    ∃ br, expand ast = .ok [br] ∧ br.block = ast.block ∧
      br.spec.items = (match ast.spec with | some s => s.items | none => []) := by
  unfold expand
  rw [h]
  refine ⟨_, rfl, rfl, ?_⟩
  cases ast.spec <;> rfl

/-- **C38**: an empty list of values makes the expansion empty, whatever else is written. -/
theorem C38_empty_list_nothing (ast : RawAst α ε β) (loops) (h : ast.loops = some loops)
    (l : LoopAlias α × List (LoopSourceValue ε)) (hl : l ∈ loops) (he : l.2 = []) : expand ast = .ok [] := by
  rw [expand_loops_eq ast loops h]
  have hne : loops.map (·.2) ≠ [] := by
    intro h'; rw [List.map_eq_nil_iff] at h'; subst h'; cases hl
  have : combinations (loops.map (·.2)) = [] := by
    simp only [combinations, hne, if_false]
    apply CrossProduct.picks_of_empty
    exact List.any_eq_true.2 ⟨l.2, List.mem_map_of_mem hl, by simp [he]⟩
  rw [this]; rfl

example : ∃ out, expand (⟨some [(.simple 'a', [.value 1, .value 2]), (.simple 'b', [.value 3, .value 4, .value 5])],
    none, ()⟩ : RawAst Char Nat Unit) = .ok out ∧ out.length = 6 ∧
    out.map (·.spec.items) = [[('a', 1), ('b', 3)], [('a', 1), ('b', 4)], [('a', 1), ('b', 5)],
      [('a', 2), ('b', 3)], [('a', 2), ('b', 4)], [('a', 2), ('b', 5)]] := ⟨_, rfl, rfl, rfl⟩

/-- **C41**: when the value tuple has the shape of the alias tuple, destructuring succeeds, every alias is bound exactly
once, and an alias is bound to the value at its own position: the bindings are, as a multiset, the aliases zipped with
the values read in the same (left-to-right) order, and they are characterised by equality of positions. -/
theorem C41_destructuring_by_position (as : List (Tup α)) (es : List (Tup ε)) (h : shapes as = shapes es) :
    ∃ items, makeSpecItems (.tuple as) (.tuple es) = .ok items ∧
      items.Perm (List.zip (inOrderL as) (inOrderL es)) ∧
      (items.map Prod.fst).Perm (inOrderL as) ∧
      ∀ a e, (a, e) ∈ items ↔ ∃ p, valueAt p as = some a ∧ valueAt p es = some e := by
  obtain ⟨z, rfl, rfl⟩ := zipL_exists as es h
  refine ⟨leaves z, ?_, ?_, ?_, ?_⟩
  · simp [makeSpecItems, matchTuples_eq, kinds_map, leaves_map, zip_map_fst_snd]
  · rw [inOrderL_map, inOrderL_map, zip_map_fst_snd]; exact leaves_perm z
  · rw [inOrderL_map]; exact (leaves_perm z).map _
  · intro a e
    rw [(leaves_perm z).mem_iff]
    constructor
    · intro hm
      obtain ⟨p, hp⟩ := exists_valueAt z _ hm
      exact ⟨p, by simp [valueAt_map, hp], by simp [valueAt_map, hp]⟩
    · rintro ⟨p, h1, h2⟩
      rw [valueAt_map] at h1 h2
      cases hz : valueAt p z with
      | none => rw [hz] at h1; simp at h1
      | some x =>
        rw [hz] at h1 h2
        simp at h1 h2
        subst h1; subst h2
        exact mem_of_valueAt hz

/-- The simple case: a plain alias is bound to the plain value. -/
theorem C41_simple (a : α) (e : ε) : makeSpecItems (.simple a) (.value e) = .ok [(a, e)] := rfl

example : let as := [.val 'a', .tup [.val 'b', .tup [.val 'c']], .val 'd']
    let es := [.val 1, .tup [.val 2, .tup [.val 3]], .val 4]
    shapes as = shapes es ∧
    (makeSpecItems (.tuple as) (.tuple es)) = .ok [('a', 1), ('d', 4), ('b', 2), ('c', 3)] := by
  refine ⟨by simp [shapes, shape], rfl⟩

/-- **C42 is false in general**: `for ((a, b), (c)) in [((x), (y, z))]` is accepted although the shapes differ
(and binds `b` to the `y` of the other tuple). -/
theorem C42_mismatch_accepted_false :
    let as := [.tup [.val 'a', .val 'b'], .tup [.val 'c']]
    let es := [.tup [.val 'x'], .tup [.val 'y', .val 'z']]
    shapes as ≠ shapes es ∧
    makeSpecItems (.tuple as) (.tuple es) = .ok [('a', 'x'), ('b', 'y'), ('c', 'z')] := by
  refine ⟨by simp [shapes, shape], rfl⟩

/-- **C42** (partial): for a flat alias tuple, and for a flat value tuple, rejection is exact: the destructuring succeeds
if and only if the shapes agree, and otherwise it is a type error. What is missing is the case that both tuples are
nested, for which the property fails (`C42_mismatch_accepted_false`). -/
theorem C42_flat_mismatch_rejected_partial (as : List (Tup α)) (es : List (Tup ε)) (hf : IsFlat as ∨ IsFlat es) :
    (shapes as ≠ shapes es → makeSpecItems (.tuple as) (.tuple es) = .err (.typeError (tupleMismatch as es))) ∧
    (shapes as = shapes es → (makeSpecItems (.tuple as) (.tuple es)).isOk) := by
  have hk : kinds as = kinds es ↔ shapes as = shapes es := by
    rcases hf with hf | hf
    · exact kinds_flat_iff hf
    · exact ⟨fun h => ((kinds_flat_iff hf).1 h.symm).symm, fun h => ((kinds_flat_iff hf).2 h.symm).symm⟩
  constructor
  · intro h
    simp [makeSpecItems, matchTuples_eq, hk, h]
  · intro h
    simp [makeSpecItems, matchTuples_eq, hk, h, Res.isOk]

/-- **C42** (partial, all tuples): a tuple against a plain alias or the other way round is a type error, and so is a
different total number of values. An accepted tuple never leaves an alias unbound. -/
theorem C42_kind_or_count_mismatch_rejected_partial (a : α) (as : List (Tup α)) (e : ε) (es : List (Tup ε)) :
    makeSpecItems (.simple a) (.tuple es) = .err (.typeError .loopKind) ∧
    makeSpecItems (.tuple as) (.value e) = .err (.typeError .loopKind) ∧
    ((inOrderL as).length ≠ (inOrderL es).length →
      makeSpecItems (.tuple as) (.tuple es) = .err (.typeError (tupleMismatch as es))) ∧
    (∀ items, makeSpecItems (.tuple as) (.tuple es) = .ok items → (items.map Prod.fst).Perm (inOrderL as)) := by
  have hl : kinds as = kinds es → (leaves as).length = (leaves es).length := leaves_length_of_kinds
  refine ⟨rfl, rfl, ?_, ?_⟩
  · intro h
    simp only [makeSpecItems, matchTuples_eq]
    rw [if_neg]
    · rfl
    · intro hk
      have := hl hk
      rw [(leaves_perm as).length_eq, (leaves_perm es).length_eq] at this
      exact h this
  · intro items h
    simp only [makeSpecItems, matchTuples_eq] at h
    split at h
    · rename_i hk
      simp at h
      subst h
      rw [List.map_fst_zip (Nat.le_of_eq (hl hk))]
      exact leaves_perm as
    · simp at h

example : IsFlat [.val 'a', .val 'b'] ∧
    makeSpecItems (.tuple [.val 'a', .val 'b']) (.tuple [.val 1, .tup [.val 2]]) = .err (.typeError .tupleSize) ∧
    makeSpecItems (.tuple [.val 'a', .val 'b']) (.tuple [.val 1]) = .err (.typeError .tupleSize) := by
  refine ⟨?_, rfl, rfl⟩
  intro t ht
  simp at ht
  rcases ht with rfl | rfl
  · exact ⟨_, rfl⟩
  · exact ⟨_, rfl⟩

end Verif.Props
