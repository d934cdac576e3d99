import Verif.Proofs.CrossProduct
/-! # Properties C37–C40: enumeration of loop combinations -/

namespace Verif.Props
open Verif Spec CrossProduct

variable {α : Type}

/-- **C37**: iterating the cross product of any lists yields, without panicking, exactly the combinations of the
loop nest, in the order of nested `for` loops (first loop slowest), and then stops. -/
theorem C37_cross_product_enumerates (ss : List (List α)) :
    Yields (fromVecs ss) (combinations ss) := by
  have := yields_todo _ (fromVecs ss) (inv_fromVecs ss) rfl
  rwa [todo_fromVecs] at this

/-- **C37** (nothing missing, nothing else): the combinations are exactly the ways to pick one element per list,
and none is repeated when the lists have no repetitions. -/
theorem C37_combinations_complete (ss : List (List α)) (hne : ss ≠ []) (xs : List α) :
    (xs ∈ combinations ss ↔ IsPick xs ss) ∧ ((∀ s ∈ ss, s.Nodup) → (combinations ss).Nodup) := by
  simp only [combinations, hne, if_false]
  exact ⟨mem_picks, picks_nodup⟩

example : combinations [[1, 2], [3], [4, 5]] = [[1, 3, 4], [1, 3, 5], [2, 3, 4], [2, 3, 5]] := by decide

/-- The sequence is unique: whatever `next` yields is the specified list. -/
theorem yields_unique {it : CrossProduct α} {xs ys : List (List α)} (hx : Yields it xs) (hy : Yields it ys) :
    xs = ys := by
  induction hx generalizing ys with
  | done h =>
    cases hy with
    | done => rfl
    | step h' => rw [h] at h'; cases h'
  | step h _ ih =>
    cases hy with
    | done h' => rw [h] at h'; cases h'
    | step h' hy' => rw [h] at h'; cases h'; rw [ih hy']

/-- **C38** (iterator level): the number of combinations is the product of the list lengths; an empty list gives
none. -/
theorem C38_combinations_count (ss : List (List α)) (hne : ss ≠ []) :
    (combinations ss).length = product (ss.map List.length) ∧
    ([] ∈ ss → combinations ss = []) := by
  simp only [combinations, hne, if_false]
  refine ⟨picks_length ss, fun h => picks_of_empty ?_⟩
  exact List.any_eq_true.2 ⟨[], h, rfl⟩

example : (combinations [[1, 2, 3], [4, 5]]).length = 6 ∧ combinations [[1, 2], ([] : List Nat)] = [] := by decide

/-- **C39**: after any number `n` of calls of `next`, `size_hint` computes without overflow and is exactly the number
of combinations still to come, whenever the total fits a `usize`. -/
theorem C39_size_hint_exact (ss : List (List α)) (hne : ss ≠ [])
    (hfit : product (ss.map List.length) < 2 ^ 64) (n : Nat) (it : CrossProduct α)
    (ha : After (fromVecs ss) n it) :
    it.sizeHint = .ok ((combinations ss).length - n, some ((combinations ss).length - n)) ∧
    Yields it ((combinations ss).drop n) := by
  obtain ⟨h1, h2, h3⟩ := after_spec ha (inv_fromVecs ss)
  rw [todo_fromVecs] at h3
  have hs : it.sources = ss := h2
  have hfit : product (ss.map List.length) < usizeSize := hfit
  refine ⟨?_, ?_⟩
  · rw [sizeHint_eq it h1 (by rw [hs]; exact hne), hs, if_pos (Or.inr hfit), h3]
    simp
  · rw [← h3]; exact yields_todo _ it h1 rfl

/-- C39 when the total does not fit: as long as something is left the hint is `(0, None)`. -/
theorem C39_size_hint_overflow (ss : List (List α)) (hne : ss ≠ [])
    (hbig : ¬ product (ss.map List.length) < 2 ^ 64) (n : Nat) (it : CrossProduct α)
    (ha : After (fromVecs ss) n it) : it.sizeHint = .ok (0, none) ∨ it.sizeHint = .ok (0, some 0) := by
  obtain ⟨h1, h2, -⟩ := after_spec ha (inv_fromVecs ss)
  have hs : it.sources = ss := h2
  rw [sizeHint_eq it h1 (by rw [hs]; exact hne), hs]
  by_cases he : it.exhausted
  · right; simp [he, todo]
  · left
    rw [if_neg]
    rintro (h | h)
    · exact he h
    · exact hbig h

/-- **C39**: `total_combinations` is the number of combinations if it fits a `usize` and `None` otherwise (also for no
sources at all; sources are non-empty lists here, an empty one after an overflow gives `None` instead of `Some(0)`). -/
theorem C39_total_combinations (ss : List (List α)) (hpos : ∀ s ∈ ss, s ≠ []) :
    (fromVecs ss).totalCombinations =
      if (combinations ss).length < 2 ^ 64 then some (combinations ss).length else none := by
  by_cases hne : ss = []
  · subst hne; rfl
  · have ht : (fromVecs ss).totalCombinations = if product (ss.map List.length) < usizeSize
        then some (product (ss.map List.length)) else none := by
      unfold totalCombinations
      have : (fromVecs ss).sources = ss := rfl
      rw [this, if_neg (by simp [hne]), total_eq _ (by simpa [List.length_pos_iff] using hpos) 1 (by omega) (by decide)]
      simp
    rw [ht]
    simp only [combinations, hne, if_false, picks_length]
    rfl

/-- A state after `n` calls always exists (`next` never panics). -/
theorem after_exists (ss : List (List α)) (n : Nat) : ∃ it, After (fromVecs ss) n it := by
  have : ∀ (it : CrossProduct α), Inv it → ∃ it', After it n it' := by
    induction n with
    | zero => intro it _; exact ⟨it, .zero⟩
    | succ n ih =>
      intro it h
      obtain ⟨r, it', hn, hi, -⟩ := next_spec it h
      obtain ⟨it'', h''⟩ := ih it' hi
      exact ⟨it'', .succ hn h''⟩
  exact this _ (inv_fromVecs ss)

example : ∃ it, After (fromVecs [[1, 2, 3], [4, 5]]) 4 it ∧ it.sizeHint = .ok (2, some 2) := by
  obtain ⟨it, h⟩ := after_exists [[1, 2, 3], [4, 5]] 4
  exact ⟨it, h, (C39_size_hint_exact _ (by simp) (by decide) 4 it h).1⟩

/-- **C40** (partial: at least one source; see `C40_reset_false`). After any number of `next` calls, `reset` makes the
iterator yield all combinations again. -/
theorem C40_reset_partial (ss : List (List α)) (hne : ss ≠ []) (n : Nat) (it : CrossProduct α)
    (ha : After (fromVecs ss) n it) : Yields it.reset (combinations ss) := by
  obtain ⟨h1, h2, -⟩ := after_spec ha (inv_fromVecs ss)
  have hs : it.sources = ss := h2
  have hr : it.reset = fromVecs ss := by
    cases it with
    | mk so ix ex =>
      simp only at hs
      subst hs
      have h1l : ix.length = so.length := h1.1
      simp [reset, fromVecs, hasEmptySource, h1l, hne]
  rw [hr]
  exact C37_cross_product_enumerates ss

/-- **C40 is false for zero sources**: the fresh iterator yields nothing, after `reset` it yields one empty
combination. -/
theorem C40_reset_false :
    Yields (fromVecs ([] : List (List α))) [] ∧ Yields (fromVecs ([] : List (List α))).reset [[]] := by
  exact ⟨.done rfl, .step rfl (.done rfl)⟩

example : ∃ it, After (fromVecs [[1, 2], [3]]) 2 it ∧ Yields it.reset [[1, 3], [2, 3]] := by
  obtain ⟨it, h⟩ := after_exists [[1, 2], [3]] 2
  exact ⟨it, h, C40_reset_partial _ (by simp) 2 it h⟩

end Verif.Props
