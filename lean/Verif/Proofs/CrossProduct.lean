import Verif.Spec.Loops
/-! Helper lemmas about the cross product iterator. -/

namespace Verif
open Spec
namespace CrossProduct
variable {α : Type}

/-- Structural version of the odometer step. -/
def adv : List Nat → List (List α) → List Nat × Bool
  | i :: is, s :: ss =>
    let r := adv is ss
    if r.2 then (i :: r.1, true)
    else if i + 1 < s.length then ((i + 1) :: r.1, true)
    else (0 :: r.1, false)
  | is, _ => (is, false)

/-- Valid odometer states: every index within its source. -/
inductive Valid : List Nat → List (List α) → Prop
  | nil : Valid [] []
  | cons {i is s ss} : i < s.length → Valid is ss → Valid (i :: is) (s :: ss)

theorem Valid.length {is : List Nat} {ss : List (List α)} (h : Valid is ss) : is.length = ss.length := by
  induction h with
  | nil => rfl
  | cons _ _ ih => simp [ih]

theorem adv_append (is : List Nat) (ss : List (List α)) (h : is.length = ss.length) (j : Nat) (t : List α) :
    adv (is ++ [j]) (ss ++ [t]) =
      if j + 1 < t.length then (is ++ [j + 1], true)
      else ((adv is ss).1 ++ [0], (adv is ss).2) := by
  induction is generalizing ss with
  | nil =>
    cases ss with
    | nil => by_cases hj : j + 1 < t.length <;> simp [adv, hj]
    | cons => simp at h
  | cons i is ih =>
    cases ss with
    | nil => simp at h
    | cons s ss =>
      have := ih ss (by simpa using h)
      simp only [List.cons_append, adv, this]
      by_cases hj : j + 1 < t.length
      · simp [hj]
      · simp only [hj, if_false]
        by_cases h2 : (adv is ss).2
        · simp [h2]
        · by_cases h3 : i + 1 < s.length <;> simp [h2, h3]

theorem snoc_cases {β : Type} (l : List β) : l = [] ∨ ∃ i b, l = i ++ [b] := by
  rcases List.eq_nil_or_concat l with h | ⟨i, b, h⟩
  · exact Or.inl h
  · exact Or.inr ⟨i, b, by simpa using h⟩

theorem advLoop_eq (is : List Nat) (ss : List (List α)) (h : is.length = ss.length) :
    ∀ (js : List Nat) (ts : List (List α)),
    advLoop (ss ++ ts) is.length (is ++ js) = ((adv is ss).1 ++ js, (adv is ss).2) := by
  generalize hn : is.length = n
  induction n generalizing is ss with
  | zero =>
    intro js ts
    have : is = [] := List.length_eq_zero_iff.1 hn
    subst this
    simp [advLoop, adv]
  | succ n ih =>
    intro js ts
    rcases snoc_cases is with rfl | ⟨is, i, rfl⟩
    · simp at hn
    rcases snoc_cases ss with rfl | ⟨ss, s, rfl⟩
    · simp at h
    have hl : is.length = ss.length := by simpa using h
    have hn' : is.length = n := by simpa using hn
    rw [adv_append is ss hl]
    have e1 : (is ++ [i] ++ js).getD n 0 = i := by
      subst hn'; simp
    have e2 : (ss ++ [s] ++ ts).getD n [] = s := by
      have : ss.length = n := by omega
      subst this; simp
    have e3 : ∀ v, (is ++ [i] ++ js).set n v = is ++ (v :: js) := by
      intro v; subst hn'; simp
    simp only [advLoop, e1, e2, e3]
    by_cases hj : i + 1 < s.length
    · simp [hj]
    · simp only [hj, if_false]
      have := ih is ss hl hn' (0 :: js) (s :: ts)
      simp only [List.append_assoc, List.cons_append, List.nil_append] at this ⊢
      rw [this]

theorem advance_eq (cp : CrossProduct α) (h : cp.indices.length = cp.sources.length) :
    cp.advance = ({ cp with indices := (adv cp.indices cp.sources).1 }, (adv cp.indices cp.sources).2) := by
  unfold advance
  have := advLoop_eq cp.indices cp.sources h [] []
  simp only [List.append_nil] at this
  rw [this]
  cases hi : cp.indices with
  | nil => simp [adv, ← hi]
  | cons => simp

/-- Combinations still to come from an odometer state, the current one included. -/
def remaining : List Nat → List (List α) → List (List α)
  | i :: is, s :: ss =>
    match s[i]? with
    | some x => (remaining is ss).map (x :: ·) ++ (s.drop (i + 1)).flatMap fun x => (picks ss).map (x :: ·)
    | none => []
  | _, _ => [[]]

theorem adv_valid {is : List Nat} {ss : List (List α)} (h : Valid is ss) : Valid (adv is ss).1 ss := by
  induction h with
  | nil => exact .nil
  | @cons i is s ss hi _ ih =>
    simp only [adv]
    split
    · exact .cons hi ih
    · split
      · rename_i h; exact .cons h ih
      · exact .cons (by omega) ih

theorem adv_false_zero {is : List Nat} {ss : List (List α)} (h : Valid is ss) (h2 : (adv is ss).2 = false) :
    (adv is ss).1 = List.replicate ss.length 0 := by
  induction h with
  | nil => rfl
  | @cons i is s ss hi _ ih =>
    simp only [adv] at h2 ⊢
    split at h2
    · simp at h2
    · rename_i h3
      split at h2
      · simp at h2
      · rename_i h4
        rw [if_neg h3, if_neg h4]
        simp [List.replicate_succ, ih (by simpa using h3)]

theorem remaining_zero (ss : List (List α)) (h : ∀ s ∈ ss, s ≠ []) :
    remaining (List.replicate ss.length 0) ss = picks ss := by
  induction ss with
  | nil => rfl
  | cons s ss ih =>
    have := ih (fun t ht => h t (List.mem_cons_of_mem _ ht))
    cases s with
    | nil => exact absurd rfl (h [] (by simp))
    | cons x xs => simp [List.replicate_succ, remaining, picks, this]

theorem valid_nonempty {is : List Nat} {ss : List (List α)} (h : Valid is ss) : ∀ s ∈ ss, s ≠ [] := by
  induction h with
  | nil => simp
  | @cons i is s ss hi _ ih =>
    intro t ht
    rcases List.mem_cons.1 ht with rfl | ht
    · intro e; subst e; simp at hi
    · exact ih t ht

/-- The odometer step goes to the next remaining combination. -/
theorem remaining_step {is : List Nat} {ss : List (List α)} (h : Valid is ss) :
    ∃ x, combination is ss = .ok x ∧
      remaining is ss = x :: (if (adv is ss).2 then remaining (adv is ss).1 ss else []) := by
  induction h with
  | nil => exact ⟨[], rfl, rfl⟩
  | @cons i is s ss hi hv ih =>
    obtain ⟨x, hx, hr⟩ := ih
    have hs : s[i]? = some s[i] := List.getElem?_eq_getElem hi
    refine ⟨s[i] :: x, by simp [combination, hs, hx, Res.map], ?_⟩
    simp only [remaining, hs, hr, adv]
    by_cases h2 : (adv is ss).2
    · simp [h2, hs, remaining]
    · have h2' : (adv is ss).2 = false := by simpa using h2
      simp only [h2', Bool.false_eq_true, if_false, List.map_cons, List.map_nil]
      by_cases h3 : i + 1 < s.length
      · have hs' : s[i+1]? = some s[i+1] := List.getElem?_eq_getElem h3
        have hd : s.drop (i + 1) = s[i+1] :: s.drop (i + 2) := List.drop_eq_getElem_cons h3
        simp only [h3, if_true, remaining, hs', adv_false_zero hv h2', remaining_zero ss (valid_nonempty hv)]
        rw [hd, List.flatMap_cons]; rfl
      · have hd : s.drop (i + 1) = [] := List.drop_eq_nil_of_le (by omega)
        simp [h3, hd]

/-- What is left to generate in a state. -/
def todo (cp : CrossProduct α) : List (List α) :=
  if cp.exhausted then [] else remaining cp.indices cp.sources

/-- Invariant of reachable states. -/
def Inv (cp : CrossProduct α) : Prop :=
  cp.indices.length = cp.sources.length ∧ (cp.exhausted = false → Valid cp.indices cp.sources)

theorem replicate_valid (ss : List (List α)) (h : ∀ s ∈ ss, s ≠ []) :
    Valid (List.replicate ss.length 0) ss := by
  induction ss with
  | nil => exact .nil
  | cons s ss ih =>
    rw [List.length_cons, List.replicate_succ]
    refine .cons ?_ (ih fun t ht => h t (List.mem_cons_of_mem _ ht))
    exact List.length_pos_iff.2 (h s (by simp))

theorem any_empty_false {ss : List (List α)} (h : ss.any List.isEmpty = false) : ∀ s ∈ ss, s ≠ [] := by
  intro s hs e
  have : ss.any List.isEmpty = true := List.any_eq_true.2 ⟨s, hs, by simp [e]⟩
  simp [this] at h

theorem inv_fromVecs (ss : List (List α)) : Inv (fromVecs ss) := by
  refine ⟨by simp [fromVecs], ?_⟩
  intro h
  simp only [fromVecs, Bool.or_eq_false_iff] at h
  exact replicate_valid ss (any_empty_false h.2)

theorem picks_of_empty {ss : List (List α)} (h : ss.any List.isEmpty = true) : picks ss = [] := by
  induction ss with
  | nil => simp at h
  | cons s ss ih =>
    rw [List.any_cons, Bool.or_eq_true] at h
    rcases h with h | h
    · simp at h; simp [picks, h]
    · simp [picks, ih h]

theorem todo_fromVecs (ss : List (List α)) : todo (fromVecs ss) = combinations ss := by
  unfold todo combinations
  by_cases h0 : ss = []
  · subst h0; simp [fromVecs]
  · by_cases h : ss.any List.isEmpty
    · simp [fromVecs, h, h0, picks_of_empty]
    · have h' : ss.any List.isEmpty = false := Bool.eq_false_iff.2 h
      have e : (fromVecs ss).exhausted = false := by simp [fromVecs, h', h0]
      rw [if_neg (by simp [e]), if_neg h0]
      exact remaining_zero ss (any_empty_false h')

/-- One call of `next`. -/
theorem next_spec (cp : CrossProduct α) (h : Inv cp) :
    ∃ r cp', cp.next = .ok (r, cp') ∧ Inv cp' ∧ cp'.sources = cp.sources ∧
      r = (todo cp).head? ∧ todo cp' = (todo cp).tail := by
  unfold next
  by_cases he : cp.exhausted
  · exact ⟨none, cp, by simp [he], h, rfl, by simp [todo, he], by simp [todo, he]⟩
  · have hv := h.2 (by simpa using he)
    obtain ⟨x, hx, hr⟩ := remaining_step hv
    rw [advance_eq cp h.1]
    simp only [he, hx]
    by_cases h2 : (adv cp.indices cp.sources).2
    · refine ⟨some x, _, by simp [h2]; rfl, ?_⟩
      refine ⟨⟨by simp [(adv_valid hv).length], fun _ => adv_valid hv⟩, rfl, ?_, ?_⟩
      · simp [todo, he, hr]
      · simp [todo, he, hr, h2]
    · refine ⟨some x, _, by simp [h2]; rfl, ?_⟩
      refine ⟨⟨by simp [(adv_valid hv).length], by simp⟩, rfl, ?_, ?_⟩
      · simp [todo, he, hr]
      · simp [todo, he, hr, h2]

theorem yields_todo (n : Nat) : ∀ (cp : CrossProduct α), Inv cp → (todo cp).length = n → Yields cp (todo cp) := by
  induction n with
  | zero =>
    intro cp h hn
    obtain ⟨r, cp', hnx, -, -, hr, -⟩ := next_spec cp h
    have ht : todo cp = [] := List.length_eq_zero_iff.1 hn
    rw [ht] at hr ⊢
    simp at hr; subst hr
    exact .done hnx
  | succ n ih =>
    intro cp h hn
    obtain ⟨r, cp', hnx, hi, -, hr, ht⟩ := next_spec cp h
    cases htd : todo cp with
    | nil => simp [htd] at hn
    | cons x xs =>
      rw [htd] at hr ht
      simp at hr ht; subst hr
      have := ih cp' hi (by rw [ht]; simp [htd] at hn; exact hn)
      rw [ht] at this
      exact .step hnx this

theorem after_spec {cp cp' : CrossProduct α} {n : Nat} (ha : After cp n cp') (h : Inv cp) :
    Inv cp' ∧ cp'.sources = cp.sources ∧ todo cp' = (todo cp).drop n := by
  induction ha with
  | zero => exact ⟨h, rfl, rfl⟩
  | @succ it r it' n it'' hnx _ ih =>
    obtain ⟨r', cp', hnx', hi, hs, -, ht⟩ := next_spec it h
    rw [hnx'] at hnx
    cases hnx
    obtain ⟨h1, h2, h3⟩ := ih hi
    exact ⟨h1, h2.trans hs, by rw [h3, ht]; simp [List.drop_tail]⟩

/-! ### Counting -/

theorem picks_length (ss : List (List α)) : (picks ss).length = product (ss.map List.length) := by
  induction ss with
  | nil => rfl
  | cons s ss ih =>
    rw [picks]
    have : (s.flatMap fun x => (picks ss).map fun xs => x :: xs).length = s.length * (picks ss).length := by
      induction s with
      | nil => simp
      | cons a s ih => simp [ih, Nat.succ_mul, Nat.add_comm]
    rw [this, ih]; rfl

theorem mem_picks {ss : List (List α)} {xs : List α} : xs ∈ picks ss ↔ IsPick xs ss := by
  induction ss generalizing xs with
  | nil =>
    simp only [picks, List.mem_singleton]
    constructor
    · rintro rfl; exact .nil
    · intro h; cases h; rfl
  | cons s ss ih =>
    rw [picks]
    simp only [List.mem_flatMap, List.mem_map]
    constructor
    · rintro ⟨a, ha, y, hy, rfl⟩
      exact .cons ha (ih.1 hy)
    · intro h
      cases h with
      | cons h1 h2 => exact ⟨_, h1, _, ih.2 h2, rfl⟩

theorem nodup_map_cons (a : α) {l : List (List α)} (h : l.Nodup) : (l.map fun xs => a :: xs).Nodup := by
  induction l with
  | nil => simp
  | cons x l ih =>
    rw [List.nodup_cons] at h
    rw [List.map_cons, List.nodup_cons]
    refine ⟨?_, ih h.2⟩
    intro hm
    obtain ⟨y, hy, e⟩ := List.mem_map.1 hm
    simp at e; subst e
    exact h.1 hy

theorem picks_nodup {ss : List (List α)} (h : ∀ s ∈ ss, s.Nodup) : (picks ss).Nodup := by
  induction ss with
  | nil => simp [picks]
  | cons s ss ih =>
    have ih' := ih (fun t ht => h t (List.mem_cons_of_mem _ ht))
    have hs := h s (by simp)
    rw [picks]
    clear h
    induction s with
    | nil => simp
    | cons a s ihs =>
      rw [List.flatMap_cons, List.nodup_append]
      rw [List.nodup_cons] at hs
      refine ⟨?_, ihs hs.2, ?_⟩
      · exact nodup_map_cons a ih'
      · intro x hx y hy
        obtain ⟨x', -, rfl⟩ := List.mem_map.1 hx
        obtain ⟨b, hb, hy⟩ := List.mem_flatMap.1 hy
        obtain ⟨y', -, rfl⟩ := List.mem_map.1 hy
        intro e
        simp at e
        rw [e.1] at hs
        exact hs.1 hb

/-! ### `size_hint` -/

/-- Position of an odometer state in the enumeration. -/
def rank : List Nat → List (List α) → Nat
  | i :: is, _ :: ss => i * product (ss.map List.length) + rank is ss
  | _, _ => 0

theorem product_pos {ss : List (List α)} (h : ∀ s ∈ ss, s ≠ []) : 0 < product (ss.map List.length) := by
  induction ss with
  | nil => simp [product]
  | cons s ss ih =>
    have h1 := ih (fun t ht => h t (List.mem_cons_of_mem _ ht))
    have h2 : 0 < s.length := List.length_pos_iff.2 (h s (by simp))
    simp only [product, List.map_cons, List.foldr_cons] at *
    exact Nat.mul_pos h2 h1

theorem rank_remaining {is : List Nat} {ss : List (List α)} (h : Valid is ss) :
    rank is ss + (remaining is ss).length = product (ss.map List.length) ∧ 0 < (remaining is ss).length := by
  induction h with
  | nil => simp [rank, remaining, product]
  | @cons i is s ss hi hv ih =>
    have hs : s[i]? = some s[i] := List.getElem?_eq_getElem hi
    have hl : ∀ t : List α, (t.flatMap fun x => (picks ss).map (x :: ·)).length
        = t.length * product (ss.map List.length) := by
      intro t
      induction t with
      | nil => simp
      | cons a t ih => simp [ih, Nat.succ_mul, Nat.add_comm, picks_length]
    simp only [rank, remaining, hs, List.length_append, List.length_map, hl, List.length_drop]
    have e : product ((s :: ss).map List.length) = s.length * product (ss.map List.length) := rfl
    rw [e]
    refine ⟨?_, by omega⟩
    have e2 : s.length = i + 1 + (s.length - (i + 1)) := by omega
    conv => rhs; rw [e2]
    rw [Nat.add_mul, Nat.add_mul]
    omega

theorem product_append (as bs : List Nat) : product (as ++ bs) = product as * product bs := by
  induction as with
  | nil => simp [product]
  | cons a as ih =>
    simp only [product, List.cons_append, List.foldr_cons] at *
    rw [ih, Nat.mul_assoc]

theorem rank_append (is js : List Nat) (ss ts : List (List α)) (h : is.length = ss.length) :
    rank (is ++ js) (ss ++ ts) = rank is ss * product (ts.map List.length) + rank js ts := by
  induction is generalizing ss with
  | nil =>
    cases ss with
    | nil => simp [rank]
    | cons => simp at h
  | cons i is ih =>
    cases ss with
    | nil => simp at h
    | cons s ss =>
      simp only [List.cons_append, rank, ih ss (by simpa using h), List.map_append, product_append]
      rw [Nat.add_mul, Nat.mul_assoc]; omega

theorem valid_append {is js : List Nat} {ss ts : List (List α)} (h : Valid (is ++ js) (ss ++ ts))
    (hl : is.length = ss.length) : Valid is ss ∧ Valid js ts := by
  induction is generalizing ss with
  | nil =>
    cases ss with
    | nil => exact ⟨.nil, h⟩
    | cons => simp at hl
  | cons i is ih =>
    cases ss with
    | nil => simp at hl
    | cons s ss =>
      simp only [List.cons_append] at h
      cases h with
      | cons h1 h2 =>
        have := ih h2 (by simpa using hl)
        exact ⟨.cons h1 this.1, this.2⟩

theorem hintLoop_eq (cp : CrossProduct α) (hv : Valid cp.indices cp.sources)
    (hfit : product (cp.sources.map List.length) < usizeSize) (n : Nat) :
    ∀ (is js : List Nat) (ss ts : List (List α)), is.length = n → ss.length = n →
      cp.indices = is ++ js → cp.sources = ss ++ ts →
      cp.hintLoop n (rank js ts, product (ts.map List.length)) =
        .ok (rank cp.indices cp.sources, product (cp.sources.map List.length)) := by
  induction n with
  | zero =>
    intro is js ss ts h1 h2 h3 h4
    have : is = [] := List.length_eq_zero_iff.1 h1
    subst this
    have : ss = [] := List.length_eq_zero_iff.1 h2
    subst this
    simp [hintLoop, h3, h4]
  | succ n ih =>
    intro is js ss ts h1 h2 h3 h4
    rcases snoc_cases is with rfl | ⟨is, i, rfl⟩
    · simp at h1
    rcases snoc_cases ss with rfl | ⟨ss, s, rfl⟩
    · simp at h2
    have h1' : is.length = n := by simpa using h1
    have h2' : ss.length = n := by simpa using h2
    have e1 : cp.indices.getD n 0 = i := by
      rw [h3]; subst h1'; simp
    have e2 : cp.sources.getD n [] = s := by
      rw [h4]; subst h2'; simp
    have h3' : cp.indices = is ++ (i :: js) := by rw [h3]; simp
    have h4' : cp.sources = ss ++ (s :: ts) := by rw [h4]; simp
    rw [h3', h4'] at hv
    obtain ⟨hv1, hv2⟩ := valid_append hv (by omega)
    have hp1 : 0 < product (ss.map List.length) := product_pos (valid_nonempty hv1)
    have hle : product ((s :: ts).map List.length) ≤ product (cp.sources.map List.length) := by
      rw [h4', List.map_append, product_append]
      exact Nat.le_mul_of_pos_left _ hp1
    have hr := rank_remaining hv2
    have hr1 : rank (i :: js) (s :: ts) = i * product (ts.map List.length) + rank js ts := rfl
    have hr2 : product ((s :: ts).map List.length) = s.length * product (ts.map List.length) := rfl
    have u1 : usize (i * product (ts.map List.length)) = .ok (i * product (ts.map List.length)) := by
      unfold usize; rw [if_pos (by omega)]
    have u2 : usize (rank js ts + i * product (ts.map List.length)) = .ok (rank (i :: js) (s :: ts)) := by
      unfold usize; rw [if_pos (by omega), hr1, Nat.add_comm]
    have u3 : usize (product (ts.map List.length) * s.length) = .ok (product ((s :: ts).map List.length)) := by
      unfold usize; rw [Nat.mul_comm, ← hr2, if_pos (by omega)]
    simp only [hintLoop, e1, e2, Res.bind_eq, u1, Res.bind_ok, u2, u3]
    exact ih is (i :: js) ss (s :: ts) h1' h2' h3' h4'

theorem total_eq (ns : List Nat) (hpos : ∀ n ∈ ns, 0 < n) (a : Nat) (ha : 0 < a) (hfa : a < usizeSize) :
    ns.foldl (fun acc l => acc.bind (checkedMul · l)) (some a) =
      if a * product ns < usizeSize then some (a * product ns) else none := by
  induction ns generalizing a with
  | nil => simp [product, hfa]
  | cons n ns ih =>
    have hn : 0 < n := hpos n (by simp)
    have hns : ∀ m ∈ ns, 0 < m := fun m hm => hpos m (List.mem_cons_of_mem _ hm)
    have e : a * product (n :: ns) = a * n * product ns := by
      simp [product, Nat.mul_assoc]
    rw [List.foldl_cons, e]
    have ec : (some a).bind (checkedMul · n) = if a * n < usizeSize then some (a * n) else none := rfl
    rw [ec]
    by_cases h : a * n < usizeSize
    · rw [if_pos h]; exact ih hns (a * n) (Nat.mul_pos ha hn) h
    · rw [if_neg h]
      have hnone : ∀ l : List Nat, l.foldl (fun acc l => acc.bind (checkedMul · l)) none = none := by
        intro l; induction l with
        | nil => rfl
        | cons x l ih => simp [ih]
      rw [hnone]
      have hp : 0 < product ns := by
        clear ih e h
        induction ns with
        | nil => simp [product]
        | cons m ns ih =>
          simp only [product, List.foldr_cons]
          refine Nat.mul_pos (hns m (by simp)) (ih ?_ ?_)
          · intro k hk
            rcases List.mem_cons.1 hk with rfl | hk
            · exact hn
            · exact hns k (List.mem_cons_of_mem _ hk)
          · intro k hk; exact hns k (List.mem_cons_of_mem _ hk)
      rw [if_neg]
      intro hlt
      have : a * n * 1 ≤ a * n * product ns := Nat.mul_le_mul_left _ hp
      omega

theorem sizeHint_eq (cp : CrossProduct α) (h : Inv cp) (hne : cp.sources ≠ []) :
    cp.sizeHint = if cp.exhausted ∨ product (cp.sources.map List.length) < usizeSize
      then .ok ((todo cp).length, some (todo cp).length) else .ok (0, none) := by
  unfold sizeHint todo
  by_cases he : cp.exhausted
  · simp [he]
  · have hv := h.2 (by simpa using he)
    have hpos : ∀ n ∈ cp.sources.map List.length, 0 < n := by
      intro n hn
      obtain ⟨s, hs, rfl⟩ := List.mem_map.1 hn
      exact List.length_pos_iff.2 (valid_nonempty hv s hs)
    have ht : cp.totalCombinations = if product (cp.sources.map List.length) < usizeSize
        then some (product (cp.sources.map List.length)) else none := by
      unfold totalCombinations
      rw [if_neg (by simp [hne]), total_eq _ hpos 1 (by omega) (by decide)]
      simp
    by_cases hfit : product (cp.sources.map List.length) < usizeSize
    · have hl := hintLoop_eq cp hv hfit cp.indices.length cp.indices [] cp.sources [] rfl h.1.symm
        (by simp) (by simp)
      have hr := rank_remaining hv
      simp only [he, ht, hfit]
      simp only [rank, List.map_nil] at hl
      rw [show product ([] : List Nat) = 1 from rfl] at hl
      rw [hl]
      simp
      omega
    · simp [he, ht, hfit]

end CrossProduct
end Verif
