import Verif.Spec.Tuples
import Verif.Proofs.CrossProduct
/-! # Proofs about tuples and the expand phase -/

namespace Verif
open Spec

variable {α β ε : Type}

namespace Tup

mutual
def map (f : α → β) : Tup α → Tup β
  | val a => val (f a)
  | tup ts => tup (mapL f ts)
def mapL (f : α → β) : List (Tup α) → List (Tup β)
  | [] => []
  | t :: ts => map f t :: mapL f ts
end

theorem mapL_append (f : α → β) (ts us : List (Tup α)) : mapL f (ts ++ us) = mapL f ts ++ mapL f us := by
  induction ts with
  | nil => rfl
  | cons t ts ih => simp [mapL, ih]

theorem sizeL_append (ts us : List (Tup α)) : sizeL (ts ++ us) = sizeL ts + sizeL us := by
  induction ts with
  | nil => simp [sizeL]
  | cons t ts ih => simp [sizeL, ih]; omega

mutual
theorem size_map (f : α → β) (t : Tup α) : size (map f t) = size t := by
  cases t with
  | val a => rfl
  | tup ts => simp [map, size, sizeL_mapL f ts]
theorem sizeL_mapL (f : α → β) (ts : List (Tup α)) : sizeL (mapL f ts) = sizeL ts := by
  cases ts with
  | nil => rfl
  | cons t ts => simp [mapL, sizeL, size_map f t, sizeL_mapL f ts]
end

theorem size_pos (t : Tup α) : 0 < size t := by cases t <;> simp [size]; omega

theorem leavesAux_map (f : α → β) (n : Nat) (q : List (Tup α)) :
    leavesAux n (mapL f q) = (leavesAux n q).map f := by
  induction n generalizing q with
  | zero => rfl
  | succ n ih =>
    match q with
    | [] => rfl
    | val a :: q => simp [mapL, map, leavesAux, ih]
    | tup ts :: q => simp [mapL, map, leavesAux, ← mapL_append, ih]

theorem kindsAux_map (f : α → β) (n : Nat) (q : List (Tup α)) :
    kindsAux n (mapL f q) = kindsAux n q := by
  induction n generalizing q with
  | zero => rfl
  | succ n ih =>
    match q with
    | [] => rfl
    | val a :: q => simp [mapL, map, kindsAux, ih]
    | tup ts :: q => simp [mapL, map, kindsAux, ← mapL_append, ih]

theorem leaves_map (f : α → β) (q : List (Tup α)) : leaves (mapL f q) = (leaves q).map f := by
  simp [leaves, sizeL_mapL, leavesAux_map]

theorem kinds_map (f : α → β) (q : List (Tup α)) : kinds (mapL f q) = kinds q := by
  simp [kinds, sizeL_mapL, kindsAux_map]

end Tup

open Tup

mutual
theorem shape_eq_map (t : Tup α) : shape t = Tup.map (fun _ => ()) t := by
  cases t with
  | val a => rfl
  | tup ts => simp [shape, Tup.map, shapes_eq_map ts]
theorem shapes_eq_map (ts : List (Tup α)) : shapes ts = mapL (fun _ => ()) ts := by
  cases ts with
  | nil => rfl
  | cons t ts => simp [shapes, mapL, shape_eq_map t, shapes_eq_map ts]
end

mutual
theorem zip_exists : (t : Tup α) → (u : Tup β) → shape t = shape u →
    ∃ z : Tup (α × β), Tup.map Prod.fst z = t ∧ Tup.map Prod.snd z = u
  | .val a, .val b, _ => ⟨.val (a, b), rfl, rfl⟩
  | .tup ts, .tup us, h => by
    simp only [shape, Tup.tup.injEq] at h
    obtain ⟨z, h1, h2⟩ := zipL_exists ts us h
    exact ⟨.tup z, by simp [Tup.map, h1], by simp [Tup.map, h2]⟩
  | .val a, .tup us, h => by simp [shape] at h
  | .tup ts, .val b, h => by simp [shape] at h
theorem zipL_exists : (ts : List (Tup α)) → (us : List (Tup β)) → shapes ts = shapes us →
    ∃ z : List (Tup (α × β)), mapL Prod.fst z = ts ∧ mapL Prod.snd z = us
  | [], [], _ => ⟨[], rfl, rfl⟩
  | t :: ts, u :: us, h => by
    simp only [shapes, List.cons.injEq] at h
    obtain ⟨z, h1, h2⟩ := zip_exists t u h.1
    obtain ⟨zs, h3, h4⟩ := zipL_exists ts us h.2
    exact ⟨z :: zs, by simp [mapL, h1, h3], by simp [mapL, h2, h4]⟩
  | [], u :: us, h => by simp [shapes] at h
  | t :: ts, [], h => by simp [shapes] at h
end

mutual
theorem inOrder_map (f : α → β) (t : Tup α) : inOrder (Tup.map f t) = (inOrder t).map f := by
  cases t with
  | val a => rfl
  | tup ts => simp [Tup.map, inOrder, inOrderL_map f ts]
theorem inOrderL_map (f : α → β) (ts : List (Tup α)) : inOrderL (mapL f ts) = (inOrderL ts).map f := by
  cases ts with
  | nil => rfl
  | cons t ts => simp [mapL, inOrderL, inOrder_map f t, inOrderL_map f ts]
end

theorem inOrderL_append (ts us : List (Tup α)) : inOrderL (ts ++ us) = inOrderL ts ++ inOrderL us := by
  induction ts with
  | nil => rfl
  | cons t ts ih => simp [inOrderL, ih]

theorem leavesAux_perm (n : Nat) (q : List (Tup α)) (h : sizeL q ≤ n) : (leavesAux n q).Perm (inOrderL q) := by
  induction n generalizing q with
  | zero =>
    match q with
    | [] => exact .refl _
    | t :: ts => have := size_pos t; simp [sizeL] at h; omega
  | succ n ih =>
    match q with
    | [] => exact .refl _
    | .val a :: q =>
      simp only [leavesAux, inOrderL, inOrder, List.cons_append, List.nil_append]
      exact (ih q (by simp [sizeL, size] at h; omega)).cons a
    | .tup ts :: q =>
      simp only [leavesAux, inOrderL, inOrder]
      refine (ih (q ++ ts) (by simp [sizeL_append]; simp [sizeL, size] at h; omega)).trans ?_
      rw [inOrderL_append]
      exact List.perm_append_comm

theorem leaves_perm (q : List (Tup α)) : (leaves q).Perm (inOrderL q) := leavesAux_perm _ q (Nat.le_refl _)

theorem mapL_getElem? (f : α → β) (ts : List (Tup α)) (i : Nat) : (mapL f ts)[i]? = (ts[i]?).map (Tup.map f) := by
  induction ts generalizing i with
  | nil => simp [mapL]
  | cons t ts ih => cases i <;> simp [mapL, ih]

theorem valueAt_map (f : α → β) (p : List Nat) (ts : List (Tup α)) :
    valueAt p (mapL f ts) = (valueAt p ts).map f := by
  induction p generalizing ts with
  | nil => rfl
  | cons i p ih =>
    simp only [valueAt, mapL_getElem?]
    rcases ts[i]? with _ | t
    · rfl
    · cases t with
      | val a => simp only [Option.map_some, Tup.map]; split <;> rfl
      | tup us => simp [Tup.map, ih]

theorem mem_of_valueAt {p : List Nat} {ts : List (Tup α)} {a : α} (h : valueAt p ts = some a) : a ∈ inOrderL ts := by
  have key : ∀ (ts : List (Tup α)) (t : Tup α), t ∈ ts → ∀ x ∈ inOrder t, x ∈ inOrderL ts := by
    intro ts t ht x hx
    induction ts with
    | nil => cases ht
    | cons u us ih =>
      simp only [inOrderL, List.mem_append]
      cases ht with
      | head => exact .inl hx
      | tail _ h => exact .inr (ih h)
  induction p generalizing ts with
  | nil => simp [valueAt] at h
  | cons i p ih =>
    simp only [valueAt] at h
    split at h
    · cases h
    · rename_i b hb
      split at h
      · cases h; exact key ts _ (List.mem_of_getElem? hb) _ (by simp [inOrder])
      · cases h
    · rename_i us hb
      exact key ts _ (List.mem_of_getElem? hb) _ (by simpa [inOrder] using ih h)

mutual
theorem exists_valueAt_el : (t : Tup α) → (a : α) → a ∈ inOrder t →
    (t = .val a) ∨ ∃ us p, t = .tup us ∧ valueAt p us = some a
  | .val b, a, h => by simp [inOrder] at h; exact .inl (by rw [h])
  | .tup us, a, h => by
    simp only [inOrder] at h
    obtain ⟨p, hp⟩ := exists_valueAt us a h
    exact .inr ⟨us, p, rfl, hp⟩
theorem exists_valueAt : (ts : List (Tup α)) → (a : α) → a ∈ inOrderL ts → ∃ p, valueAt p ts = some a
  | [], a, h => by simp [inOrderL] at h
  | t :: ts, a, h => by
    simp only [inOrderL, List.mem_append] at h
    rcases h with h | h
    · rcases exists_valueAt_el t a h with rfl | ⟨us, p, rfl, hp⟩
      · exact ⟨[0], by simp [valueAt]⟩
      · exact ⟨0 :: p, by simp [valueAt, hp]⟩
    · obtain ⟨p, hp⟩ := exists_valueAt ts a h
      match p with
      | [] => simp [valueAt] at hp
      | i :: p => exact ⟨(i + 1) :: p, by simpa [valueAt] using hp⟩
end

theorem zip_map_fst_snd (l : List (α × β)) : List.zip (l.map Prod.fst) (l.map Prod.snd) = l := by
  induction l with
  | nil => rfl
  | cons x xs ih => simp [ih]

mutual
theorem elements_eq : ∀ t : Tup α, elements t = size t
  | .val _ => rfl
  | .tup ts => by rw [elements, size, elementsL_eq ts, Nat.add_comm]
theorem elementsL_eq : ∀ ts : List (Tup α), elementsL ts = sizeL ts
  | [] => rfl
  | t :: ts => by rw [elementsL, sizeL, elements_eq t, elementsL_eq ts]
end

theorem kindsAux_length (n : Nat) (q : List (Tup α)) (h : sizeL q = n) : (kindsAux n q).length = n := by
  induction n generalizing q with
  | zero => rfl
  | succ n ih =>
    match q with
    | [] => simp [sizeL] at h
    | val _ :: q =>
      simp only [sizeL, size] at h
      rw [kindsAux, List.length_cons, ih q (by omega)]
    | tup ts :: q =>
      simp only [sizeL, size] at h
      rw [kindsAux, List.length_cons, ih (q ++ ts) (by rw [sizeL_append]; omega)]

theorem kinds_length (ts : List (Tup α)) : (kinds ts).length = elementsL ts := by
  rw [kinds, kindsAux_length _ _ rfl, elementsL_eq]

/-- `match_tuples` accepts exactly when the breadth-first kind sequences agree. -/
theorem matchTuples_eq (as : List (Tup α)) (es : List (Tup β)) :
    matchTuples as es = if kinds as = kinds es then .ok () else .err (.typeError (tupleMismatch as es)) := by
  have key : ∀ (l m : List Bool), l.length = m.length →
      ((List.zip l m).all (fun p => p.1 == p.2) = true ↔ l = m) := by
    intro l
    induction l with
    | nil => intro m h; cases m <;> simp_all
    | cons a l ih =>
      intro m h
      cases m with
      | nil => simp at h
      | cons b m => simp at h; simp [ih m h]
  unfold matchTuples
  by_cases h : (kinds as).length = (kinds es).length
  · have h' := h
    rw [kinds_length, kinds_length] at h'
    simp only [tupleMismatch, h', if_true]
    simp only [h, ne_eq, not_true, if_false, key _ _ h]
  · have h' := h
    rw [kinds_length, kinds_length] at h'
    simp only [tupleMismatch, h', if_false]
    simp only [ne_eq, h, not_false_iff, if_true]
    rw [if_neg]
    intro e; exact h (by rw [e])

/-- Flat tuples: all elements are values. -/
def IsFlat (ts : List (Tup α)) : Prop := ∀ t ∈ ts, ∃ a, t = .val a

theorem kindsAux_flat (n : Nat) (ts : List (Tup α)) (h : IsFlat ts) (hn : ts.length ≤ n) :
    kindsAux n ts = List.replicate ts.length true := by
  induction n generalizing ts with
  | zero => cases ts <;> simp_all [kindsAux]
  | succ n ih =>
    match ts with
    | [] => rfl
    | t :: ts =>
      obtain ⟨a, rfl⟩ := h t (by simp)
      simp only [kindsAux, List.length_cons, List.replicate_succ]
      rw [ih ts (fun t ht => h t (by simp [ht])) (by simpa using hn)]

theorem length_le_sizeL (ts : List (Tup α)) : ts.length ≤ sizeL ts := by
  induction ts with
  | nil => simp
  | cons t ts ih => have := size_pos t; simp [sizeL]; omega

theorem kinds_flat {ts : List (Tup α)} (h : IsFlat ts) : kinds ts = List.replicate ts.length true :=
  kindsAux_flat _ ts h (length_le_sizeL ts)

theorem kindsAux_all_true (n : Nat) (ts : List (Tup α)) (hn : ts.length ≤ n)
    (h : ∀ b ∈ kindsAux n ts, b = true) : IsFlat ts := by
  induction n generalizing ts with
  | zero => cases ts <;> simp_all [IsFlat]
  | succ n ih =>
    match ts with
    | [] => intro t ht; cases ht
    | .val a :: ts =>
      simp only [kindsAux, List.mem_cons, forall_eq_or_imp] at h
      have := ih ts (by simpa using hn) h.2
      intro t ht
      cases ht with
      | head => exact ⟨a, rfl⟩
      | tail _ ht => exact this t ht
    | .tup us :: ts => simp [kindsAux] at h

theorem shapes_flat {ts : List (Tup α)} (h : IsFlat ts) : shapes ts = List.replicate ts.length (.val ()) := by
  induction ts with
  | nil => rfl
  | cons t ts ih =>
    obtain ⟨a, rfl⟩ := h t (by simp)
    simp [shapes, shape, List.replicate_succ, ih (fun t ht => h t (by simp [ht]))]

theorem shapes_length (ts : List (Tup α)) : (shapes ts).length = ts.length := by
  induction ts with
  | nil => rfl
  | cons t ts ih => simp [shapes, ih]

theorem flat_of_shapes {as : List (Tup α)} {es : List (Tup β)} (h : shapes as = shapes es) (hf : IsFlat as) :
    IsFlat es := by
  induction es generalizing as with
  | nil => intro t ht; cases ht
  | cons e es ih =>
    match as with
    | [] => simp [shapes] at h
    | a :: as =>
      simp only [shapes, List.cons.injEq] at h
      obtain ⟨x, rfl⟩ := hf a (by simp)
      intro t ht
      cases ht with
      | head =>
        cases e with
        | val b => exact ⟨b, rfl⟩
        | tup _ => simp [shape] at h
      | tail _ ht => exact ih h.2 (fun t ht => hf t (by simp [ht])) t ht

theorem kinds_flat_iff {as : List (Tup α)} {es : List (Tup β)} (hf : IsFlat as) :
    kinds as = kinds es ↔ shapes as = shapes es := by
  constructor
  · intro h
    rw [kinds_flat hf] at h
    have he : IsFlat es := by
      apply kindsAux_all_true _ es (length_le_sizeL es)
      intro b hb
      have : b ∈ kinds es := hb
      rw [← h] at this
      exact List.eq_of_mem_replicate this
    rw [kinds_flat he] at h
    have hl := congrArg List.length h
    simp at hl
    rw [shapes_flat hf, shapes_flat he, hl]
  · intro h
    have he := flat_of_shapes h hf
    have hl := congrArg List.length h
    rw [shapes_length, shapes_length] at hl
    rw [kinds_flat hf, kinds_flat he, hl]

/-! ## The expansion loop -/

/-- What one block rewrite contains, given the loop values of the iteration. -/
def rewriteFor (loops : List (LoopAlias α × List (LoopSourceValue ε))) (spec : Option (AliasSpec α ε)) (block : β)
    (vals : List (LoopSourceValue ε)) : Res (BlockRewrite α ε β) :=
  (loopSpecItems loops vals).map fun items =>
    match spec with
    | some s => ⟨⟨items ++ s.items, s.isCommaUsed⟩, block⟩
    | none => ⟨⟨items, none⟩, block⟩

theorem expandLoop_of_yields (loops : List (LoopAlias α × List (LoopSourceValue ε))) (spec : Option (AliasSpec α ε))
    (block : β) {cp : CrossProduct (LoopSourceValue ε)} {xs : List (List (LoopSourceValue ε))}
    (h : Yields cp xs) (n : Nat) (hn : xs.length < n) :
    expandLoop loops spec block n cp = mapRes (rewriteFor loops spec block) xs := by
  induction h generalizing n with
  | done h =>
    match n with
    | 0 => simp at hn
    | n + 1 => simp [expandLoop, h, mapRes]
  | @step it it' x xs h _ ih =>
    match n with
    | 0 => simp at hn
    | n + 1 =>
      simp only [expandLoop, h, Res.bind_eq, Res.bind_ok, mapRes]
      rw [ih n (by simpa using hn)]
      unfold rewriteFor
      cases loopSpecItems loops x <;> cases spec <;> simp [Res.map]

theorem expand_loops_eq (ast : RawAst α ε β) (loops) (h : ast.loops = some loops) :
    expand ast = mapRes (rewriteFor loops ast.spec ast.block) (combinations (loops.map (·.2))) := by
  unfold expand
  rw [h]
  simp only
  refine expandLoop_of_yields _ _ _ ?_ _ ?_
  · have := CrossProduct.yields_todo _ (CrossProduct.fromVecs (loops.map (·.2))) (CrossProduct.inv_fromVecs _) rfl
    rwa [CrossProduct.todo_fromVecs] at this
  · unfold combinations
    split
    · simp
    · rw [CrossProduct.picks_length]; exact Nat.lt_succ_self _

theorem mapRes_length {γ δ : Type} {f : γ → Res δ} {xs : List γ} {ys : List δ} (h : mapRes f xs = .ok ys) :
    ys.length = xs.length := by
  induction xs generalizing ys with
  | nil => simp [mapRes] at h; simp [h.symm]
  | cons x xs ih =>
    simp only [mapRes, Res.bind_eq_ok] at h
    obtain ⟨y, -, ys', h', h''⟩ := h
    cases h''
    simp [ih h']

end Verif

namespace Verif
open Spec Tup

variable {α β : Type}

theorem kindsAux_count (n : Nat) (q : List (Tup α)) :
    (kindsAux n q).count true = (leavesAux n q).length := by
  induction n generalizing q with
  | zero => rfl
  | succ n ih =>
    match q with
    | [] => rfl
    | .val a :: q => simp [kindsAux, leavesAux, ih]
    | .tup ts :: q => simp [kindsAux, leavesAux, ih]

theorem leaves_length_of_kinds {as : List (Tup α)} {es : List (Tup β)} (h : kinds as = kinds es) :
    (leaves as).length = (leaves es).length := by
  have h1 := kindsAux_count (sizeL as) as
  have h2 := kindsAux_count (sizeL es) es
  have h' : kindsAux (sizeL as) as = kindsAux (sizeL es) es := h
  rw [h'] at h1
  unfold leaves
  omega

end Verif
