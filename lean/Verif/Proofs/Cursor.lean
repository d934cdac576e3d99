import Verif.Spec.Cursor
import Verif.Proofs.Parse
/-! # Counting tokens between cursors -/

namespace Verif
open Spec

/-- Between the two positions, groups end before the second one and lie in each other. -/
structure Nested (buf : List Entry) (p s : Nat) : Prop where
  le : p ≤ s
  closed : buf[s]? = some .end_
  groups : ∀ i d n, p ≤ i → i < s → buf[i]? = some (.group d n) → i + (n + 1) < s ∧ buf[i + (n + 1)]? = some .end_ ∧
    ∀ j d' m, i < j → j < i + (n + 1) → buf[j]? = some (.group d' m) → j + (m + 1) < i + (n + 1)

/-- The tokens in front of a position. -/
def countTo (buf : List Entry) (i : Nat) : Nat := (buf.take i).countP isToken

theorem countTo_succ {buf : List Entry} {i : Nat} {e : Entry} (h : buf[i]? = some e) :
    countTo buf (i + 1) = countTo buf i + (if isToken e then 1 else 0) := by
  simp only [countTo, List.take_add_one, h, Option.toList, List.countP_append, List.countP_cons, List.countP_nil, Nat.zero_add]

theorem countTo_mono {buf : List Entry} {i j : Nat} (h : i ≤ j) : countTo buf i ≤ countTo buf j := by
  have : buf.take j = buf.take i ++ (buf.drop i).take (j - i) := by
    rw [← List.take_add, Nat.add_sub_cancel' h]
  simp only [countTo, this, List.countP_append]
  omega

theorem tokensBetween_eq {buf : List Entry} {i j : Nat} (h : i ≤ j) : tokensBetween buf i j = countTo buf j - countTo buf i := by
  have : buf.take j = buf.take i ++ (buf.drop i).take (j - i) := by
    rw [← List.take_add, Nat.add_sub_cancel' h]
  simp only [countTo, this, List.countP_append, tokensBetween]
  omega

theorem Nested.later {buf : List Entry} {p q s : Nat} (h : Nested buf p s) (h1 : p ≤ q) (h2 : q ≤ s) : Nested buf q s :=
  ⟨h2, h.closed, fun i d n hi => h.groups i d n (by omega)⟩

theorem Nested.inner {buf : List Entry} {p s i n : Nat} {d : Delim} (h : Nested buf p s) (hp : p ≤ i) (hs : i < s) (hg : buf[i]? = some (.group d n)) :
    Nested buf (i + 1) (i + (n + 1)) := by
  obtain ⟨h1, h2, h3⟩ := h.groups i d n hp hs hg
  refine ⟨by omega, h2, fun j d' m hj hj' hg' => ?_⟩
  obtain ⟨h4, h5, h6⟩ := h.groups j d' m (by omega) (by omega) hg'
  exact ⟨h3 j d' m (by omega) hj' hg', h5, h6⟩

theorem create_spec (buf : List Entry) (p s : Nat) (h : Nested buf p s) :
    (Cursor.create buf p s).scope = s ∧ p ≤ (Cursor.create buf p s).ptr ∧ (Cursor.create buf p s).ptr ≤ s ∧
    (∀ e, buf[(Cursor.create buf p s).ptr]? = some e → e.isEnd → (Cursor.create buf p s).ptr = s) ∧
    ∀ k, p ≤ k → k ≤ (Cursor.create buf p s).ptr → countTo buf k = countTo buf p := by
  fun_induction Cursor.create buf p s with
  | case1 p hlt hc ih =>
    simp only [Bool.and_eq_true, bne_iff_ne] at hc
    have hle := h.le
    obtain ⟨h1, h2, h3, h4, h5⟩ := ih (h.later (by omega) (by omega))
    have hs : countTo buf (p + 1) = countTo buf p := by
      rw [countTo_succ (List.getElem?_eq_getElem hlt)]
      cases he : buf[p] <;> simp_all [Entry.isEnd, isToken]
    refine ⟨h1, by omega, h3, h4, fun k hk hk' => ?_⟩
    by_cases hp : k = p
    · rw [hp]
    · rw [h5 k (by omega) hk', hs]
  | case2 p hlt hc =>
    refine ⟨rfl, Nat.le_refl _, h.le, ?_, fun k hk hk' => ?_⟩
    · intro e he hee
      simp only [List.getElem?_eq_getElem hlt, Option.some.injEq] at he
      subst he
      simp only [hee, Bool.true_and, bne_iff_ne, ne_eq, Decidable.not_not] at hc
      exact hc
    · simp only at hk'
      rw [show k = p by omega]
  | case3 p hlt =>
    have h1 := h.le
    have h2 := h.closed
    rw [List.getElem?_eq_none (by omega)] at h2
    cases h2

theorem distanceInner_spec (buf : List Entry) (c : Cursor) (e : Nat) (h : Nested buf c.ptr c.scope)
    (hc : ∀ x, buf[c.ptr]? = some x → x.isEnd → c.ptr = c.scope) :
    distanceInner buf c e = countTo buf (min e c.scope) - countTo buf c.ptr := by
  fun_induction distanceInner buf c e with
  | case1 c e hlt inside after hg _ _ ih1 ih2 =>
    unfold Cursor.anyGroup at hg
    split at hg
    · next d n hb =>
      simp only [Option.some.injEq, Prod.mk.injEq] at hg
      obtain ⟨hi, ha⟩ := hg
      have hne : c.ptr < c.scope := by
        have h1 := h.le
        have h2 := h.closed
        by_cases he : c.ptr = c.scope
        · rw [← he, hb] at h2; cases h2
        · omega
      have hin := h.inner (Nat.le_refl _) hne hb
      obtain ⟨g1, g2, -⟩ := h.groups _ _ _ (Nat.le_refl _) hne hb
      have hout := h.later (q := c.ptr + (n + 1)) (by omega) (by omega)
      obtain ⟨i1, i2, i3, i4, i5⟩ := create_spec buf _ _ hin
      obtain ⟨a1, a2, a3, a4, a5⟩ := create_spec buf _ _ hout
      rw [hi] at i1 i2 i3 i4 i5
      rw [ha] at a1 a2 a3 a4 a5
      have b1 := ih1 (by rw [i1]; exact hin.later i2 i3) (by rw [i1]; exact i4)
      have c1 := i5 inside.ptr i2 (Nat.le_refl _)
      have c0 := countTo_succ hb
      simp only [isToken, Bool.false_eq_true, if_false, Nat.add_zero] at c0
      have c2 := a5 after.ptr a2 (Nat.le_refl _)
      rw [i1] at b1
      have c3 := countTo_mono (buf := buf) (i := inside.ptr) (j := c.ptr + (n + 1)) i3
      by_cases he : e < after.ptr
      · simp only [he, if_true, dite_true] at b1 ⊢
        rw [b1, c1, c0, Nat.add_zero, Nat.min_eq_left (show e ≤ c.scope by omega)]
        by_cases hk : e ≤ c.ptr + (n + 1)
        · rw [Nat.min_eq_left hk]
        · rw [Nat.min_eq_right (by omega), a5 e (by omega) (by omega)]
      · simp only [he, if_false, dite_false] at b1 ⊢
        have b2 := ih2 he (by rw [a1]; exact hout.later a2 a3) (by rw [a1]; exact a4)
        rw [b1, b2, a1, c1, c0, c2]
        rw [Nat.min_eq_right (show c.ptr + (n + 1) ≤ after.ptr from a2)]
        have c4 := countTo_mono (buf := buf) (i := after.ptr) (j := min e c.scope) (by omega)
        omega
    · cases hg
  | case2 c e hlt hg next ht _ ih =>
    unfold Cursor.tokenTree at ht
    split at ht
    · next d n hb => simp [Cursor.anyGroup, hb] at hg
    · next t hb =>
      simp only [Option.some.injEq] at ht
      have hne : c.ptr < c.scope := by
        have h1 := h.le
        have h2 := h.closed
        by_cases he : c.ptr = c.scope
        · rw [← he, hb] at h2; cases h2
        · omega
      have hout := h.later (q := c.ptr + 1) (by omega) (by omega)
      obtain ⟨a1, a2, a3, a4, a5⟩ := create_spec buf _ _ hout
      rw [ht] at a1 a2 a3 a4 a5
      have b2 := ih (by rw [a1]; exact hout.later a2 a3) (by rw [a1]; exact a4)
      have c0 := countTo_succ hb
      simp only [isToken, if_true] at c0
      have c2 := a5 next.ptr a2 (Nat.le_refl _)
      rw [b2, a1, c2, c0]
      by_cases he : next.ptr ≤ e
      · have c4 := countTo_mono (buf := buf) (i := next.ptr) (j := min e c.scope) (by omega)
        omega
      · have := a5 (min e c.scope) (by omega) (by omega)
        omega
    · cases ht
  | case3 c e hlt hg ht =>
    have : c.ptr = c.scope := by
      have h1 := h.le
      by_cases he : c.ptr = c.scope
      · exact he
      · have hl : c.scope < buf.length := by
          have := h.closed
          by_cases hl : c.scope < buf.length
          · exact hl
          · rw [List.getElem?_eq_none (by omega)] at this; cases this
        have hb := List.getElem?_eq_getElem (l := buf) (i := c.ptr) (by omega)
        cases hx : buf[c.ptr] with
        | group d n => rw [hx] at hb; simp [Cursor.anyGroup, hb] at hg
        | leaf t => rw [hx] at hb; simp [Cursor.tokenTree, hb] at ht
        | end_ => rw [hx] at hb; exact hc _ hb rfl
    rw [Nat.min_eq_right (by omega), this]
    omega
  | case4 c e hlt =>
    have := h.le
    rw [Nat.min_eq_left (by omega)]
    have := countTo_mono (buf := buf) (i := e) (j := c.ptr) (by omega)
    omega

/-! ## Buffers -/

/-- The groups of these entries lie in each other, and end in them. -/
def NestedIn (es : List Entry) : Prop :=
  ∀ i d n, es[i]? = some (.group d n) → i + (n + 1) < es.length ∧ es[i + (n + 1)]? = some .end_ ∧
    ∀ j d' m, i < j → j < i + (n + 1) → es[j]? = some (.group d' m) → j + (m + 1) < i + (n + 1)

theorem NestedIn.append {a b : List Entry} (ha : NestedIn a) (hb : NestedIn b) : NestedIn (a ++ b) := by
  intro i d n h
  by_cases hi : i < a.length
  · rw [List.getElem?_append_left hi] at h
    obtain ⟨h1, h2, h3⟩ := ha i d n h
    refine ⟨by simp; omega, by rw [List.getElem?_append_left h1]; exact h2, fun j d' m hj hj' hg => ?_⟩
    rw [List.getElem?_append_left (by omega)] at hg
    exact h3 j d' m hj hj' hg
  · rw [List.getElem?_append_right (by omega)] at h
    obtain ⟨h1, h2, h3⟩ := hb _ d n h
    refine ⟨by simp; omega, ?_, fun j d' m hj hj' hg => ?_⟩
    · rw [List.getElem?_append_right (by omega), ← h2]
      congr 1; omega
    · rw [List.getElem?_append_right (by omega)] at hg
      have := h3 (j - a.length) d' m (by omega) (by omega) hg
      omega

theorem NestedIn.group {es : List Entry} (h : NestedIn es) (d : Delim) : NestedIn (.group d es.length :: es ++ [.end_]) := by
  intro i d' n hg
  rw [List.cons_append] at hg ⊢
  have look : ∀ k e, (es ++ [Entry.end_])[k]? = some e → (∃ d n, e = .group d n) → k < es.length ∧ es[k]? = some e := by
    intro k e hk he
    by_cases hl : k < es.length
    · rw [List.getElem?_append_left hl] at hk
      exact ⟨hl, hk⟩
    · rw [List.getElem?_append_right (by omega)] at hk
      obtain ⟨d, n, rfl⟩ := he
      cases hx : k - es.length with
      | zero => simp [hx] at hk
      | succ x => simp [hx] at hk
  cases i with
  | zero =>
    simp only [List.getElem?_cons_zero, Option.some.injEq, Entry.group.injEq] at hg
    obtain ⟨rfl, rfl⟩ := hg
    refine ⟨by simp, by simp, fun j d' m hj hj' hg => ?_⟩
    cases j with
    | zero => omega
    | succ j =>
      rw [List.getElem?_cons_succ] at hg
      obtain ⟨hl, hg⟩ := look j _ hg ⟨_, _, rfl⟩
      have := (h j d' m hg).1
      omega
  | succ i =>
    rw [List.getElem?_cons_succ] at hg
    obtain ⟨hl, hg⟩ := look i _ hg ⟨_, _, rfl⟩
    obtain ⟨h1, h2, h3⟩ := h i d' n hg
    refine ⟨by simp; omega, ?_, fun j d' m hj hj' hg => ?_⟩
    · rw [show i + 1 + (n + 1) = i + (n + 1) + 1 by omega, List.getElem?_cons_succ, List.getElem?_append_left h1]
      exact h2
    · cases j with
      | zero => omega
      | succ j =>
        rw [List.getElem?_cons_succ] at hg
        obtain ⟨hl', hg⟩ := look j _ hg ⟨_, _, rfl⟩
        have := h3 j d' m (by omega) (by omega) hg
        omega

theorem nestedIn_leaf (t : Tok) : NestedIn [.leaf t] := by
  intro i d n h
  cases i <;> simp at h

mutual
theorem entries_nested : ∀ t : Tok, NestedIn t.entries
  | .ident _ => by simpa [Tok.entries] using nestedIn_leaf _
  | .punct _ _ => by simpa [Tok.entries] using nestedIn_leaf _
  | .lit _ => by simpa [Tok.entries] using nestedIn_leaf _
  | .group d ts => by simpa [Tok.entries] using (toksEntries_nested ts).group d
theorem toksEntries_nested : ∀ ts : Toks, NestedIn (toksEntries ts)
  | [] => by intro i d n h; simp [toksEntries] at h
  | t :: ts => by rw [toksEntries]; exact (entries_nested t).append (toksEntries_nested ts)
end

theorem toksEntries_append (a b : Toks) : toksEntries (a ++ b) = toksEntries a ++ toksEntries b := by
  induction a with
  | nil => rfl
  | cons t a ih => simp [toksEntries, ih]

mutual
theorem entries_count : ∀ t : Tok, t.entries.countP isToken = (flatTok t).length
  | .ident _ => by simp [Tok.entries, isToken, flatTok]
  | .punct _ _ => by simp [Tok.entries, isToken, flatTok]
  | .lit _ => by simp [Tok.entries, isToken, flatTok]
  | .group d ts => by simp [Tok.entries, isToken, flatTok, toksEntries_count ts]
theorem toksEntries_count : ∀ ts : Toks, (toksEntries ts).countP isToken = (flat ts).length
  | [] => by simp [toksEntries, flat]
  | t :: ts => by simp [toksEntries, flat, entries_count t, toksEntries_count ts]
end

theorem segment_cons (r : Toks) (rs : List Toks) : segment (r :: rs) = toksEntries r ++ (if rs = [] then [] else .end_ :: segment rs) := by
  cases rs <;> simp [segment]

theorem nestedIn_end : NestedIn [.end_] := by
  intro i d n h
  cases i <;> simp at h

theorem segment_nested (rs : List Toks) : NestedIn (segment rs) := by
  induction rs with
  | nil => intro i d n h; simp [segment] at h
  | cons r rs ih =>
    rw [segment_cons]
    split
    · simpa using toksEntries_nested r
    · exact (toksEntries_nested r).append (nestedIn_end.append ih)

theorem segment_count (rs : List Toks) : (segment rs).countP isToken = (flat rs.flatten).length := by
  induction rs with
  | nil => rfl
  | cons r rs ih =>
    rw [segment_cons, List.flatten_cons, flat_append, List.countP_append, toksEntries_count, List.length_append, ← ih]
    split
    · next h => subst h; simp [segment]
    · simp [isToken]

/-- The position is in front of the segment, which ends at the other one. -/
def At (buf : List Entry) (p s : Nat) (rs : List Toks) : Prop :=
  ∃ pre post, buf = pre ++ segment rs ++ .end_ :: post ∧ p = pre.length ∧ s = pre.length + (segment rs).length

theorem sees_iff {buf : List Entry} {c : Cursor} {ts : Toks} :
    Sees buf c ts ↔ ∃ rs, At buf c.ptr c.scope rs ∧ rs.flatten = ts ∧ ∀ rs', rs = [] :: rs' → rs' = [] := by
  constructor
  · rintro ⟨pre, rs, post, h1, h2, h3, h4, h5⟩; exact ⟨rs, ⟨pre, post, h1, h2, h3⟩, h4, h5⟩
  · rintro ⟨rs, ⟨pre, post, h1, h2, h3⟩, h4, h5⟩; exact ⟨pre, rs, post, h1, h2, h3, h4, h5⟩

theorem At.nested {buf : List Entry} {p s : Nat} {rs : List Toks} (h : At buf p s rs) : Nested buf p s := by
  obtain ⟨pre, post, rfl, hp, hs⟩ := h
  have look : ∀ i, pre.length ≤ i → i < pre.length + (segment rs).length →
      (pre ++ segment rs ++ .end_ :: post)[i]? = (segment rs)[i - pre.length]? := by
    intro i h1 h2
    rw [List.getElem?_append_left (by simp; omega), List.getElem?_append_right h1]
  refine ⟨by omega, ?_, fun i d n hi hi' hg => ?_⟩
  · rw [hs, List.getElem?_append_right (by simp)]
    simp
  · rw [look i (by omega) (by omega)] at hg
    obtain ⟨h1, h2, h3⟩ := segment_nested rs _ d n hg
    refine ⟨by omega, ?_, fun j d' m hj hj' hg' => ?_⟩
    · rw [look _ (by omega) (by omega), ← h2]
      congr 1; omega
    · rw [look _ (by omega) (by omega)] at hg'
      have := h3 _ d' m (by omega) (by omega) hg'
      omega

theorem At.count {buf : List Entry} {p s : Nat} {rs : List Toks} (h : At buf p s rs) : countTo buf s = countTo buf p + (flat rs.flatten).length := by
  obtain ⟨pre, post, rfl, hp, hs⟩ := h
  rw [← segment_count, countTo, countTo, hs, hp, ← List.length_append, List.take_left, List.append_assoc, List.take_left, List.countP_append]

/-- The entry at the position. -/
theorem At.entry {buf : List Entry} {p s : Nat} {rs : List Toks} (h : At buf p s rs) : buf[p]? = (segment rs ++ [.end_])[0]? := by
  obtain ⟨pre, post, rfl, rfl, hs⟩ := h
  rw [List.append_assoc, List.getElem?_append_right (Nat.le_refl _), Nat.sub_self]
  cases segment rs <;> simp

theorem entries_first (t : Tok) : ∃ e es, t.entries = e :: es ∧ e.isEnd = false ∧ (∀ d us, t = .group d us → e = .group d (toksEntries us).length) ∧
    ((∀ d us, t ≠ .group d us) → e = .leaf t ∧ es = []) := by
  cases t with
  | group d us => exact ⟨_, _, rfl, rfl, (by rintro _ _ ⟨⟩; rfl), fun h => absurd rfl (h d us)⟩
  | ident n => exact ⟨_, _, rfl, rfl, (by rintro _ _ ⟨⟩), fun _ => ⟨rfl, rfl⟩⟩
  | punct c j => exact ⟨_, _, rfl, rfl, (by rintro _ _ ⟨⟩), fun _ => ⟨rfl, rfl⟩⟩
  | lit l => exact ⟨_, _, rfl, rfl, (by rintro _ _ ⟨⟩), fun _ => ⟨rfl, rfl⟩⟩

/-- In front of a token or a group. -/
theorem At.cons {buf : List Entry} {p s : Nat} {t : Tok} {ts : Toks} {rs : List Toks} (h : At buf p s ((t :: ts) :: rs)) :
    buf[p]? = t.entries.head? ∧ At buf (p + t.entries.length) s (ts :: rs) := by
  refine ⟨?_, ?_⟩
  · rw [h.entry, segment_cons, toksEntries]
    obtain ⟨e, es, he, -⟩ := entries_first t
    simp [he]
  · obtain ⟨pre, post, rfl, rfl, rfl⟩ := h
    refine ⟨pre ++ t.entries, post, ?_, by simp, ?_⟩
    · simp [segment_cons, toksEntries]
    · simp [segment_cons, toksEntries]; omega

/-- Behind the contents of a group. -/
theorem At.leave {buf : List Entry} {p s : Nat} {rs : List Toks} (h : At buf p s ([] :: rs)) (hr : rs ≠ []) : buf[p]? = some .end_ ∧ p ≠ s ∧ At buf (p + 1) s rs := by
  refine ⟨?_, ?_, ?_⟩
  · rw [h.entry, segment_cons, if_neg hr]; simp [toksEntries]
  · obtain ⟨pre, post, rfl, rfl, rfl⟩ := h
    simp [segment_cons, hr]
  · obtain ⟨pre, post, rfl, rfl, rfl⟩ := h
    refine ⟨pre ++ [.end_], post, ?_, by simp, ?_⟩
    · simp [segment_cons, hr, toksEntries]
    · simp [segment_cons, hr, toksEntries]; omega

/-- Into a group. -/
theorem At.enter {buf : List Entry} {p s : Nat} {d : Delim} {us ts : Toks} {rs : List Toks} (h : At buf p s ((.group d us :: ts) :: rs)) :
    buf[p]? = some (.group d (toksEntries us).length) ∧ At buf (p + 1) s (us :: ts :: rs) ∧ At buf (p + 1) (p + ((toksEntries us).length + 1)) [us] ∧
    At buf (p + ((toksEntries us).length + 1)) s ([] :: ts :: rs) := by
  refine ⟨by rw [h.cons.1]; rfl, ?_⟩
  obtain ⟨pre, post, rfl, rfl, rfl⟩ := h
  refine ⟨⟨pre ++ [.group d (toksEntries us).length], post, ?_, by simp, ?_⟩, ⟨pre ++ [.group d (toksEntries us).length], toksEntries ts ++ (if rs = [] then [] else .end_ :: segment rs) ++ .end_ :: post, ?_, by simp, ?_⟩,
    ⟨pre ++ .group d (toksEntries us).length :: toksEntries us, post, ?_, by simp, ?_⟩⟩
  · simp [segment_cons us, segment_cons (_ :: ts), segment_cons ts, toksEntries, Tok.entries]
  · simp [segment_cons us, segment_cons (_ :: ts), segment_cons ts, toksEntries, Tok.entries]; omega
  · simp [segment_cons (_ :: ts), segment, toksEntries, Tok.entries]
  · simp [segment]; omega
  · simp [segment_cons [], segment_cons (_ :: ts), segment_cons ts, toksEntries, Tok.entries]
  · simp [segment_cons [], segment_cons (_ :: ts), segment_cons ts, toksEntries, Tok.entries]; omega

/-- `Cursor::create` looks past the ends of groups. -/
theorem At.create {buf : List Entry} {s : Nat} {rs : List Toks} : ∀ {p : Nat}, At buf p s rs →
    (Cursor.create buf p s).scope = s ∧ Sees buf (Cursor.create buf p s) rs.flatten := by
  induction rs with
  | nil =>
    intro p h
    have hp : p = s := by
      obtain ⟨pre, post, h1, h2, h3⟩ := h
      simp [segment] at h3
      omega
    have hc : Cursor.create buf p s = ⟨p, s⟩ := by
      rw [Cursor.create.eq_def]
      simp [hp]
    rw [hc]
    exact ⟨rfl, sees_iff.2 ⟨[], h, rfl, by rintro _ ⟨⟩⟩⟩
  | cons r rs ih =>
    intro p h
    by_cases hr : r = [] ∧ rs ≠ []
    · obtain ⟨rfl, hr⟩ := hr
      obtain ⟨h1, h2, h3⟩ := h.leave hr
      have hlt : p < buf.length := by
        by_cases hl : p < buf.length
        · exact hl
        · rw [List.getElem?_eq_none (by omega)] at h1; cases h1
      have hc : Cursor.create buf p s = Cursor.create buf (p + 1) s := by
        rw [Cursor.create.eq_def]
        rw [List.getElem?_eq_getElem hlt, Option.some.injEq] at h1
        simp [hlt, h1, Entry.isEnd, h2]
      rw [hc]
      exact ih h3
    · have hc : Cursor.create buf p s = ⟨p, s⟩ := by
        rw [Cursor.create.eq_def]
        split
        · next hlt =>
          split
          · next hh =>
            exfalso
            simp only [Bool.and_eq_true, bne_iff_ne] at hh
            cases r with
            | nil =>
              have : rs = [] := by
                by_cases hx : rs = []
                · exact hx
                · exact absurd ⟨rfl, hx⟩ hr
              subst this
              obtain ⟨pre, post, -, h2, h3⟩ := h
              simp [segment, toksEntries] at h3
              omega
            | cons t us =>
              have := h.cons.1
              obtain ⟨e, es, he, hn, -⟩ := entries_first t
              rw [List.getElem?_eq_getElem hlt, he] at this
              simp only [List.head?_cons, Option.some.injEq] at this
              rw [this, hn] at hh
              simp at hh
          · rfl
        · rfl
      rw [hc]
      refine ⟨rfl, sees_iff.2 ⟨r :: rs, h, rfl, ?_⟩⟩
      rintro rs' ⟨⟩
      by_cases hx : rs = []
      · exact hx
      · exact absurd ⟨rfl, hx⟩ hr

theorem Spec.Sees.not_end {buf : List Entry} {c : Cursor} {ts : Toks} (h : Sees buf c ts) : ∀ x, buf[c.ptr]? = some x → x.isEnd → c.ptr = c.scope := by
  obtain ⟨rs, h, -, hn⟩ := sees_iff.1 h
  intro x hx he
  cases rs with
  | nil => obtain ⟨pre, post, h1, h2, h3⟩ := h; simp [segment] at h3; omega
  | cons r rs =>
    cases r with
    | nil =>
      cases hn rs rfl
      obtain ⟨pre, post, h1, h2, h3⟩ := h; simp [segment, toksEntries] at h3; omega
    | cons t us =>
      have := h.cons.1
      obtain ⟨e, es, he', hn', -⟩ := entries_first t
      rw [he', hx] at this
      simp only [List.head?_cons, Option.some.injEq] at this
      rw [this, hn'] at he
      cases he

theorem distance_sees {buf : List Entry} {c c' : Cursor} {ts ts' : Toks} (h : Sees buf c ts) (h' : Sees buf c' ts') (hs : c'.scope = c.scope)
    (hl : (flat ts').length ≤ (flat ts).length) :
    tokenDistance buf c c' + (flat ts').length = (flat ts).length ∧ tokenDistance buf c' c = tokenDistance buf c c' := by
  obtain ⟨rs, ha, rfl, -⟩ := sees_iff.1 h
  obtain ⟨rs', ha', rfl, -⟩ := sees_iff.1 h'
  have n1 := ha.count
  have n2 := ha'.count
  have d1 := fun e => distanceInner_spec buf c e ha.nested h.not_end
  have d2 := fun e => distanceInner_spec buf c' e ha'.nested h'.not_end
  have l1 := ha.nested.le
  have l2 := ha'.nested.le
  rw [hs] at n2 d2 l2
  rcases Nat.lt_trichotomy c'.ptr c.ptr with hc | hc | hc
  · have := countTo_mono (buf := buf) (Nat.le_of_lt hc)
    have e1 : tokenDistance buf c c' = distanceInner buf c' c.ptr := by rw [tokenDistance, if_pos hc]
    have e2 : tokenDistance buf c' c = distanceInner buf c' c.ptr := by rw [tokenDistance, if_neg (by omega)]
    rw [e1, e2, d2, Nat.min_eq_left l1]
    exact ⟨by omega, rfl⟩
  · have e1 : tokenDistance buf c c' = distanceInner buf c c'.ptr := by rw [tokenDistance, if_neg (by omega)]
    have e2 : tokenDistance buf c' c = distanceInner buf c' c.ptr := by rw [tokenDistance, if_neg (by omega)]
    rw [e1, e2, d1, d2, Nat.min_eq_left l1, Nat.min_eq_left l2, hc]
    rw [hc] at n2
    exact ⟨by omega, rfl⟩
  · have := countTo_mono (buf := buf) (Nat.le_of_lt hc)
    have e1 : tokenDistance buf c c' = distanceInner buf c c'.ptr := by rw [tokenDistance, if_neg (by omega)]
    have e2 : tokenDistance buf c' c = distanceInner buf c c'.ptr := by rw [tokenDistance, if_pos hc]
    rw [e1, e2, d1, Nat.min_eq_left l2]
    exact ⟨by omega, rfl⟩

/-! ## Moving cursors -/

theorem begin_sees (ts : Toks) : Sees (bufferOf ts) (Cursor.begin (bufferOf ts)) ts := by
  have h : At (bufferOf ts) 0 ((bufferOf ts).length - 1) [ts] := ⟨[], [], by simp [bufferOf, segment], rfl, by simp [bufferOf, segment]⟩
  simpa [Cursor.begin] using h.create.2

theorem Spec.Sees.cons {buf : List Entry} {c : Cursor} {t : Tok} {ts : Toks} (h : Sees buf c (t :: ts)) :
    ∃ us rs, At buf c.ptr c.scope ((t :: us) :: rs) ∧ ts = us ++ rs.flatten := by
  obtain ⟨rs, ha, hf, hn⟩ := sees_iff.1 h
  cases rs with
  | nil => simp at hf
  | cons r rs =>
    cases r with
    | nil => cases hn rs rfl; simp at hf
    | cons t' us =>
      simp only [List.flatten_cons, List.cons_append, List.cons.injEq] at hf
      obtain ⟨rfl, rfl⟩ := hf
      exact ⟨us, rs, ha, rfl⟩

theorem tokenTree_sees {buf : List Entry} {c : Cursor} {t : Tok} {ts : Toks} (h : Sees buf c (t :: ts)) :
    ∃ c', c.tokenTree buf = some c' ∧ c'.scope = c.scope ∧ Sees buf c' ts := by
  obtain ⟨us, rs, ha, rfl⟩ := h.cons
  cases t with
  | group d vs =>
    obtain ⟨h1, -, -, h4⟩ := ha.enter
    have := h4.create
    exact ⟨_, by simp only [Cursor.tokenTree, h1], this.1, by simpa using this.2⟩
  | ident n =>
    have := ha.cons.2.create
    exact ⟨_, by simp only [Cursor.tokenTree, ha.cons.1, Tok.entries, List.head?_cons]; rfl, this.1, by simpa using this.2⟩
  | punct ch j =>
    have := ha.cons.2.create
    exact ⟨_, by simp only [Cursor.tokenTree, ha.cons.1, Tok.entries, List.head?_cons]; rfl, this.1, by simpa using this.2⟩
  | lit l =>
    have := ha.cons.2.create
    exact ⟨_, by simp only [Cursor.tokenTree, ha.cons.1, Tok.entries, List.head?_cons]; rfl, this.1, by simpa using this.2⟩

theorem anyGroup_sees {buf : List Entry} {c : Cursor} {d : Delim} {us ts : Toks} (h : Sees buf c (.group d us :: ts)) :
    ∃ i a, c.anyGroup buf = some (i, a) ∧ Sees buf i us ∧ a.scope = c.scope ∧ Sees buf a ts := by
  obtain ⟨vs, rs, ha, rfl⟩ := h.cons
  obtain ⟨h1, -, h3, h4⟩ := ha.enter
  exact ⟨_, _, by simp only [Cursor.anyGroup, h1]; rfl, by simpa using h3.create.2, h4.create.1, by simpa using h4.create.2⟩

theorem tokenTree_end {buf : List Entry} {c : Cursor} (h : Sees buf c []) : c.tokenTree buf = none ∧ c.anyGroup buf = none := by
  obtain ⟨rs, ha, hf, hn⟩ := sees_iff.1 h
  have hx : buf[c.ptr]? = some .end_ := by
    rw [ha.entry]
    cases rs with
    | nil => rfl
    | cons r rs =>
      simp only [List.flatten_cons, List.append_eq_nil_iff] at hf
      obtain ⟨rfl, -⟩ := hf
      cases hn rs rfl
      rfl
  simp [Cursor.tokenTree, Cursor.anyGroup, hx]

/-! ## Groups without delimiters -/

theorem At.still {buf : List Entry} {p s : Nat} {t : Tok} {ts : Toks} {rs : List Toks} (h : At buf p s ((t :: ts) :: rs)) :
    Cursor.create buf p s = ⟨p, s⟩ := by
  rw [Cursor.create.eq_def]
  split
  · next hlt =>
    have := h.cons.1
    obtain ⟨e, es, he, hn, -⟩ := entries_first t
    rw [List.getElem?_eq_getElem hlt, he] at this
    simp only [List.head?_cons, Option.some.injEq] at this
    simp [this, hn]
  · rfl

theorem At.skip {buf : List Entry} {p s : Nat} {rs : List Toks} (h : At buf p s ([] :: rs)) (hr : rs ≠ []) :
    Cursor.create buf p s = Cursor.create buf (p + 1) s := by
  obtain ⟨h1, h2, -⟩ := h.leave hr
  have hlt : p < buf.length := by
    by_cases hl : p < buf.length
    · exact hl
    · rw [List.getElem?_eq_none (by omega)] at h1; cases h1
  rw [Cursor.create.eq_def]
  rw [List.getElem?_eq_getElem hlt, Option.some.injEq] at h1
  simp [hlt, h1, Entry.isEnd, h2]

theorem ignoreNone_enter {buf : List Entry} {p s : Nat} {us ts : Toks} {rs : List Toks} (h : At buf p s ((.group .none us :: ts) :: rs)) :
    (Cursor.create buf p s).ignoreNone buf = (Cursor.create buf (p + 1) s).ignoreNone buf := by
  rw [h.still, Cursor.ignoreNone.eq_def]
  have h1 := h.enter.1
  have hlt : p < buf.length := by
    by_cases hl : p < buf.length
    · exact hl
    · rw [List.getElem?_eq_none (by omega)] at h1; cases h1
  rw [List.getElem?_eq_getElem hlt, Option.some.injEq] at h1
  simp only [hlt, dite_true, h1]

theorem ignoreNone_blank {buf : List Entry} {s : Nat} {c : Toks} (hb : Blank c) : ∀ {rs : List Toks} {p : Nat}, rs ≠ [] → At buf p s (c :: rs) →
    ∃ k, (Cursor.create buf p s).ignoreNone buf = (Cursor.create buf k s).ignoreNone buf ∧ At buf k s rs := by
  induction hb with
  | nil => intro rs p hr h; exact ⟨p + 1, by rw [h.skip hr], (h.leave hr).2.2⟩
  | cons _ _ ih1 ih2 =>
    intro rs p hr h
    obtain ⟨k1, e1, h1⟩ := ih1 (by simp) h.enter.2.1
    obtain ⟨k2, e2, h2⟩ := ih2 hr h1
    exact ⟨k2, by rw [ignoreNone_enter h, e1, e2], h2⟩

theorem token_first {buf : List Entry} {s : Nat} {ts rest : Toks} {t : Tok} (hf : First ts t rest) (ht : ∀ d us, t ≠ .group d us) :
    ∀ {rs : List Toks} {p : Nat}, At buf p s (ts :: rs) → ∃ k rs', (Cursor.create buf p s).token buf = some (t, Cursor.create buf k s) ∧
      At buf k s (rs' ++ rs) ∧ rs'.flatten = rest := by
  induction hf with
  | here _ =>
    rename_i t rest h0
    intro rs p h
    have h1 := h.cons.1
    obtain ⟨e, es, he, -, -, h3⟩ := entries_first t
    obtain ⟨rfl, rfl⟩ := h3 ht
    refine ⟨p + 1, [rest], ?_, by simpa [he] using h.cons.2, by simp⟩
    have hi : (Cursor.create buf p s).ignoreNone buf = ⟨p, s⟩ := by
      rw [h.still, Cursor.ignoreNone.eq_def]
      split
      · next hlt =>
        rw [List.getElem?_eq_getElem hlt, he, List.head?_cons, Option.some.injEq] at h1
        simp only [h1]
      · rfl
    rw [he, List.head?_cons] at h1
    simp only [Cursor.token, hi, h1]
  | inside _ ih =>
    rename_i c t r rest h0
    intro rs p h
    obtain ⟨k, rs', e1, e2, e3⟩ := ih ht h.enter.2.1
    refine ⟨k, rs' ++ [rest], ?_, by simpa using e2, by simp [e3]⟩
    rw [← e1]
    simp only [Cursor.token, ignoreNone_enter h]
  | skip hb _ ih =>
    intro rs p h
    obtain ⟨k1, e1, h1⟩ := ignoreNone_blank hb (by simp) h.enter.2.1
    obtain ⟨k, rs', e2, e3, e4⟩ := ih ht h1
    refine ⟨k, rs', ?_, e3, e4⟩
    rw [← e2]
    simp only [Cursor.token, ignoreNone_enter h, e1]

theorem first_split {a b rest : Toks} {t : Tok} (h : First (a ++ b) t rest) : (∃ r, First a t r ∧ rest = r ++ b) ∨ Blank a ∧ First b t rest := by
  induction a generalizing rest with
  | nil => exact .inr ⟨.nil, h⟩
  | cons x a ih =>
    cases h with
    | here hn => exact .inl ⟨a, .here hn, rfl⟩
    | inside h => exact .inl ⟨_, .inside h, by simp⟩
    | skip hb h =>
      rcases ih h with ⟨r, h1, h2⟩ | ⟨h1, h2⟩
      · exact .inl ⟨r, .skip hb h1, h2⟩
      · exact .inr ⟨.cons hb h1, h2⟩

theorem token_at {buf : List Entry} {s : Nat} {t : Tok} (ht : ∀ d us, t ≠ .group d us) {rs : List Toks} : ∀ {p : Nat} {rest : Toks}, At buf p s rs →
    First rs.flatten t rest → ∃ k rs', (Cursor.create buf p s).token buf = some (t, Cursor.create buf k s) ∧ At buf k s rs' ∧ rs'.flatten = rest := by
  induction rs with
  | nil => intro p rest h hf; cases hf
  | cons r rs ih =>
    intro p rest h hf
    rcases first_split hf with ⟨r', h1, rfl⟩ | ⟨hb, h1⟩
    · obtain ⟨k, rs', e1, e2, e3⟩ := token_first h1 ht h
      exact ⟨k, rs' ++ rs, e1, e2, by simp [e3]⟩
    · have hr : rs ≠ [] := by rintro rfl; cases h1
      obtain ⟨k1, e1, h2⟩ := ignoreNone_blank hb hr h
      obtain ⟨k, rs', e2, e3, e4⟩ := ih h2 h1
      refine ⟨k, rs', ?_, e3, e4⟩
      rw [← e2]
      simp only [Cursor.token, e1]

theorem Spec.Sees.still {buf : List Entry} {c : Cursor} {ts : Toks} (h : Sees buf c ts) : Cursor.create buf c.ptr c.scope = c := by
  have := h.not_end
  rw [Cursor.create.eq_def]
  split
  · next hlt =>
    split
    · next hc =>
      simp only [Bool.and_eq_true, bne_iff_ne] at hc
      exact absurd (this _ (List.getElem?_eq_getElem hlt) hc.1) hc.2
    · rfl
  · rfl

theorem token_sees {buf : List Entry} {c : Cursor} {ts rest : Toks} {t : Tok} (h : Sees buf c ts) (hf : First ts t rest) (ht : ∀ d us, t ≠ .group d us) :
    ∃ c', c.token buf = some (t, c') ∧ c'.scope = c.scope ∧ Sees buf c' rest := by
  obtain ⟨rs, ha, rfl, hn⟩ := sees_iff.1 h
  obtain ⟨k, rs', e1, e2, rfl⟩ := token_at ht ha hf
  rw [h.still] at e1
  exact ⟨_, e1, e2.create.1, e2.create.2⟩

theorem blank_tokens {c : Toks} (h : Blank c) : flat c = [] := by
  induction h with
  | nil => rfl
  | cons _ _ ih1 ih2 => simp [flat, flatTok, ih1, ih2]

theorem first_tokens {ts rest : Toks} {t : Tok} (h : First ts t rest) : flat ts = flatTok t ++ flat rest := by
  induction h with
  | here _ => rfl
  | inside _ ih => simp [flat, flatTok, ih, flat_append]
  | skip hb _ ih => simp [flat, flatTok, ih, blank_tokens hb]

theorem readsAs_tokens {Y : Syn} {i : Nat} {ts used rest : Toks} {v : VKind} (h : ReadsAs Y i ts v used rest) : flat ts = flat used ++ flat rest := by
  cases h with
  | int h => simp [first_tokens h, flat, flatTok]
  | negInt h h' => simp [first_tokens h, first_tokens h', flat, flatTok]
  | str h => simp [first_tokens h, flat, flatTok]
  | underscore h => simp [first_tokens h, flat, flatTok]
  | ident h _ => simp [first_tokens h, flat, flatTok]
  | path _ n _ => rw [← flat_append, List.take_append_drop]
  | type _ n _ => rw [← flat_append, List.take_append_drop]
  | expr _ n _ => rw [← flat_append, List.take_append_drop]

end Verif
