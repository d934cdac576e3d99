import Verif.Model.Normalize
import Verif.Spec.Strings
/-! Helper lemmas about `normalize`. -/

namespace Verif
open Spec

variable {C : CharClass}

/-- The loop from a state whose result is non-empty, described with the pending underscore. -/
theorem normLoop_tail (hu : C.alnum '_' = false) (n : Nat) (cs : Str) :
    ∀ (i : Nat) (base : Str) (ins : Bool), base ≠ [] → i + cs.length = n →
    normFinish (normLoop C n i ⟨base ++ (if ins then ['_'] else []), ins⟩ cs)
      = base ++ squeeze C ins (trimLast C cs) := by
  induction cs with
  | nil =>
    intro i base ins hb _
    cases ins <;> simp [normLoop, normFinish, trimLast, squeeze, hb]
  | cons c cs ih =>
    intro i base ins hb hn
    have hne : (base ++ (if ins then ['_'] else [])) ≠ [] := by simp [hb]
    have hne' : (base ++ (if ins then ['_'] else [])).isEmpty = false := by
      simp [hb]
    cases cs with
    | nil =>
      have hi : i = n - 1 := by simp at hn; omega
      subst hi
      have hcu : C.alnum c = true → c ≠ '_' := by
        intro h e; subst e; simp [hu] at h
      simp only [normLoop, normStep, hne', trimLast]
      by_cases h1 : C.alnum c
      · have h2 := hcu h1
        cases ins <;> simp [h1, h2, normFinish, squeeze, keepable]
      · by_cases h2 : c = '_'
        · subst h2
          cases ins <;> simp [h1, normFinish, squeeze, hb]
        · cases ins <;> simp [h1, h2, normFinish, squeeze, hb]
    | cons d cs =>
      have hi : ¬ i = n - 1 := by simp at hn; omega
      have hn' : i + 1 + (d :: cs).length = n := by simp at hn ⊢; omega
      have hstep : normStep C n i ⟨base ++ (if ins then ['_'] else []), ins⟩ c =
          if keepable C c then ⟨base ++ (if ins then ['_'] else []) ++ [c], false⟩
          else ⟨base ++ ['_'], true⟩ := by
        simp only [normStep, hne', keepable]
        cases ins <;> simp [hi]
      rw [normLoop, hstep]
      simp only [trimLast, squeeze]
      by_cases hk : keepable C c
      · simp only [hk, if_true]
        have := ih (i + 1) (base ++ (if ins then ['_'] else []) ++ [c]) false (by simp) hn'
        simp only [Bool.false_eq_true, if_false, List.append_nil] at this
        rw [this]; simp
      · simp only [hk]
        have := ih (i + 1) base true hb hn'
        simpa using this

theorem normLoop_head (hu : C.alnum '_' = false) (n : Nat) (cs : Str) :
    ∀ (i : Nat), i + cs.length = n →
    normFinish (normLoop C n i ⟨[], false⟩ cs) = normalized C cs := by
  induction cs with
  | nil => intro i _; simp [normLoop, normFinish, normalized]
  | cons c cs ih =>
    intro i hn
    have hn' : i + 1 + cs.length = n := by simp at hn; omega
    by_cases h1 : C.alnum c
    · have h2 : c ≠ '_' := by intro e; subst e; simp [hu] at h1
      have hstep : normStep C n i ⟨[], false⟩ c =
          ⟨(if C.numeric c then ['_'] else []) ++ [c], false⟩ := by
        simp only [normStep, h1]
        by_cases h3 : C.numeric c <;> simp [h3, h2]
      rw [normLoop, hstep]
      have := normLoop_tail hu n cs (i + 1) ((if C.numeric c then ['_'] else []) ++ [c]) false
        (by simp) hn'
      simp only [Bool.false_eq_true, if_false, List.append_nil] at this
      rw [this]
      simp [normalized, List.dropWhile, h1]
    · have hnum : C.numeric c = false := by
        simp [CharClass.alnum] at h1; exact h1.2
      have hstep : normStep C n i ⟨[], false⟩ c = ⟨[], false⟩ := by
        simp only [normStep]
        by_cases h2 : c = '_' <;> simp [h1, h2]
        subst h2; simp [hnum]
      rw [normLoop, hstep, ih (i + 1) hn']
      simp [normalized, List.dropWhile, h1]

/-- Refinement of `normalize` to its specification. -/
theorem normalize_eq (hu : C.alnum '_' = false) (s : Str) : normalize C s = normalized C s := by
  unfold normalize
  exact normLoop_head hu _ s 0 (by simp)

/-! ### Facts about the specification -/

theorem trimLast_filter (cs : Str) : (trimLast C cs).filter C.alnum = cs.filter C.alnum := by
  fun_induction trimLast C cs with
  | case1 => rfl
  | case2 l h => rfl
  | case3 l h => simp at h; simp [h]
  | case4 c d cs ih => simp only [List.filter_cons, ih]

theorem squeeze_filter (hu : C.alnum '_' = false) (p : Bool) (cs : Str) :
    (squeeze C p cs).filter C.alnum = cs.filter C.alnum := by
  induction cs generalizing p with
  | nil => rfl
  | cons c cs ih =>
    rw [squeeze]
    split
    · cases p <;> simp [List.filter_cons, ih, hu]
    · rename_i h
      have : C.alnum c = false := by
        simp [keepable] at h; exact h.1
      simp [this, ih]

theorem squeeze_keepable (p : Bool) (cs : Str) : ∀ d ∈ squeeze C p cs, keepable C d := by
  induction cs generalizing p with
  | nil => simp [squeeze]
  | cons c cs ih =>
    rw [squeeze]
    split
    · rename_i h
      intro d hd
      cases p
      · simp at hd
        rcases hd with rfl | hd
        · exact h
        · exact ih _ d hd
      · simp at hd
        rcases hd with rfl | rfl | hd
        · simp [keepable]
        · exact h
        · exact ih _ d hd
    · exact ih _

theorem dropWhile_filter (s : Str) :
    (s.dropWhile (fun c => !C.alnum c)).filter C.alnum = s.filter C.alnum := by
  induction s with
  | nil => rfl
  | cons c cs ih =>
    by_cases h : C.alnum c <;> simp [h, ih]

theorem dropWhile_head {s : Str} {c : Char} {cs : Str}
    (h : s.dropWhile (fun c => !C.alnum c) = c :: cs) : C.alnum c = true := by
  have := List.head?_dropWhile_not (fun c => !C.alnum c) s
  rw [h] at this
  simpa using this

theorem dropWhile_nil {s : Str} (h : s.dropWhile (fun c => !C.alnum c) = []) :
    ∀ c ∈ s, C.alnum c = false := by
  induction s with
  | nil => simp
  | cons c cs ih =>
    by_cases hc : C.alnum c
    · simp [hc] at h
    · simp [hc] at h
      intro d hd
      rcases List.mem_cons.1 hd with rfl | hd
      · simpa using hc
      · exact ih (by simpa using h) d hd

theorem normalized_filter (hu : C.alnum '_' = false) (s : Str) :
    (normalized C s).filter C.alnum = s.filter C.alnum := by
  rw [← dropWhile_filter s]
  unfold normalized
  split
  · rename_i h; simp [h, hu]
  · rename_i c cs h
    rw [h]
    have : C.alnum c = true := dropWhile_head h
    by_cases hn : C.numeric c <;>
      simp [hn, this, squeeze_filter hu, trimLast_filter, hu]

/-- Shape of the result: `_` alone, or an optional protecting `_`, a letter or digit, then keepables. -/
theorem normalized_shape (s : Str) :
    (normalized C s = ['_'] ∧ ∀ c ∈ s, C.alnum c = false) ∨
    ∃ c cs, C.alnum c = true ∧ (∀ d ∈ cs, keepable C d) ∧
      (∃ cs', s.dropWhile (fun c => !C.alnum c) = c :: cs' ∧ cs = squeeze C false (trimLast C cs')) ∧
      normalized C s = (if C.numeric c then ['_'] else []) ++ c :: cs := by
  unfold normalized
  split
  · rename_i h
    left
    refine ⟨rfl, ?_⟩
    exact dropWhile_nil h
  · rename_i c cs h
    right
    exact ⟨c, _, dropWhile_head h, squeeze_keepable _ _, ⟨cs, h, rfl⟩, rfl⟩

theorem mem_trimLast {c : Char} {cs : Str} (h : c ∈ trimLast C cs) : c ∈ cs := by
  fun_induction trimLast C cs with
  | case1 => exact h
  | case2 l _ => exact h
  | case3 l _ => simp at h
  | case4 a d cs ih =>
    rcases List.mem_cons.1 h with h | h
    · exact List.mem_cons.2 (Or.inl h)
    · exact List.mem_cons_of_mem _ (ih h)

theorem hasDouble_cons {c : Char} {cs : Str} :
    HasDoubleUnderscore (c :: cs) ↔ (c = '_' ∧ ∃ t, cs = '_' :: t) ∨ HasDoubleUnderscore cs := by
  constructor
  · rintro ⟨a, b, h⟩
    cases a with
    | nil => simp at h; exact Or.inl ⟨h.1, b, h.2⟩
    | cons x a => simp at h; exact Or.inr ⟨a, b, h.2⟩
  · rintro (⟨rfl, t, rfl⟩ | ⟨a, b, rfl⟩)
    · exact ⟨[], t, rfl⟩
    · exact ⟨c :: a, b, rfl⟩

theorem not_hasDouble_nil : ¬ HasDoubleUnderscore [] := by
  rintro ⟨a, b, h⟩; simp at h

theorem squeeze_noDouble (p : Bool) (cs : Str) (h : '_' ∉ cs) :
    ¬ HasDoubleUnderscore (squeeze C p cs) ∧ (p = false → ∀ t, squeeze C p cs = '_' :: t →
      ∃ c cs', cs = c :: cs' ∧ keepable C c = false) := by
  induction cs generalizing p with
  | nil => simp [squeeze, not_hasDouble_nil]
  | cons c cs ih =>
    have hc : c ≠ '_' := by intro e; subst e; simp at h
    have hcs : '_' ∉ cs := by intro e; exact h (List.mem_cons_of_mem _ e)
    rw [squeeze]
    split
    · rename_i hk
      have ih' := ih false hcs
      cases p
      · simp only [Bool.false_eq_true, if_false, List.nil_append, hasDouble_cons, hc, false_and, false_or]
        exact ⟨ih'.1, by simp [hc]⟩
      · simp only [if_true, List.singleton_append, hasDouble_cons]
        refine ⟨?_, by simp⟩
        rintro (⟨-, t, ht⟩ | ⟨h, -⟩ | h)
        · simp at ht; exact hc ht.1
        · exact hc h
        · exact ih'.1 h
    · rename_i hk
      refine ⟨(ih true hcs).1, ?_⟩
      intro _ t _
      exact ⟨c, cs, rfl, by simpa using hk⟩

theorem squeeze_id {cs : Str} (h : ∀ c ∈ cs, keepable C c) : squeeze C false cs = cs := by
  induction cs with
  | nil => rfl
  | cons c cs ih =>
    rw [squeeze, if_pos (h c (by simp))]
    simp [ih (fun d hd => h d (List.mem_cons_of_mem _ hd))]

theorem trimLast_id {cs : Str} (h : ∀ l, cs.getLast? = some l → C.alnum l = true) :
    trimLast C cs = cs := by
  fun_induction trimLast C cs with
  | case1 => rfl
  | case2 => rfl
  | case3 l h' => simp at h; simp [h] at h'
  | case4 c d cs ih =>
    rw [ih]
    intro l hl; apply h; simpa using hl

theorem trimLast_cases (cs : Str) :
    (trimLast C cs = cs ∧ ∀ l, cs.getLast? = some l → C.alnum l = true) ∨
    ∃ l, C.alnum l = false ∧ cs = trimLast C cs ++ [l] := by
  fun_induction trimLast C cs with
  | case1 => simp
  | case2 l h => left; simp [h]
  | case3 l h => right; exact ⟨l, by simpa using h, rfl⟩
  | case4 c d cs ih =>
    rcases ih with ⟨h1, h2⟩ | ⟨l, h1, h2⟩
    · left
      refine ⟨by rw [h1], ?_⟩
      intro l hl; apply h2; simpa using hl
    · right
      exact ⟨l, h1, by rw [List.cons_append, ← h2]⟩

theorem squeeze_last_underscore (p : Bool) (cs : Str)
    (h : (squeeze C p cs).getLast? = some '_') :
    ∃ a b, cs = a ++ '_' :: b ∧ ∀ d ∈ b, keepable C d = false := by
  induction cs generalizing p with
  | nil => simp [squeeze] at h
  | cons c cs ih =>
    rw [squeeze] at h
    split at h
    · rename_i hk
      by_cases he : squeeze C false cs = []
      · have hc : c = '_' := by
          cases p <;> simp [he] at h <;> exact h
        subst hc
        refine ⟨[], cs, rfl, ?_⟩
        have : ∀ (p : Bool) (cs : Str), squeeze C p cs = [] → ∀ d ∈ cs, keepable C d = false := by
          intro p cs
          induction cs generalizing p with
          | nil => simp
          | cons c cs ih =>
            rw [squeeze]
            split
            · simp
            · rename_i hk
              intro h d hd
              rcases List.mem_cons.1 hd with rfl | hd
              · simpa using hk
              · exact ih _ h d hd
        exact this _ _ he
      · have : (squeeze C false cs).getLast? = some '_' := by
          rw [List.getLast?_append, List.getLast?_cons] at h
          cases hq : (squeeze C false cs).getLast? with
          | none => simp at hq; exact absurd hq he
          | some x => rw [hq] at h; simpa using h
        obtain ⟨a, b, rfl, hb⟩ := ih _ this
        exact ⟨c :: a, b, rfl, hb⟩
    · obtain ⟨a, b, rfl, hb⟩ := ih _ h
      exact ⟨c :: a, b, rfl, hb⟩

theorem dropWhile_suffix (s : Str) : ∃ p, s = p ++ s.dropWhile (fun c => !C.alnum c) := by
  exact ⟨_, (List.takeWhile_append_dropWhile).symm⟩

/-- Normalizing a text that is already of the shape of a normal form. -/
theorem normalized_of_shape {c : Char} {cs : Str} (hu : C.alnum '_' = false)
    (hc : C.alnum c = true) (hcs : ∀ d ∈ cs, keepable C d) :
    normalized C ((if C.numeric c then ['_'] else []) ++ c :: cs) =
      (if C.numeric c then ['_'] else []) ++ c :: trimLast C cs := by
  have hd : ((if C.numeric c then ['_'] else []) ++ c :: cs).dropWhile (fun c => !C.alnum c)
      = c :: cs := by
    by_cases hn : C.numeric c <;> simp [hn, hu, hc]
  unfold normalized
  rw [hd]
  simp only
  rw [squeeze_id (fun d hd => hcs d (mem_trimLast hd))]

end Verif
