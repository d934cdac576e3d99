import Verif.Proofs.Normalize
/-!
# Properties C01–C05: `normalize`

`C : CharClass` is the table of Unicode character classes; `hu : C.alnum '_' = false` is the fact that
`'_'.is_alphanumeric()` is false.  Examples use `CharClass.ascii`.
-/

namespace Verif.Props
open Verif Spec

variable {C : CharClass}

/-- **C01** (partial: for texts whose letters/digits are identifier characters; see `C01_false`).
`normalize` yields a lexically valid identifier. -/
theorem C01_normalize_identifier_partial (hu : C.alnum '_' = false)
    (h_ : C.xidContinue '_' = true) (s : Str)
    (hs : ∀ c ∈ s, C.alnum c = true → C.xidContinue c = true ∧ (C.numeric c = false → C.xidStart c = true)) :
    ValidIdent C (normalize C s) := by
  rw [normalize_eq hu]
  rcases normalized_shape (C := C) s with ⟨h, -⟩ | ⟨c, cs, hc, hcs, ⟨cs', hd, hcs'⟩, h⟩
  · exact ⟨'_', [], h, Or.inl rfl, by simp⟩
  · obtain ⟨p, hp⟩ := dropWhile_suffix (C := C) s
    rw [hd] at hp
    have hmem : ∀ d, (d = c ∨ d ∈ cs') → d ∈ s := by
      intro d hd; rw [hp]; grind
    have hfil : ∀ d ∈ cs, C.alnum d = true → d ∈ cs' := by
      intro d hd ha
      have : d ∈ cs.filter C.alnum := List.mem_filter.2 ⟨hd, ha⟩
      rw [hcs', squeeze_filter hu, trimLast_filter] at this
      exact (List.mem_filter.1 this).1
    have hall : ∀ d ∈ cs, C.xidContinue d = true := by
      intro d hd
      have hk := hcs d hd
      simp only [keepable, Bool.or_eq_true, beq_iff_eq] at hk
      rcases hk with hk | rfl
      · exact (hs d (hmem d (Or.inr (hfil d hd hk))) hk).1
      · exact h_
    by_cases hn : C.numeric c
    · refine ⟨'_', c :: cs, by simp [h, hn], Or.inl rfl, ?_⟩
      intro d hd'
      rcases List.mem_cons.1 hd' with rfl | hd'
      · exact (hs d (hmem d (Or.inl rfl)) hc).1
      · exact hall d hd'
    · refine ⟨c, cs, by simp [h, hn], Or.inr ?_, hall⟩
      exact (hs c (hmem c (Or.inl rfl)) hc).2 (by simpa using hn)

/-- C01 for ASCII inputs, for any tables that are right on ASCII: no further hypothesis. -/
theorem C01_normalize_identifier_ascii_partial
    (hA : ∀ c : Char, c.toNat < 128 → C.alphabetic c = c.isAlpha ∧ C.numeric c = c.isDigit ∧
      C.xidStart c = c.isAlpha ∧ C.xidContinue c = (c.isAlphanum || c == '_'))
    (s : Str) (hs : ∀ c ∈ s, c.toNat < 128) : ValidIdent C (normalize C s) := by
  have h_ := hA '_' (by decide)
  refine C01_normalize_identifier_partial ?_ ?_ s ?_
  · simp only [CharClass.alnum, h_.1, h_.2.1]; decide
  · rw [h_.2.2.2]; decide
  · intro c hc ha
    have h := hA c (hs c hc)
    simp only [CharClass.alnum, h.1, h.2.1] at ha
    rw [h.2.2.2, h.2.1, h.2.2.1]
    simp only [Char.isAlphanum, Bool.or_eq_true] at *
    refine ⟨Or.inl ha, fun hn => ?_⟩
    rcases ha with ha | ha
    · exact ha
    · simp [ha] at hn

/-- **C01 is false in general**: `²` is alphanumeric for Rust but not an identifier character. -/
theorem C01_normalize_identifier_false :
    ∃ (C : CharClass), C.Lawful ∧ ∃ s, ¬ ValidIdent C (normalize C s) := by
  refine ⟨CharClass.ascii, CharClass.ascii_lawful, S "x²", ?_⟩
  have : normalize CharClass.ascii (S "x²") = S "x²" := by decide
  rw [this]
  rintro ⟨c, cs, h, -, h2⟩
  have := h2 '²' (by simp [S] at h; rw [← h.2]; simp)
  revert this; decide

-- the hypotheses of C01 hold for a non-trivial text
example : (∀ c ∈ S "&'static 7str", c.toNat < 128) ∧
    normalize CharClass.ascii (S "&'static 7str") = S "static_7str" := by decide
example : ∀ c ∈ S "9 lives", CharClass.ascii.alnum c = true →
    CharClass.ascii.xidContinue c = true ∧
      (CharClass.ascii.numeric c = false → CharClass.ascii.xidStart c = true) := by decide
example : normalize CharClass.ascii (S "9 lives") = S "_9_lives" := by decide

/-- **C02**: the letters and digits of the output are exactly those of the input, in order, and every other
output character is `_`. -/
theorem C02_normalize_preserves_alnum (hu : C.alnum '_' = false) (s : Str) :
    (normalize C s).filter C.alnum = s.filter C.alnum ∧
    ∀ c ∈ normalize C s, C.alnum c = true ∨ c = '_' := by
  rw [normalize_eq hu]
  refine ⟨normalized_filter hu s, ?_⟩
  intro d hd
  rcases normalized_shape (C := C) s with ⟨h, -⟩ | ⟨c, cs, hc, hcs, -, h⟩
  · rw [h] at hd; simp at hd; exact Or.inr hd
  · rw [h] at hd
    have : d = '_' ∨ d = c ∨ d ∈ cs := by
      by_cases hn : C.numeric c <;> simp [hn] at hd <;> grind
    rcases this with h | rfl | h
    · exact Or.inr h
    · exact Or.inl hc
    · have := hcs d h
      simpa [keepable] using this

example : (normalize CharClass.ascii (S "Result< T, E2 >")).filter CharClass.ascii.alnum = S "ResultTE2" := by
  decide

/-- **C03** (first part): no underscore in, no two adjacent underscores out. -/
theorem C03_normalize_no_double_underscore (hu : C.alnum '_' = false) (s : Str) (hs : '_' ∉ s) :
    ¬ HasDoubleUnderscore (normalize C s) := by
  rw [normalize_eq hu]
  rcases normalized_shape (C := C) s with ⟨h, -⟩ | ⟨c, cs, hc, -, ⟨cs', hd, hcs'⟩, h⟩
  · rw [h, hasDouble_cons]; simp [not_hasDouble_nil]
  · have hc_ : c ≠ '_' := by intro e; subst e; simp [hu] at hc
    obtain ⟨p, hp⟩ := dropWhile_suffix (C := C) s
    rw [hd] at hp
    have hcs'' : '_' ∉ trimLast C cs' := by
      intro hm; apply hs; rw [hp]; simp [mem_trimLast hm]
    have := (squeeze_noDouble (C := C) false _ hcs'').1
    rw [← hcs'] at this
    rw [h]
    by_cases hn : C.numeric c
    · simp only [hn, if_true, List.singleton_append, hasDouble_cons]
      rintro (⟨-, t, ht⟩ | ⟨h, -⟩ | h)
      · simp at ht; exact hc_ ht.1
      · exact hc_ h
      · exact this h
    · simp only [hn, Bool.false_eq_true, if_false, List.nil_append, hasDouble_cons, hc_, false_and, false_or]
      exact this

/-- **C03** (second part): a text made of identifier characters that starts with a non-digit letter and
does not end in an underscore is returned unchanged (interior underscores are preserved). -/
theorem C03_normalize_fixes_identifiers (hu : C.alnum '_' = false) (c : Char) (cs : Str)
    (hc : C.alnum c = true) (hn : C.numeric c = false)
    (hcs : ∀ d ∈ cs, C.alnum d = true ∨ d = '_') (hl : (c :: cs).getLast? ≠ some '_') :
    normalize C (c :: cs) = c :: cs := by
  rw [normalize_eq hu]
  have hk : ∀ d ∈ cs, keepable C d := by
    intro d hd; simpa [keepable] using hcs d hd
  have h := normalized_of_shape hu hc hk
  simp only [hn, Bool.false_eq_true, if_false, List.nil_append] at h
  rw [h, trimLast_id]
  intro l hl'
  have hm : l ∈ cs := List.mem_of_getLast? hl'
  rcases hcs l hm with h | rfl
  · exact h
  · exfalso; apply hl; rw [List.getLast?_cons, hl']; rfl

example : '_' ∉ S "a!@#b$%^c" ∧ normalize CharClass.ascii (S "a!@#b$%^c") = S "a_b_c" := by decide
example : normalize CharClass.ascii (S "a__b___c") = S "a__b___c" := by decide

/-- **C04** (partial, leading side): the result starts with `_` only if it is `_` alone or the `_` protects
a digit. -/
theorem C04_normalize_leading_partial (hu : C.alnum '_' = false) (s t : Str)
    (h : normalize C s = '_' :: t) : t = [] ∨ ∃ d t', t = d :: t' ∧ C.numeric d = true := by
  rw [normalize_eq hu] at h
  rcases normalized_shape (C := C) s with ⟨h', -⟩ | ⟨c, cs, hc, -, -, h'⟩
  · rw [h'] at h; simp at h; exact Or.inl h
  · have hc_ : c ≠ '_' := by intro e; subst e; simp [hu] at hc
    rw [h'] at h
    by_cases hn : C.numeric c
    · simp [hn] at h; exact Or.inr ⟨c, cs, h.symm, hn⟩
    · simp [hn] at h; exact absurd h.1 hc_

/-- **C04** (partial, trailing side): the result ends with `_` (and is not `_` alone) only if that
underscore is in the input and is followed there by special characters and one last
non-alphanumeric character; in particular generated underscores are always stripped. -/
theorem C04_normalize_trailing_partial (hu : C.alnum '_' = false) (s : Str)
    (hne : normalize C s ≠ ['_']) (h : (normalize C s).getLast? = some '_') :
    ∃ a b l, s = a ++ '_' :: (b ++ [l]) ∧ C.alnum l = false ∧
      ∀ d ∈ b, C.alnum d = false ∧ d ≠ '_' := by
  rw [normalize_eq hu] at h hne
  rcases normalized_shape (C := C) s with ⟨h', -⟩ | ⟨c, cs, hc, -, ⟨cs', hd, hcs'⟩, h'⟩
  · exact absurd h' hne
  · have hc_ : c ≠ '_' := by intro e; subst e; simp [hu] at hc
    obtain ⟨p, hp⟩ := dropWhile_suffix (C := C) s
    rw [hd] at hp
    rw [h', List.getLast?_append, List.getLast?_cons] at h
    have hlast : cs.getLast? = some '_' := by
      cases hq : cs.getLast? with
      | none => rw [hq] at h; simp at h; exact absurd h hc_
      | some x => rw [hq] at h; simpa using h
    rw [hcs'] at hlast
    obtain ⟨a, b, hab, hb⟩ := squeeze_last_underscore _ _ hlast
    rcases trimLast_cases (C := C) cs' with ⟨h1, h2⟩ | ⟨l, h1, h2⟩
    · exfalso
      rw [h1] at hab
      have hx : ∃ x, cs'.getLast? = some x ∧ (x = '_' ∨ x ∈ b) := by
        rw [hab, List.getLast?_append, List.getLast?_cons]
        cases hq : b.getLast? with
        | none => simp
        | some y => simp; exact Or.inr (List.mem_of_getLast? hq)
      obtain ⟨x, hx, hx'⟩ := hx
      have := h2 x hx
      rcases hx' with rfl | hx'
      · simp [hu] at this
      · have := hb x hx'; simp [keepable] at this; simp_all
    · refine ⟨p ++ c :: a, b, l, ?_, h1, ?_⟩
      · rw [hp, h2, hab]; simp
      · intro d hd; have := hb d hd; simpa [keepable] using this

/-- **C04 is false in general**: only one trailing original underscore is stripped. -/
theorem C04_normalize_trailing_false :
    normalize CharClass.ascii (S "a__") = S "a_" ∧ normalize CharClass.ascii (S "a_$") = S "a_" := by
  decide

example : normalize CharClass.ascii (S "__hello_$$") = S "hello_" := by decide
example : normalize CharClass.ascii (S "__1") = S "_1" := by decide

/-- **C05** (partial: exactly the texts whose normal form does not end in a stray underscore).
`normalize` is idempotent at `s` if and only if its result is `_` or does not end with `_`. -/
theorem C05_normalize_idempotent_partial (hu : C.alnum '_' = false) (s : Str) :
    normalize C (normalize C s) = normalize C s ↔
      (normalize C s = ['_'] ∨ (normalize C s).getLast? ≠ some '_') := by
  rw [normalize_eq hu, normalize_eq hu]
  rcases normalized_shape (C := C) s with ⟨h', -⟩ | ⟨c, cs, hc, hcs, -, h'⟩
  · rw [h']
    simp only [true_or, iff_true]
    simp [normalized, hu]
  · have hc_ : c ≠ '_' := by intro e; subst e; simp [hu] at hc
    have hne : normalized C s ≠ ['_'] := by
      rw [h']
      by_cases hn : C.numeric c <;> simp [hn, hc_]
    have hlast : (normalized C s).getLast? = some (cs.getLast?.getD c) := by
      rw [h', List.getLast?_append, List.getLast?_cons]; rfl
    simp only [hne, false_or]
    rw [hlast, h', normalized_of_shape hu hc hcs]
    rw [List.append_cancel_left_eq, List.cons.injEq]
    simp only [true_and, ne_eq, Option.some.injEq]
    rcases trimLast_cases (C := C) cs with ⟨h1, h2⟩ | ⟨l, h1, h2⟩
    · rw [h1]
      simp only [true_iff]
      cases hq : cs.getLast? with
      | none => simpa using hc_
      | some x =>
        intro e; simp at e; subst e
        have := h2 _ hq; simp [hu] at this
    · have hq : cs.getLast? = some l := by rw [h2]; simp
      have hl : l = '_' := by
        have := hcs l (List.mem_of_getLast? hq)
        simpa [keepable, h1] using this
      rw [hq]
      simp only [Option.getD_some, hl, not_true_eq_false, iff_false]
      intro e
      have := congrArg List.length h2
      rw [e] at this; simp at this

/-- **C05 is false in general**. -/
theorem C05_normalize_idempotent_false :
    normalize CharClass.ascii (normalize CharClass.ascii (S "a__")) ≠ normalize CharClass.ascii (S "a__") := by
  decide

example : normalize CharClass.ascii (S "$1 + b") = S "_1_b" ∧
    normalize CharClass.ascii (S "_1_b") = S "_1_b" := by decide

end Verif.Props
