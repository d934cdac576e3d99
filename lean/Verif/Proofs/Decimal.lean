import Verif.Model.Value
/-! # Decimal digits -/

namespace Verif

theorem ofDecimal_eq (s : Str) : ofDecimal s = Nat.ofDigitChars 10 s 0 := by
  rw [Nat.ofDigitChars_eq_foldl]; rfl

theorem ofDecimal_decimal (n : Nat) : ofDecimal (decimal n) = n := by
  rw [ofDecimal_eq]; exact Nat.ofDigitChars_ten_toDigits

theorem decimal_digits {n : Nat} : ∀ c ∈ decimal n, c.isDigit = true := fun _ h =>
  Nat.isDigit_of_mem_toDigits (by omega) (by omega) h

theorem decimal_ne_nil (n : Nat) : decimal n ≠ [] := Nat.toDigits_ne_nil

theorem ofDecimal_append (a : Str) (c : Char) :
    ofDecimal (a ++ [c]) = 10 * ofDecimal a + (c.toNat - '0'.toNat) := by
  simp [ofDecimal, List.foldl_append]

theorem isDigit_range {c : Char} (h : c.isDigit = true) : 48 ≤ c.toNat ∧ c.toNat ≤ 57 := by
  simp only [Char.isDigit, Bool.and_eq_true, decide_eq_true_eq, ge_iff_le, UInt32.le_iff_toNat_le] at h
  exact h

theorem digitChar_of_isDigit {c : Char} (h : c.isDigit = true) : Nat.digitChar (c.toNat - 48) = c := by
  have ⟨h1, h2⟩ := isDigit_range h
  have : c = Char.ofNat c.toNat := (Char.ofNat_toNat c).symm
  generalize c.toNat = n at *
  subst this
  have : n = 48 ∨ n = 49 ∨ n = 50 ∨ n = 51 ∨ n = 52 ∨ n = 53 ∨ n = 54 ∨ n = 55 ∨ n = 56 ∨ n = 57 := by omega
  rcases this with rfl | rfl | rfl | rfl | rfl | rfl | rfl | rfl | rfl | rfl <;> decide

theorem decimal_ofDecimal_aux (n : Nat) : ∀ s : Str, s.length = n → s ≠ [] → (∀ c ∈ s, c.isDigit = true) →
    s.head? ≠ some '0' → 0 < ofDecimal s ∧ decimal (ofDecimal s) = s := by
  induction n with
  | zero => intro s hl h; exact absurd (List.length_eq_zero_iff.1 hl) h
  | succ n ih =>
    intro s hl hne hd h0
    obtain ⟨a, c, rfl⟩ : ∃ a c, s = a ++ [c] := ⟨_, _, (List.dropLast_concat_getLast hne).symm⟩
    have hc := hd c (by simp)
    have hr := isDigit_range hc
    have hz : '0'.toNat = 48 := rfl
    rw [ofDecimal_append, hz]
    cases a with
    | nil =>
      simp only [List.nil_append, List.head?_cons, ne_eq, Option.some.injEq] at h0
      have hne : c.toNat ≠ 48 := by
        intro h; apply h0
        have := digitChar_of_isDigit hc
        rw [h] at this; rw [← this]; decide
      have he : ofDecimal [] = 0 := rfl
      rw [he]
      refine ⟨by omega, ?_⟩
      rw [decimal, Nat.mul_zero, Nat.zero_add, Nat.toDigits_of_lt_base (by omega), digitChar_of_isDigit hc]; rfl
    | cons b bs =>
      obtain ⟨hp, he⟩ := ih (b :: bs) (by simp at hl ⊢; omega) (by simp)
        (fun d h => hd d (by simp at h ⊢; grind)) (by simpa using h0)
      refine ⟨by omega, ?_⟩
      rw [decimal, ← Nat.toDigits_append_toDigits (by omega) hp (by omega),
        Nat.toDigits_of_lt_base (n := c.toNat - 48) (by omega), digitChar_of_isDigit hc]
      rw [decimal] at he; rw [he]

/-- Digits without a leading zero are the digits of their value. -/
theorem decimal_ofDecimal (s : Str) (h : s ≠ []) (hd : ∀ c ∈ s, c.isDigit = true) (h0 : s.head? ≠ some '0') :
    0 < ofDecimal s ∧ decimal (ofDecimal s) = s := decimal_ofDecimal_aux _ s rfl h hd h0

end Verif
