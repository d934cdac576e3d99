import Verif.Proofs.Builtins
import Verif.Proofs.Decimal
/-! # Lemmas about the built-in functions -/

namespace Verif

theorem allOf_map {α : Type} {sel : VKind → Option α} {mk : α → VKind} (h : ∀ a, sel (mk a) = some a) (l : List α) :
    allOf sel (l.map mk) = .ok l := by
  induction l with
  | nil => rfl
  | cons a l ih => simp [allOf, h, ih, Res.map]

theorem allOf_ok {α : Type} {sel : VKind → Option α} {vs : List VKind} {l : List α} (h : allOf sel vs = .ok l) :
    vs.map sel = l.map some := by
  induction vs generalizing l with
  | nil => cases h; rfl
  | cons v vs ih =>
    simp only [allOf] at h
    split at h
    · rename_i a ha
      cases hr : allOf sel vs with
      | ok l' => rw [hr] at h; cases h; simp [ha, ih hr]
      | err e => rw [hr] at h; cases h
      | panic => rw [hr] at h; cases h
    · cases h

theorem allOf_not_err {α : Type} {sel : VKind → Option α} {vs : List VKind} {e : Err} : allOf sel vs ≠ .err e := by
  induction vs with
  | nil => simp [allOf]
  | cons v vs ih =>
    simp only [allOf]
    split
    · cases hr : allOf sel vs <;> simp_all [Res.map]
    · simp

theorem allOf_ok_of {α : Type} {sel : VKind → Option α} {vs : List VKind} (h : ∀ v ∈ vs, (sel v).isSome = true) :
    ∃ l, allOf sel vs = .ok l := by
  induction vs with
  | nil => exact ⟨_, rfl⟩
  | cons v vs ih =>
    obtain ⟨l, hl⟩ := ih (fun w hw => h w (by simp [hw]))
    obtain ⟨a, ha⟩ := Option.isSome_iff_exists.1 (h v (by simp))
    exact ⟨a :: l, by simp [allOf, ha, hl, Res.map]⟩

/-- `newIdent` in terms of results. -/
theorem newIdent_ok {E : Ext} {s : Str} {w : VKind} : newIdent E s = .ok w ↔ E.lexIdent s = true ∧ w = .ident s := by
  unfold newIdent
  split
  · rename_i h
    simp only [h, true_and, Res.ok.injEq]
    exact eq_comm
  · rename_i h
    simp [h]

theorem lexIdent_append {C : CharClass} (hu : C.xidContinue '_' = true)
    (hs : ∀ c, C.xidStart c = true → C.xidContinue c = true) {a b : Str} (ha : C.lexIdent a = true)
    (hb : b = [] ∨ C.lexIdent b = true) : C.lexIdent (a ++ b) = true := by
  cases a with
  | nil => simp [CharClass.lexIdent] at ha
  | cons c cs =>
    simp only [CharClass.lexIdent, Bool.and_eq_true, List.cons_append, List.all_append] at ha ⊢
    refine ⟨ha.1, ha.2, ?_⟩
    rcases hb with rfl | hb
    · rfl
    · cases b with
      | nil => rfl
      | cons d ds =>
        simp only [CharClass.lexIdent, Bool.and_eq_true, Bool.or_eq_true, beq_iff_eq] at hb
        simp only [List.all_cons, Bool.and_eq_true]
        refine ⟨?_, hb.2⟩
        rcases hb.1 with rfl | h
        · exact hu
        · exact hs _ h

theorem lexIdent_flatten {C : CharClass} (hu : C.xidContinue '_' = true)
    (hs : ∀ c, C.xidStart c = true → C.xidContinue c = true) {ss : List Str} (hne : ss ≠ [])
    (h : ∀ s ∈ ss, C.lexIdent s = true) : C.lexIdent ss.flatten = true := by
  induction ss with
  | nil => exact absurd rfl hne
  | cons a ss ih =>
    rw [List.flatten_cons]
    apply lexIdent_append hu hs (h a (by simp))
    by_cases he : ss = []
    · subst he; exact Or.inl rfl
    · exact Or.inr (ih he (fun s hs => h s (by simp [hs])))

theorem hash64_lt (seed : Nat) (s : Str) : hash64 seed s < 2 ^ 64 := UInt64.toNat_lt _

theorem lexIdent_hash {C : CharClass} (hu : C.xidContinue '_' = true)
    (hd : ∀ c, c.isDigit = true → C.xidContinue c = true) (seed : Nat) (s : Str) :
    C.lexIdent (S "__" ++ hashStr seed s) = true := by
  have : S "__" ++ hashStr seed s = '_' :: '_' :: hashStr seed s := rfl
  rw [this]
  simp only [CharClass.lexIdent, beq_self_eq_true, Bool.true_or, Bool.true_and, List.all_cons, hu, List.all_eq_true]
  exact fun c hc => hd c (decimal_digits c hc)

theorem newLitInt_digits {s : Str} (hne : s ≠ []) (hd : ∀ c ∈ s, c.isDigit = true) :
    newLitInt s = .ok ⟨false, s, ofDecimal s⟩ := by
  unfold newLitInt
  split
  rename_i neg ds he
  split at he
  · rename_i t
    have := hd '-' (by simp)
    exact absurd this (by decide)
  · cases he
    have : s.all Char.isDigit = true := List.all_eq_true.2 hd
    have h2 : s.isEmpty = false := by cases s <;> simp_all
    simp [this, h2]

end Verif
