import Verif.Spec.Syntax
/-! # The first token, and what comes after it -/

namespace Verif
open Spec

theorem Spec.Blank.opened {ts : Toks} (h : Blank ts) : opened ts = [] := by
  induction h with
  | nil => rfl
  | cons _ _ ih1 ih2 => simp [Verif.opened, Tok.opened, ih1, ih2]

mutual
theorem blank_of_openedT (t : Tok) (h : t.opened = []) : Blank [t] := by
  match t with
  | .group .none c =>
    rw [Tok.opened] at h
    exact .cons (blank_of_opened c h) .nil
  | .group .paren c | .group .brace c | .group .bracket c | .ident _ | .punct _ _ | .lit _ => simp [Tok.opened] at h
theorem blank_of_opened (ts : Toks) (h : opened ts = []) : Blank ts := by
  match ts with
  | [] => exact .nil
  | t :: ts =>
    rw [opened] at h
    split at h
    · rename_i ht
      cases blank_of_openedT t ht with
      | cons hc _ => exact .cons hc (blank_of_opened ts h)
    · simp at h
end

theorem notNone_opened {t : Tok} (h : ∀ c, t ≠ .group .none c) : t.opened = [t] := by
  match t with
  | .group .none c => exact (h c rfl).elim
  | .group .paren c | .group .brace c | .group .bracket c | .ident _ | .punct _ _ | .lit _ => simp [Tok.opened]

theorem opened_cons {t : Tok} {ts : Toks} (h : ∀ c, t ≠ .group .none c) : opened (t :: ts) = t :: ts := by
  simp [opened, notNone_opened h]

theorem Spec.First.opened {ts : Toks} {t : Tok} {r : Toks} (h : First ts t r) : opened ts = t :: r := by
  induction h with
  | here h => exact opened_cons h
  | inside _ ih => simp [Verif.opened, Tok.opened, ih]
  | skip hc _ ih => simp [Verif.opened, Tok.opened, hc.opened, ih]

mutual
theorem first_of_openedT (t : Tok) (u : Tok) (r : Toks) (h : t.opened = u :: r) : First [t] u r := by
  match t with
  | .group .none c =>
    rw [Tok.opened] at h
    simpa using First.inside (rest := []) (first_of_opened c u r h)
  | .group .paren c | .group .brace c | .group .bracket c | .ident _ | .punct _ _ | .lit _ =>
    simp [Tok.opened] at h
    obtain ⟨rfl, rfl⟩ := h
    exact .here (by simp)
theorem first_of_opened (ts : Toks) (u : Tok) (r : Toks) (h : opened ts = u :: r) : First ts u r := by
  match ts with
  | [] => simp [opened] at h
  | t :: ts =>
    rw [opened] at h
    split at h
    · rename_i ht
      cases blank_of_openedT t ht with
      | cons hc _ => exact .skip hc (first_of_opened ts u r h)
    · rename_i v vs ht
      simp at h
      obtain ⟨rfl, rfl⟩ := h
      have := first_of_openedT t v vs ht
      cases this with
      | here h => exact .here h
      | inside h => simpa using First.inside (rest := ts) h
      | skip _ h => cases h
end

theorem first_iff {ts : Toks} {t : Tok} {r : Toks} : First ts t r ↔ opened ts = t :: r := ⟨fun h => h.opened, first_of_opened ts t r⟩

theorem Spec.First.unique {ts : Toks} {t u : Tok} {r r' : Toks} (h : First ts t r) (h' : First ts u r') : u = t ∧ r' = r := by
  rw [first_iff] at h h'
  rw [h] at h'
  simpa [eq_comm] using h'

/-- A token other than a group without delimiters comes first itself. -/
theorem first_cons {t u : Tok} {ts r : Toks} (h : ∀ c, t ≠ .group .none c) : First (t :: ts) u r ↔ t = u ∧ ts = r := by
  rw [first_iff, opened_cons h]
  simp

@[simp] theorem first_nil {u : Tok} {r : Toks} : ¬ First [] u r := by intro h; cases h
@[simp] theorem first_ident {n : Str} {u : Tok} {ts r : Toks} : First (.ident n :: ts) u r ↔ .ident n = u ∧ ts = r := first_cons (by simp)
@[simp] theorem first_punct {c : Char} {j : Bool} {u : Tok} {ts r : Toks} : First (.punct c j :: ts) u r ↔ .punct c j = u ∧ ts = r := first_cons (by simp)
@[simp] theorem first_lit {l : Lit} {u : Tok} {ts r : Toks} : First (.lit l :: ts) u r ↔ .lit l = u ∧ ts = r := first_cons (by simp)
@[simp] theorem first_paren {c : Toks} {u : Tok} {ts r : Toks} : First (.group .paren c :: ts) u r ↔ .group .paren c = u ∧ ts = r := first_cons (by simp)
@[simp] theorem first_brace {c : Toks} {u : Tok} {ts r : Toks} : First (.group .brace c :: ts) u r ↔ .group .brace c = u ∧ ts = r := first_cons (by simp)
@[simp] theorem first_bracket {c : Toks} {u : Tok} {ts r : Toks} : First (.group .bracket c :: ts) u r ↔ .group .bracket c = u ∧ ts = r :=
  first_cons (by simp)

/-! ## Moving forward -/

/-- `After ts r`: `r` is what is left of `ts` after some tokens, groups without delimiters being entered. -/
inductive After : Toks → Toks → Prop
  | refl (ts : Toks) : After ts ts
  | tail {t : Tok} {ts r : Toks} (h : After ts r) : After (t :: ts) r
  | enter {c ts r : Toks} (h : After (c ++ ts) r) : After (.group .none c :: ts) r

theorem After.trans {a b c : Toks} (h : After a b) (h' : After b c) : After a c := by
  induction h with
  | refl => exact h'
  | tail _ ih => exact .tail (ih h')
  | enter _ ih => exact .enter (ih h')

theorem After.of_suffix {a b : Toks} (h : b <:+ a) : After a b := by
  obtain ⟨p, rfl⟩ := h
  induction p with
  | nil => exact .refl _
  | cons t p ih => exact .tail ih

theorem After.drop (ts : Toks) (n : Nat) : After ts (ts.drop n) := .of_suffix (List.drop_suffix ..)

theorem After.cons {t : Tok} {ts : Toks} : After (t :: ts) ts := .tail (.refl _)

theorem After.of_nil {ts : Toks} : After ts [] := .of_suffix List.nil_suffix

theorem After.append {a b : Toks} (h : After a b) (c : Toks) : After (a ++ c) (b ++ c) := by
  induction h with
  | refl => exact .refl _
  | tail _ ih => exact .tail ih
  | enter _ ih => exact .enter (by simpa using ih)

theorem Spec.First.after {ts : Toks} {t : Tok} {r : Toks} (h : First ts t r) : After ts (t :: r) := by
  induction h with
  | here _ => exact .refl _
  | inside _ ih => exact .enter (by simpa using ih.append _)
  | skip _ _ ih => exact .tail ih

theorem Spec.First.after_rest {ts : Toks} {t : Tok} {r : Toks} (h : First ts t r) : After ts r := h.after.trans .cons

theorem nestL_append (a b : Toks) : nestL (a ++ b) = max (nestL a) (nestL b) := by
  induction a with
  | nil => simp [nestL]
  | cons t a ih => simp [nestL, ih]

theorem tokCount_append (a b : Toks) : tokCount (a ++ b) = tokCount a + tokCount b := by
  induction a with
  | nil => simp [tokCount]
  | cons t a ih => simp only [List.cons_append, tokCount, ih]; omega

theorem After.nest {a b : Toks} (h : After a b) : nestL b ≤ nestL a := by
  induction h with
  | refl => omega
  | tail _ ih => simp [nestL]; omega
  | enter _ ih => rw [nestL_append] at ih; simp [nestL, Tok.nest]; omega

theorem After.count {a b : Toks} (h : After a b) : tokCount b ≤ tokCount a := by
  induction h with
  | refl => omega
  | tail _ ih => simp [tokCount]; omega
  | enter _ ih => rw [tokCount_append] at ih; simp [tokCount, Tok.tokCount]; omega

theorem tokCount_pos (t : Tok) : 1 ≤ t.tokCount := by cases t <;> simp [Tok.tokCount]

theorem tokCount_cons {t : Tok} {ts : Toks} : tokCount ts + 1 ≤ tokCount (t :: ts) := by
  have := tokCount_pos t
  simp [tokCount]; omega

/-- Without macro variables, what is left is the end of the tokens. -/
theorem After.suffix {a b : Toks} (h : After a b) (hp : ∀ c, .group .none c ∉ a) : b <:+ a := by
  induction h with
  | refl => exact List.suffix_refl _
  | tail _ ih => exact (ih (fun c hc => hp c (by simp [hc]))).trans (List.suffix_cons _ _)
  | enter _ _ => exact (hp _ List.mem_cons_self).elim

/-- Moving forward takes something away. -/
theorem After.lt {a b : Toks} (h : After a b) : b = a ∨ tokCount b < tokCount a := by
  cases h with
  | refl => exact .inl rfl
  | tail h =>
    have := h.count
    have := @tokCount_cons
    exact .inr (by grind)
  | enter h =>
    have := h.count
    rw [tokCount_append] at this
    simp [tokCount, Tok.tokCount]
    omega

theorem After.eq {a b : Toks} (h : After a b) (h' : After b a) : b = a := by
  rcases h.lt with h | h
  · exact h
  · have := h'.count; omega

theorem not_after_longer {τ r : Toks} (hr : r ≠ []) : ¬ After τ (r ++ τ) := by
  intro h
  have := h.count
  rw [tokCount_append] at this
  cases r with
  | nil => exact hr rfl
  | cons t r =>
    have := tokCount_cons (t := t) (ts := r)
    omega

/-- What is left begins in the first part, or in the second one. -/
theorem After.split {x τ r : Toks} (h : After (x ++ τ) r) : (∃ r0, r = r0 ++ τ ∧ After x r0) ∨ After τ r := by
  generalize hz : x ++ τ = z at h
  induction h generalizing x with
  | refl => subst hz; exact .inl ⟨x, rfl, .refl _⟩
  | tail h ih =>
    cases x with
    | nil => simp at hz; subst hz; exact .inr (.tail h)
    | cons t x =>
      simp at hz
      obtain ⟨rfl, hz⟩ := hz
      rcases ih hz with ⟨r0, h1, h2⟩ | h1
      · exact .inl ⟨r0, h1, .tail h2⟩
      · exact .inr h1
  | enter h ih =>
    cases x with
    | nil => simp at hz; subst hz; exact .inr (.enter h)
    | cons t x =>
      simp at hz
      obtain ⟨rfl, rfl⟩ := hz
      rcases ih (x := _ ++ x) (List.append_assoc ..) with ⟨r0, h1, h2⟩ | h1
      · exact .inl ⟨r0, h1, .enter h2⟩
      · exact .inr h1

theorem After.single {t : Tok} {r : Toks} (ht : ∀ c, t ≠ .group .none c) (h : After [t] r) : r = [t] ∨ r = [] := by
  cases h with
  | refl => exact .inl rfl
  | tail h => cases h; exact .inr rfl
  | enter _ => exact (ht _ rfl).elim

/-- The last token stays the last one. -/
theorem After.snoc {u : Toks} {t : Tok} {r : Toks} (ht : ∀ c, t ≠ .group .none c) (h : After (u ++ [t]) r) (hr : r ≠ []) : ∃ u', r = u' ++ [t] := by
  rcases h.split with ⟨r0, rfl, _⟩ | h
  · exact ⟨r0, rfl⟩
  · rcases h.single ht with rfl | rfl
    · exact ⟨[], rfl⟩
    · exact (hr rfl).elim

theorem Spec.First.append {y : Toks} {t : Tok} {s : Toks} (h : First y t s) (ρ : Toks) : First (y ++ ρ) t (s ++ ρ) := by
  induction h with
  | here h => exact .here h
  | inside h _ => simpa using First.inside (rest := _ ++ ρ) h
  | skip hc _ ih => exact .skip hc ih

theorem Spec.Blank.first {y : Toks} (hy : Blank y) {ρ : Toks} {t : Tok} {s : Toks} (h : First ρ t s) : First (y ++ ρ) t s := by
  induction hy with
  | nil => exact h
  | cons hc _ _ ih => exact .skip hc ih

theorem blank_or_first (y : Toks) : Blank y ∨ ∃ t s, First y t s := by
  cases h : opened y with
  | nil => exact .inl (blank_of_opened y h)
  | cons t s => exact .inr ⟨t, s, first_iff.mpr h⟩

/-- The first token is in the first part, or there is none in it. -/
theorem first_append {y ρ : Toks} {t : Tok} {s : Toks} (h : First (y ++ ρ) t s) :
    (∃ s0, s = s0 ++ ρ ∧ First y t s0) ∨ Blank y ∧ First ρ t s := by
  rcases blank_or_first y with hb | ⟨u, s0, hu⟩
  · rcases blank_or_first ρ with hr | ⟨u, s0, hu⟩
    · exfalso
      have : opened (y ++ ρ) = [] := by
        have key : ∀ {y : Toks}, Blank y → Blank (y ++ ρ) := by
          intro y hb
          induction hb with
          | nil => exact hr
          | cons hc _ _ ih => exact .cons hc ih
        exact (key hb).opened
      rw [first_iff, this] at h
      cases h
    · obtain ⟨rfl, rfl⟩ := (hb.first hu).unique h
      exact .inr ⟨hb, hu⟩
  · obtain ⟨rfl, rfl⟩ := (hu.append ρ).unique h
    exact .inl ⟨s0, rfl, hu⟩

theorem Spec.Blank.not_first {y : Toks} (hy : Blank y) {t : Tok} {s : Toks} : ¬ First y t s := by
  intro h
  rw [first_iff, hy.opened] at h
  cases h

theorem Spec.First.not_none {ts : Toks} {t : Tok} {r : Toks} (h : First ts t r) (c : Toks) : t ≠ .group .none c := by
  induction h with
  | here h => exact h c
  | inside _ ih => exact ih
  | skip _ _ ih => exact ih

/-- A call written out. -/
theorem Spec.CallAt.of {known : Str → Bool} {n : Str} (raw rest : Toks) (hk : known n = true) (hn : n ∉ keywords) :
    CallAt known (.ident n :: .group .paren raw :: rest) n raw rest :=
  .mk (.here (by simp)) hk hn (.here (by simp))

/-! ## The tokens of a reading -/

theorem flat_append (a b : Toks) : flat (a ++ b) = flat a ++ flat b := by
  induction a with
  | nil => rfl
  | cons t a ih => simp [flat, ih]

theorem Spec.Blank.flat {y : Toks} (hy : Blank y) : flat y = [] := by
  induction hy with
  | nil => rfl
  | cons _ _ ih1 ih2 => simp [Spec.flat, flatTok, ih1, ih2]

theorem Spec.First.flat {ts : Toks} {t : Tok} {r : Toks} (h : First ts t r) : flat ts = flatTok t ++ flat r := by
  induction h with
  | here _ => rfl
  | inside _ ih => simp [Spec.flat, flatTok, ih, flat_append]
  | skip hc _ ih => simp [Spec.flat, flatTok, hc.flat, ih]

theorem mem_flat {c : Char} {j : Bool} {ts : Toks} (h : .punct c j ∈ ts) : .punct c j ∈ flat ts := by
  induction ts with
  | nil => cases h
  | cons t ts ih =>
    simp only [flat, List.mem_append]
    rcases List.mem_cons.mp h with rfl | h
    · exact .inl (by simp [flatTok])
    · exact .inr (ih h)

end Verif
