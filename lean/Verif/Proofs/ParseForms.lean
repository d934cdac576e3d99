import Verif.Proofs.ParseContext
/-!
# Different forms of the same input

The attribute and the function-like form, and a trailing separator.
-/

namespace Verif
open Spec

variable {Y : Syn} {known : Str → Bool}

theorem readsItems_head {ts is bs r} (h : ReadsItems known Y ts is bs r) : ∃ n r, First ts (.ident n) r ∧ n ∉ keywords := by
  have : ∃ i r, ReadsItem known Y ts i r := by
    cases h
    · exact ⟨_, _, ‹_›⟩
    · exact ⟨_, _, ‹_›⟩
    · exact ⟨_, _, ‹_›⟩
  obtain ⟨i, r, h⟩ := this
  cases h with
  | mk _ _ _ hf hn _ _ => exact ⟨_, _, hf, hn⟩

theorem for_keyword : S "for" ∈ keywords := by decide

theorem readsItems_length {ts is bs r} (h : ReadsItems known Y ts is bs r) : bs.length = is.length ∨ r = [] := by
  induction h with
  | last h => exact .inr rfl
  | lastSep h _ _ => exact .inl rfl
  | cons h _ _ _ _ ih => rcases ih with ih | ih <;> simp [ih]

/-- Before a block every definition is followed by a separator. -/
theorem readsHeader_closed {ts h r} (hr : r ≠ []) : ReadsHeader known Y ts h r ↔ ReadsClosed known Y ts h r := by
  constructor
  · intro hh
    cases hh with
    | mk hl hs =>
      rcases hs with ⟨rfl, rfl, hs⟩ | ⟨s', rfl, hn, hs⟩
      · exact .none hl hs
      · cases hs with
        | mk id h hb =>
          refine .some id hl h hb ?_
          rcases readsItems_length h with h | h
          · exact h
          · exact (hr h).elim
  · intro hh
    cases hh with
    | none hl hn => exact .mk hl (.inl ⟨rfl, rfl, hn⟩)
    | some id hl h hb hall => exact .mk hl (.inr ⟨_, rfl, readsItems_head h, .mk id h hb⟩)

theorem ReadsClosed.header {ts h r} (hh : ReadsClosed known Y ts h r) : ReadsHeader known Y ts h r := by
  cases hh with
  | none hl hn => exact .mk hl (.inl ⟨rfl, rfl, hn⟩)
  | some id hl h hb hall => exact .mk hl (.inr ⟨_, rfl, readsItems_head h, .mk id h hb⟩)

theorem optLoops_after {ts ls mid} (h : ReadsOptLoops Y known ts ls mid) : After ts mid := by
  rcases h with ⟨_, rfl, _⟩ | ⟨_, _, _, _, h⟩
  · exact .refl _
  · exact readsLoops_after h

theorem optLoops_ctx {τ τ' y r ls} (hf : ∀ s, r ++ τ' ≠ .ident (S "for") :: s) (h : ReadsOptLoops Y known (y ++ τ) ls (r ++ τ)) :
    ReadsOptLoops Y known (y ++ τ') ls (r ++ τ') := by
  rcases h with ⟨rfl, h, hn⟩ | ⟨id, l, rfl, hl, h⟩
  · obtain rfl := List.append_cancel_right h
    exact .inl ⟨rfl, rfl, hf⟩
  · exact .inr ⟨id, l, rfl, hl, readsLoops_ctx hf h⟩

theorem optLoops_end {ts ls mid} (h : ReadsOptLoops Y known ts ls mid) : ∀ s, mid ≠ .ident (S "for") :: s := by
  rcases h with ⟨_, rfl, h⟩ | ⟨_, _, e, hne, h⟩
  · exact h
  · clear e hne
    induction h with
    | nil h => exact h
    | cons _ _ ih => exact ih

/-- The last token before the end of the definitions is a separator. -/
theorem readsItems_ends {ts is bs r} (h : ReadsItems known Y ts is bs r) (hb : bs.length = is.length) :
    ∃ t b, After ts (t :: r) ∧ IsSep b t ∧ b ∈ bs := by
  induction h with
  | last h => simp at hb
  | lastSep h hs _ => exact ⟨_, _, readsItem_after h, hs, by simp⟩
  | cons h hs _ _ _ ih =>
    obtain ⟨t, b, e, h1, h2⟩ := ih (by simpa using hb)
    exact ⟨t, b, (readsItem_after h).trans (.tail e), h1, by simp [h2]⟩

/-- Definitions that are all followed by separators are read in the same way whether `τ` or `τ'` comes next. -/
theorem readsClosed_ctx {τ τ' x r h} (hτ : Blockish τ) (hτ' : Blockish τ') (ha : ∀ s, h.2 = some s → s.comma = some true → AlikeAll Y τ τ' x)
    (hh : ReadsClosed known Y (x ++ τ) h (r ++ τ)) : ReadsClosed known Y (x ++ τ') h (r ++ τ') := by
  -- loops end in the same way
  have hfor : ∀ u, (∀ s, u ++ τ ≠ .ident (S "for") :: s) → ∀ s, u ++ τ' ≠ .ident (S "for") :: s := by
    intro u h s e
    cases u with
    | nil =>
      obtain ⟨b, hb⟩ := hτ' _ _ e
      cases hb
    | cons t u =>
      simp at e
      obtain ⟨rfl, rfl⟩ := e
      exact h _ rfl
  generalize hts : x ++ τ = ts at hh
  generalize hrs : r ++ τ = rs at hh
  cases hh with
  | none hl hn =>
    subst hts hrs
    refine .none (optLoops_ctx (hfor r (optLoops_end hl)) hl) ?_
    intro n s h'
    obtain ⟨s0, rfl, h1⟩ := blockish_in hτ' h' (by simp)
    exact hn n _ (h1.append τ)
  | some id hl h hb hall =>
    rename_i mid ls items bs
    subst hts hrs
    obtain ⟨u, rfl, hu⟩ := after_mid' (optLoops_after hl) (readsItems_after h)
    refine .some id (optLoops_ctx (hfor u (optLoops_end hl)) hl) (readsItems_ctx hτ hτ' ?_ hall h) hb hall
    intro ht y hy
    refine ha _ rfl ?_ y (hu.trans hy)
    cases bs with
    | nil => cases ht
    | cons b bs => simp [hb b (by simp) true ht]

/-! ## The block -/

/-- The block that was read is the last one. -/
theorem block_mid {x b σ mid b' tail : Toks} (h : After (x ++ .group .brace b :: σ) mid) (hf : First mid (.group .brace b') tail)
    (hσ : ∀ m b t, After σ m → ¬ First m (.group .brace b) t) (ht : ∀ s, tail ≠ s ++ .group .brace b :: σ) :
    ∃ r0, mid = r0 ++ .group .brace b :: σ ∧ Blank r0 ∧ After x r0 ∧ b' = b ∧ tail = σ := by
  have main : ∀ r0, mid = r0 ++ .group .brace b :: σ → After x r0 →
      ∃ r0, mid = r0 ++ .group .brace b :: σ ∧ Blank r0 ∧ After x r0 ∧ b' = b ∧ tail = σ := by
    rintro r0 rfl hr
    rcases first_append hf with ⟨s0, e, _⟩ | ⟨hb, hf'⟩
    · exact (ht _ e).elim
    · simp at hf'
      exact ⟨r0, rfl, hb, hr, hf'.1.symm, hf'.2.symm⟩
  rcases h.split with ⟨r0, e, hr⟩ | h
  · exact main r0 e hr
  · cases h with
    | refl => exact main [] rfl .of_nil
    | tail h => exact (hσ _ _ _ h hf).elim

theorem block_nil : ∀ m b t, After [] m → ¬ First m (.group .brace b) t := by
  intro m b t h
  cases h
  simp

theorem sep_not_none {c t} (h : IsSep c t) (d : Toks) : t ≠ .group .none d := by cases h <;> simp

theorem block_sep {c t} (hs : IsSep c t) : ∀ m b r, After [t] m → ¬ First m (.group .brace b) r := by
  intro m b r h
  rcases h.single (sep_not_none hs) with rfl | rfl
  · cases hs <;> simp
  · simp

/-! ## The attribute form -/

theorem blockish_nil : Blockish [] := by intro t r h; cases h
theorem blockish_cons (b r : Toks) : Blockish (.group .brace b :: r) := by intro t r h; simp at h; exact ⟨b, h.1.symm⟩

theorem blank_snoc {u : Toks} {t : Tok} (h : Blank (u ++ [t])) : ∃ c, t = .group .none c := by
  induction u with
  | nil => cases h; exact ⟨_, rfl⟩
  | cons t u ih => cases h with | cons _ h => exact ih h

/-- Nothing without a token comes last. -/
theorem solid_blank {x r : Toks} (hx : Solid x) (h : After x r) (hb : Blank r) : r = [] := by
  rcases List.eq_nil_or_concat x with rfl | ⟨u, t, rfl⟩
  · cases h; rfl
  · simp only [List.concat_eq_append] at h hx
    have ht : ∀ c, t ≠ .group .none c := fun c e => hx u c (by rw [e])
    cases r with
    | nil => rfl
    | cons t' r' =>
      obtain ⟨u', e⟩ := h.snoc ht (by simp)
      rw [e] at hb
      obtain ⟨c, hc⟩ := blank_snoc hb
      exact (ht c hc).elim

/-- The last token is the separator. -/
theorem solid_sep {x : Toks} {t : Tok} (hx : Solid x) (h : After x [t]) : ∃ u, x = u ++ [t] := by
  rcases List.eq_nil_or_concat x with rfl | ⟨u, t', rfl⟩
  · cases h
  · simp only [List.concat_eq_append] at h hx ⊢
    have ht : ∀ c, t' ≠ .group .none c := fun c e => hx u c (by rw [e])
    obtain ⟨u', e⟩ := h.snoc ht (by simp)
    have := congrArg List.getLast? e
    simp at this
    exact ⟨u, by rw [this]⟩

theorem alike_attr (h1 : StopsAtSep Y.path) (h2 : StopsAtSep Y.type) (h3 : StopsAtSep Y.expr) {u t b} (hs : IsSep true t) :
    Alike Y [] [.group .brace b] (u ++ [t]) ∧ Alike Y [.group .brace b] [] (u ++ [t]) := by
  have key : ∀ p, StopsAtSep p → p ((u ++ [t]) ++ []) = p ((u ++ [t]) ++ [.group .brace b]) := by
    intro p hp
    simpa using (hp u t b hs).1.symm
  have over : ∀ n, (u ++ [t]).length ≤ n → ¬ (Y.path ((u ++ [t]) ++ []) = some n ∨ Y.type ((u ++ [t]) ++ []) = some n ∨ Y.expr ((u ++ [t]) ++ []) = some n) := by
    intro n hn
    simp at hn
    simp only [List.append_nil]
    rintro (h | h | h)
    · have := (h1 u t b hs).2 n h; omega
    · have := (h2 u t b hs).2 n h; omega
    · have := (h3 u t b hs).2 n h; omega
  refine ⟨⟨key _ h1, key _ h2, key _ h3, fun n hn h => (over n hn h).elim⟩,
    ⟨(key _ h1).symm, (key _ h2).symm, (key _ h3).symm, fun n hn h => ?_⟩⟩
  rw [← key _ h1, ← key _ h2, ← key _ h3] at h
  exact (over n hn h).elim

theorem closed_alike {τ x h r} (hx : Solid x) (hr : After x r) (hbl : Blank r) (hh : ReadsClosed known Y (x ++ τ) h (r ++ τ)) (s : PSpec)
    (hs : h.2 = some s) (hc : s.comma = some true) : ∃ u t, x = u ++ [t] ∧ IsSep true t := by
  obtain rfl := solid_blank hx hr hbl
  generalize hrs : ([] : Toks) ++ τ = rs at hh
  cases hh with
  | none hl hn => cases hs
  | some id hl h hb hall =>
    rename_i mid ls items bs
    subst hrs
    obtain rfl : _ = s := by simpa using hs
    obtain ⟨t, b, h1, h2, h3⟩ := readsItems_ends h hall
    have : b = true := by
      cases bs with
      | nil => cases h3
      | cons b0 bs =>
        simp at hc
        subst hc
        exact hb _ h3 _ (by simp)
    subst this
    obtain ⟨u, e, hu⟩ := after_mid (r := []) ((optLoops_after hl).trans h1) (.refl _)
    obtain rfl : u = [] := by simpa using e.symm
    obtain ⟨w, hw⟩ := solid_sep hx hu
    exact ⟨w, t, hw, h2⟩

/-- Loops and definitions before a block, and on their own. -/
theorem closed_attr (h1 : StopsAtSep Y.path) (h2 : StopsAtSep Y.type) (h3 : StopsAtSep Y.expr) {x b h} (hx : Solid x) :
    ReadsHeader known Y (x ++ [.group .brace b]) h [.group .brace b] ↔ ReadsClosed known Y x h [] := by
  rw [readsHeader_closed (by simp)]
  constructor
  · intro hh
    have := readsClosed_ctx (x := x) (r := []) (blockish_cons b []) blockish_nil (fun s hs hc y hy hne => by
      obtain ⟨u, t, rfl, ht⟩ := closed_alike (r := []) hx .of_nil .nil hh s hs hc
      obtain ⟨u', rfl⟩ := hy.snoc (sep_not_none ht) hne
      exact (alike_attr h1 h2 h3 ht).2) hh
    simpa using this
  · intro hh
    exact readsClosed_ctx (x := x) (τ := []) (r := []) blockish_nil (blockish_cons b []) (fun s hs hc y hy hne => by
      obtain ⟨u, t, rfl, ht⟩ := closed_alike (τ := []) (r := []) hx .of_nil .nil (by simpa using hh) s hs hc
      obtain ⟨u', rfl⟩ := hy.snoc (sep_not_none ht) hne
      exact (alike_attr h1 h2 h3 ht).1) (by simpa using hh)

theorem readsHeader_after {ts h r} (hh : ReadsHeader known Y ts h r) : After ts r :=
  (parseHeader_exact Y known (fun x => x) _).after (Nat.le_refl _) hh

theorem readsInput_attr (h1 : StopsAtSep Y.path) (h2 : StopsAtSep Y.type) (h3 : StopsAtSep Y.expr) {x b a} (hx : Solid x) :
    ReadsInput known Y (x ++ [.group .brace b]) a ↔ ReadsClosed known Y x (a.loops, a.spec) [] ∧ Y.parseBlock b = some a.block := by
  constructor
  · intro hh
    cases hh with
    | mk id h hm hb ht =>
      obtain ⟨r0, rfl, h4, h5, rfl, rfl⟩ := block_mid (readsHeader_after h) hm block_nil (by
        rintro s rfl
        rcases ht with ht | ⟨c, t, ht, hs, _⟩
        · simp at ht
        · cases s with
          | nil => simp at ht; subst ht; cases hs
          | cons _ _ => simp at ht)
      obtain rfl := solid_blank hx h5 h4
      exact ⟨(closed_attr h1 h2 h3 hx).mp h, hb⟩
  · rintro ⟨hc, hb⟩
    obtain ⟨id, ls, s, block⟩ := a
    exact .mk id ((closed_attr h1 h2 h3 hx).mpr hc) (by simp) hb (.inl rfl)

/-! ## A trailing separator -/

theorem alike_tail (h1 : StopsAtBlock Y.path) (h2 : StopsAtBlock Y.type) (h3 : StopsAtBlock Y.expr) {u t b c} (hs : IsSep c t) :
    Alike Y [.group .brace b] [.group .brace b, t] u ∧ (c = true → Alike Y [.group .brace b, t] [.group .brace b] u) := by
  refine ⟨⟨(h1 u t b c hs).symm, (h2 u t b c hs).symm, (h3 u t b c hs).symm, ?_⟩,
    fun hc => ⟨h1 u t b c hs, h2 u t b c hs, h3 u t b c hs, ?_⟩⟩
  · intro n hn _ he
    by_cases h : n = u.length
    · subst h
      simp at he
      cases he
    · rw [List.drop_of_length_le (by simp; omega)]
      exact .nil
  · intro n hn _ he
    by_cases h : n = u.length
    · subst h
      simp at he
      cases he
    · by_cases h' : n = u.length + 1
      · subst h'
        subst hc
        have : (u ++ [.group .brace b, t]).drop (u.length + 1) = [t] := by
          rw [List.drop_append]; simp
        rw [this]
        cases hs
        exact .comma _ _
      · rw [List.drop_of_length_le (by simp; omega)]
        exact .nil

theorem readsInput_tail (h1 : StopsAtBlock Y.path) (h2 : StopsAtBlock Y.type) (h3 : StopsAtBlock Y.expr) {x t b c a} (hs : IsSep c t) :
    ReadsInput known Y (x ++ [.group .brace b, t]) a ↔
      ReadsInput known Y (x ++ [.group .brace b]) a ∧ ∀ s, a.spec = some s → s.comma = some c := by
  constructor
  · intro hh
    cases hh with
    | mk id h hm hb ht =>
      obtain ⟨r0, rfl, h4, h5, rfl, rfl⟩ := block_mid (readsHeader_after h) hm (block_sep hs) (by
        rintro s rfl
        rcases ht with ht | ⟨c, t', ht, _, _⟩
        · simp at ht
        · have := congrArg List.length ht
          simp at this)
      rcases ht with ht | ⟨c', t', ht, hs', hc⟩
      · simp at ht
      · simp at ht
        subst ht
        have := sep_unique hs hs'
        subst this
        refine ⟨.mk id ?_ (h4.first (ρ := [.group .brace _]) (by simp; rfl)) hb (.inl rfl), hc⟩
        rw [readsHeader_closed (by simp)] at h ⊢
        refine readsClosed_ctx (blockish_cons _ _) (blockish_cons _ _) (fun s hs1 hs2 y _ _ => ?_) h
        refine (alike_tail h1 h2 h3 hs).2 ?_
        have := hc s hs1
        rw [hs2] at this
        simpa using this.symm
  · rintro ⟨hh, hc⟩
    cases hh with
    | mk id h hm hb ht =>
      obtain ⟨r0, rfl, h4, h5, rfl, rfl⟩ := block_mid (readsHeader_after h) hm block_nil (by
        rintro s rfl
        rcases ht with ht | ⟨c, t, ht, hs, _⟩
        · simp at ht
        · cases s with
          | nil => simp at ht; subst ht; cases hs
          | cons _ _ => simp at ht)
      refine .mk id ?_ (h4.first (ρ := [.group .brace _, t]) (by simp; rfl)) hb (.inr ⟨c, t, rfl, hs, hc⟩)
      rw [readsHeader_closed (by simp)] at h ⊢
      exact readsClosed_ctx (blockish_cons _ _) (blockish_cons _ _) (fun s _ _ y _ _ => (alike_tail h1 h2 h3 hs).1) h

end Verif
