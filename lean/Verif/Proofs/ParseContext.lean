import Verif.Proofs.ParseTop
/-!
# What comes after the definitions does not matter

Readings of loops and definitions with different tokens after them.
-/

namespace Verif
open Spec

/-- `syn`'s parsers take the same number of tokens whether `τ` or `τ'` follows the tokens `y`; and what they take does not end
beyond `y` in a way that is acceptable before `τ'` but not before `τ`. -/
structure Alike (Y : Syn) (τ τ' y : Toks) : Prop where
  path : Y.path (y ++ τ) = Y.path (y ++ τ')
  type : Y.type (y ++ τ) = Y.type (y ++ τ')
  expr : Y.expr (y ++ τ) = Y.expr (y ++ τ')
  over : ∀ n, y.length ≤ n → (Y.path (y ++ τ) = some n ∨ Y.type (y ++ τ) = some n ∨ Y.expr (y ++ τ) = some n) →
    Ends ((y ++ τ').drop n) → Ends ((y ++ τ).drop n)

/-- Nothing, or a block. -/
def Blockish (τ : Toks) : Prop := ∀ t r, τ = t :: r → ∃ b, t = .group .brace b

theorem blockish_first {τ : Toks} (h : Blockish τ) {t r} (hf : First τ t r) : ∃ b, t = .group .brace b := by
  cases τ with
  | nil => simp at hf
  | cons u τ =>
    obtain ⟨b, rfl⟩ := h _ _ rfl
    simp at hf
    exact ⟨b, hf.1.symm⟩

/-- The first token, if it is not a block, is in the first part. -/
theorem blockish_in {τ y t s} (h : Blockish τ) (hf : First (y ++ τ) t s) (ht : ∀ b, t ≠ .group .brace b) : ∃ s0, s = s0 ++ τ ∧ First y t s0 := by
  rcases first_append hf with h' | ⟨_, h'⟩
  · exact h'
  · obtain ⟨b, hb⟩ := blockish_first h h'
    exact (ht b hb).elim

/-- The tokens of a value and of the rest. -/
theorem readsAs_flat {Y : Syn} {i ts v used rest} (h : ReadsAs Y i ts v used rest) : flat ts = flat used ++ flat rest := by
  cases h with
  | int h => simpa [flat, flatTok] using h.flat
  | negInt h h' => simpa [flat, flatTok, h'.flat] using h.flat
  | str h => simpa [flat, flatTok] using h.flat
  | underscore h => simpa [flat, flatTok] using h.flat
  | ident h _ => simpa [flat, flatTok] using h.flat
  | path ts n _ => rw [← flat_append, List.take_append_drop]
  | type ts n _ => rw [← flat_append, List.take_append_drop]
  | expr ts n _ => rw [← flat_append, List.take_append_drop]

section
variable {Y : Syn} {τ τ' : Toks}

/-- The kinds of values that `syn` parses. -/
def SynTakes (Y : Syn) (ts : Toks) (n : Nat) : Prop := Y.path ts = some n ∨ Y.type ts = some n ∨ Y.expr ts = some n

/-- A candidate ends in `y`, and is the same before `τ'`; or it ends beyond `y`. -/
theorem readsAs_move (hτ : Blockish τ) {i y v used rest} (ha : Y.path (y ++ τ) = Y.path (y ++ τ'))
    (hb : Y.type (y ++ τ) = Y.type (y ++ τ')) (hc : Y.expr (y ++ τ) = Y.expr (y ++ τ')) (h : ReadsAs Y i (y ++ τ) v used rest) :
    (∃ r, rest = r ++ τ ∧ ReadsAs Y i (y ++ τ') v used (r ++ τ') ∧ ((∀ j, .punct ',' j ∉ flat used) ∨ ∃ n, SynTakes Y (y ++ τ) n ∧ n ≤ y.length ∧ r = y.drop n)) ∨
    ∃ n v', y.length < n ∧ SynTakes Y (y ++ τ) n ∧ rest = (y ++ τ).drop n ∧ used = (y ++ τ).take n ∧
      ReadsAs Y i (y ++ τ') v' ((y ++ τ').take n) ((y ++ τ').drop n) := by
  -- a kind of `syn`'s
  have ext : ∀ n (mk : Toks → VKind), SynTakes Y (y ++ τ) n →
      ReadsAs Y i (y ++ τ') (mk ((y ++ τ').take n)) ((y ++ τ').take n) ((y ++ τ').drop n) → v = mk ((y ++ τ).take n) → used = (y ++ τ).take n → rest = (y ++ τ).drop n →
      (∃ r, rest = r ++ τ ∧ ReadsAs Y i (y ++ τ') v used (r ++ τ') ∧ ((∀ j, .punct ',' j ∉ flat used) ∨ ∃ n, SynTakes Y (y ++ τ) n ∧ n ≤ y.length ∧ r = y.drop n)) ∨
      ∃ n v', y.length < n ∧ SynTakes Y (y ++ τ) n ∧ rest = (y ++ τ).drop n ∧ used = (y ++ τ).take n ∧
        ReadsAs Y i (y ++ τ') v' ((y ++ τ').take n) ((y ++ τ').drop n) := by
    rintro n mk hn hx rfl rfl rfl
    by_cases hle : n ≤ y.length
    · refine .inl ⟨y.drop n, by rw [List.drop_append_of_le_length hle], ?_, .inr ⟨n, hn, hle, rfl⟩⟩
      rw [List.take_append_of_le_length hle, List.drop_append_of_le_length hle] at hx
      rw [List.take_append_of_le_length hle]
      exact hx
    · exact .inr ⟨n, _, by omega, hn, rfl, rfl, hx⟩
  generalize hts : y ++ τ = ts at h
  cases h with
  | int h =>
    rw [← hts] at h
    obtain ⟨s0, rfl, h'⟩ := blockish_in hτ h (by simp)
    exact .inl ⟨s0, rfl, .int (h'.append _), .inl (by simp [flat, flatTok])⟩
  | negInt h h' =>
    rw [← hts] at h
    obtain ⟨s0, rfl, h1⟩ := blockish_in hτ h (by simp)
    obtain ⟨s1, rfl, h2⟩ := blockish_in hτ h' (by simp)
    exact .inl ⟨s1, rfl, .negInt (h1.append _) (h2.append _), .inl (by simp [flat, flatTok])⟩
  | str h =>
    rw [← hts] at h
    obtain ⟨s0, rfl, h'⟩ := blockish_in hτ h (by simp)
    exact .inl ⟨s0, rfl, .str (h'.append _), .inl (by simp [flat, flatTok])⟩
  | underscore h =>
    rw [← hts] at h
    obtain ⟨s0, rfl, h'⟩ := blockish_in hτ h (by simp)
    exact .inl ⟨s0, rfl, .underscore (h'.append _), .inl (by simp [flat, flatTok])⟩
  | ident h hn =>
    rw [← hts] at h
    obtain ⟨s0, rfl, h'⟩ := blockish_in hτ h (by simp)
    exact .inl ⟨s0, rfl, .ident (h'.append _) hn, .inl (by simp [flat, flatTok])⟩
  | path ts n hn =>
    subst hts
    exact ext n _ (.inl hn) (.path _ n (ha ▸ hn)) rfl rfl rfl
  | type ts n hn =>
    subst hts
    exact ext n _ (.inr (.inl hn)) (.type _ n (hb ▸ hn)) rfl rfl rfl
  | expr ts n hn =>
    subst hts
    exact ext n _ (.inr (.inr hn)) (.expr _ n (hc ▸ hn)) rfl rfl rfl

theorem readsValue_ctx (hτ : Blockish τ) (hτ' : Blockish τ') {y r v} (ha : Alike Y τ τ' y) (hr : r ≠ [])
    (h : ReadsValue Y (y ++ τ) v (r ++ τ)) : ReadsValue Y (y ++ τ') v (r ++ τ') := by
  obtain ⟨j0, r0, rfl⟩ : ∃ j r', r = .punct ',' j :: r' := by
    cases r with
    | nil => exact (hr rfl).elim
    | cons t r =>
      cases (readsValue_ends h).1 with
      | comma j r => exact ⟨_, _, rfl⟩
  have hsame : ∀ n, SynTakes Y (y ++ τ') n → SynTakes Y (y ++ τ) n := by
    intro n h
    rw [SynTakes, ← ha.path, ← ha.type, ← ha.expr] at h
    exact h
  -- a candidate before `τ'` is one before `τ`, or goes beyond `y`
  have back : .punct ',' j0 ∈ flat y → ∀ j w used' rest', ReadsAs Y j (y ++ τ') w used' rest' → Ends rest' →
      (∃ rest'', ReadsAs Y j (y ++ τ) w used' rest'' ∧ Ends rest'') ∨
      ∃ n w', y.length < n ∧ ReadsAs Y j (y ++ τ) w' ((y ++ τ).take n) ((y ++ τ).drop n) ∧ Ends ((y ++ τ).drop n) := by
    intro hmem j w used' rest' h1 h2
    rcases readsAs_move hτ' ha.path.symm ha.type.symm ha.expr.symm h1 with ⟨r1, rfl, h3, h4⟩ | ⟨n, w', h3, h4, rfl, -, h5⟩
    · refine .inl ⟨_, h3, ?_⟩
      cases r1 with
      | cons t r1 =>
        cases h2 with
        | comma j r => exact .comma _ _
      | nil =>
        rcases h4 with h4 | ⟨n, hn, hle, hd⟩
        · have := readsAs_flat h1
          simp only [flat_append, List.nil_append] at this
          have := List.append_cancel_right this
          rw [this] at hmem
          exact (h4 _ hmem).elim
        · have hl : n = y.length := by simp at hd; omega
          subst hl
          have := ha.over _ (Nat.le_refl _) (hsame _ hn) (by simpa using h2)
          simpa using this
    · exact .inr ⟨n, w', h3, h5, ha.over n (by omega) (hsame _ h4) h2⟩
  generalize hrest : .punct ',' j0 :: r0 ++ τ = rest at h
  cases h with
  | longest i v used rest h he hmax =>
    have hfl := readsAs_flat h
    rw [← hrest, flat_append, flat_append, ← List.append_assoc] at hfl
    replace hfl := List.append_cancel_right hfl
    have hmem : .punct ',' j0 ∈ flat y := by rw [hfl]; simp [flat, flatTok]
    rcases readsAs_move hτ ha.path ha.type ha.expr h with ⟨r1, e, h1, -⟩ | ⟨n, w', h3, -, e, -, -⟩
    · obtain rfl := List.append_cancel_right (hrest.trans e)
      refine .longest i _ _ _ h1 (.comma _ _) ?_
      intro j w used' rest' h6 h7
      rcases back hmem j w used' rest' h6 h7 with ⟨rest'', h8, h9⟩ | ⟨n, w', h8, h9, h10⟩
      · exact hmax _ _ _ _ h8 h9
      · exfalso
        have hm := hmax _ _ _ _ h9 h10
        have : (flat used).length < (flat ((y ++ τ).take n)).length := by
          rw [List.take_append, List.take_of_length_le (by omega), flat_append, hfl]
          simp [flat, flatTok]
        omega
    · exfalso
      have := congrArg List.length (hrest.trans e)
      simp at this
      omega
  | tokens used rest hn h hc he =>
    subst hrest
    have hus : y = used ++ .punct ',' j0 :: r0 := by
      rw [← List.append_assoc] at h
      exact List.append_cancel_right h
    refine .tokens _ _ ?_ (by rw [hus]; simp) hc (.comma _ _)
    intro i w used' rest' h1 h2
    rcases back (by rw [hus]; exact mem_flat (by simp)) i w used' rest' h1 h2 with ⟨rest'', h8, h9⟩ | ⟨n, w', h8, h9, h10⟩
    · exact hn _ _ _ _ h8 h9
    · exact hn _ _ _ _ h9 h10

/-! ## Suffixes and uniqueness -/

theorem Exact.unique {α σ : Type} {ids d} {R : Toks → α → Toks → Prop} {er : α → σ} {f} {x : P α} (h : Exact ids d R er f x) {ts a r a' r'}
    (hd : nestL ts ≤ d) (h1 : R ts a r) (h2 : R ts a' r') : r' = r ∧ er a' = er a := by
  rcases (h ts 0 hd).cases with ⟨b, r0, k, _, g⟩ | ⟨e, k, _, b⟩
  · have := g.uniq _ _ h1
    have := g.uniq _ _ h2
    simp_all
  · exact (b.none _ _ h1).elim

theorem Exact.after {α σ : Type} {ids d} {R : Toks → α → Toks → Prop} {er : α → σ} {f} {x : P α} (h : Exact ids d R er f x) {ts a r}
    (hd : nestL ts ≤ d) (h1 : R ts a r) : After ts r := by
  rcases (h ts 0 hd).cases with ⟨b, r0, k, _, g⟩ | ⟨e, k, _, b⟩
  · rw [(g.uniq _ _ h1).1]; exact g.suf
  · exact (b.none _ _ h1).elim

theorem readsExpr_after {known ts e r} (h : ReadsExpr known Y ts e r) : After ts r :=
  (parseE_exact Y known (fun x => x) _).after (Nat.le_refl _) h
theorem readsItem_after {known ts e r} (h : ReadsItem known Y ts e r) : After ts r :=
  (parseItem_exact Y known (fun x => x) _).after (Nat.le_refl _) h
theorem readsItems_after {known ts is bs r} (h : ReadsItems known Y ts is bs r) : After ts r := by
  induction h with
  | last h => exact readsItem_after h
  | lastSep h _ _ => exact (readsItem_after h).trans .cons
  | cons h _ _ _ _ ih => exact (readsItem_after h).trans (.tail ih)

/-! ## Definitions -/

variable {known : Str → Bool}

/-- The same for all parts of the tokens. -/
def AlikeAll (Y : Syn) (τ τ' x : Toks) : Prop := ∀ y, After x y → y ≠ [] → Alike Y τ τ' y

theorem callAt_move (hτ : Blockish τ) {y n raw rest} (h : CallAt known (y ++ τ) n raw rest) (τ' : Toks) : ∃ r, rest = r ++ τ ∧ CallAt known (y ++ τ') n raw (r ++ τ') := by
  cases h with
  | mk h hk hn h' =>
    obtain ⟨s0, rfl, h1⟩ := blockish_in hτ h (by simp)
    obtain ⟨s1, rfl, h2⟩ := blockish_in hτ h' (by simp)
    exact ⟨s1, rfl, .mk (h1.append _) hk hn (h2.append _)⟩

theorem readsExpr_ctx (hτ : Blockish τ) (hτ' : Blockish τ') {y r e}
    (ha : (∃ j r', r = .punct ',' j :: r') → AlikeAll Y τ τ' y) (hr : r ≠ [])
    (h : ReadsExpr known Y (y ++ τ) e (r ++ τ)) : ReadsExpr known Y (y ++ τ') e (r ++ τ') := by
  have hcall : ∀ {n raw}, CallAt known (y ++ τ) n raw (r ++ τ) → CallAt known (y ++ τ') n raw (r ++ τ') := by
    intro n raw h
    obtain ⟨r', e, h'⟩ := callAt_move hτ h τ'
    obtain rfl := List.append_cancel_right e
    exact h'
  have hy : y ≠ [] := by
    rintro rfl
    exact not_after_longer hr (readsExpr_after h)
  generalize hrs : r ++ τ = rs at h
  cases h with
  | call id rid h hargs => subst hrs; exact .call _ _ (hcall h) hargs
  | dropped id rid h hp he => subst hrs; exact .dropped _ _ (hcall h) hp he
  | value id hn h =>
    subst hrs
    have hcomma : ∃ j r', r = .punct ',' j :: r' := by
      cases r with
      | nil => exact (hr rfl).elim
      | cons t r =>
        cases (readsValue_ends h).1 with
        | comma j r => exact ⟨_, _, rfl⟩
    refine .value id ?_ (readsValue_ctx hτ hτ' (ha hcomma y (.refl _) hy) hr h)
    intro n raw rest hc
    obtain ⟨r', e, h'⟩ := callAt_move hτ' hc τ
    exact hn _ _ _ h'

theorem readsItem_ctx (hτ : Blockish τ) (hτ' : Blockish τ') {y r i} (ha : (∃ j r', r = .punct ',' j :: r') → AlikeAll Y τ τ' y)
    (hr : r ≠ []) (h : ReadsItem known Y (y ++ τ) i (r ++ τ)) : ReadsItem known Y (y ++ τ') i (r ++ τ') := by
  generalize hrs : r ++ τ = rs at h
  cases h with
  | mk id aid vid hf hn h he =>
    rename_i n j ts e
    subst hrs
    obtain ⟨s0, e0, hf'⟩ := blockish_in hτ hf (by simp)
    cases s0 with
    | nil =>
      obtain ⟨b, hb⟩ := hτ _ _ e0.symm
      cases hb
    | cons u s0 =>
      simp at e0
      obtain ⟨rfl, rfl⟩ := e0
      refine .mk id aid vid (by simpa using hf'.append τ') hn (readsExpr_ctx hτ hτ' ?_ hr h) ?_
      · intro hc y' hy'
        exact ha hc y' (hf'.after_rest.trans (.tail hy'))
      · cases r with
        | nil => exact (hr rfl).elim
        | cons t r =>
          rcases he with he | ⟨b, t', r', he, hs⟩
          · simp at he
          · simp at he
            obtain ⟨rfl, -⟩ := he
            exact .inr ⟨b, _, _, rfl, hs⟩

theorem isSep_comma {b t} (h : IsSep b t) (r : Toks) (hc : ∃ j r', t :: r = .punct ',' j :: r') : b = true := by
  obtain ⟨j, r', hc⟩ := hc
  cases h <;> simp at hc ⊢

theorem blockish_not_ident {τ : Toks} (h : Blockish τ) {n r} : ¬ First τ (.ident n) r := by
  intro hf
  obtain ⟨b, hb⟩ := blockish_first h hf
  cases hb

/-- Something left that goes on into the second part begins in the first one. -/
theorem after_mid {y τ : Toks} {t : Tok} {mid r : Toks} (h : After (y ++ τ) (t :: mid)) (hr : After mid (r ++ τ)) :
    ∃ u, mid = u ++ τ ∧ After y (t :: u) := by
  have hc := hr.count
  rw [tokCount_append] at hc
  have hp := tokCount_pos t
  rcases h.split with ⟨r0, e, h'⟩ | h'
  · cases r0 with
    | nil =>
      simp at e
      subst e
      have := tokCount_cons (t := t) (ts := mid)
      omega
    | cons t' r0 =>
      simp at e
      obtain ⟨rfl, rfl⟩ := e
      exact ⟨r0, rfl, h'⟩
  · have := h'.count
    have := tokCount_cons (t := t) (ts := mid)
    omega

theorem readsItems_ctx (hτ : Blockish τ) (hτ' : Blockish τ') {y r is bs} (ha : true ∈ bs → AlikeAll Y τ τ' y) (hb : bs.length = is.length)
    (h : ReadsItems known Y (y ++ τ) is bs (r ++ τ)) : ReadsItems known Y (y ++ τ') is bs (r ++ τ') := by
  generalize hts : y ++ τ = ts at h
  generalize hrs : r ++ τ = rs at h
  induction h generalizing y with
  | last h => simp at hb
  | lastSep h hs hn =>
    rename_i t
    subst hts hrs
    refine .lastSep (readsItem_ctx hτ hτ' (r := t :: r) (fun hc => ha (by simp [isSep_comma hs _ hc])) (by simp) h) hs ?_
    intro n r' h'
    obtain ⟨s0, rfl, h1⟩ := blockish_in hτ' h' (by simp)
    exact hn n _ (h1.append τ)
  | cons h hs hm hn hr ih =>
    rename_i mid _ rest i b bs t n is
    subst hts hrs
    obtain ⟨u, rfl, hu⟩ := after_mid (readsItem_after h) (readsItems_after hr)
    obtain ⟨s0, rfl, hm'⟩ := blockish_in hτ hm (by simp)
    have h' := readsItem_ctx hτ hτ' (r := t :: u) (fun hc => ha (by simp [isSep_comma hs _ hc])) (by simp) h
    refine .cons h' hs (hm'.append τ') hn (ih ?_ (by simpa using hb) rfl rfl)
    intro hc y' hy'
    exact ha (by simp [hc]) y' (hu.trans (.tail hy'))

/-! ## Loops -/

theorem readsElem_after {ts a r} (h : ReadsElem ReadsAlias ts a r) : After ts r := by
  cases h with
  | tuple id h _ => exact h.after_rest
  | simple hn h => cases h with | mk _ h _ => exact h.after_rest

/-- The first token is in the first part if what comes after it goes on into the second one. -/
theorem first_mid {y τ : Toks} {t : Tok} {mid r : Toks} (h : First (y ++ τ) t mid) (hr : After mid (r ++ τ)) :
    ∃ u, mid = u ++ τ ∧ First y t u := by
  rcases first_append h with h' | ⟨_, h'⟩
  · exact h'
  · exfalso
    have h1 := h'.after.count
    have h2 := hr.count
    have := tokCount_pos t
    rw [tokCount_append] at h2
    have := tokCount_cons (t := t) (ts := mid)
    omega

theorem readsElem_ctx {y r a} (h : ReadsElem ReadsAlias (y ++ τ) a (r ++ τ)) :
    ReadsElem ReadsAlias (y ++ τ') a (r ++ τ') := by
  have hmove : ∀ {t s}, First (y ++ τ) t (s ++ τ) → First (y ++ τ') t (s ++ τ') := by
    intro t s hf
    obtain ⟨u, e, h'⟩ := first_mid hf (.refl _)
    obtain rfl := List.append_cancel_right e
    exact h'.append τ'
  generalize hrs : r ++ τ = rs at h
  cases h with
  | tuple id hf h =>
    subst hrs
    exact .tuple _ (hmove hf) h
  | simple hn h =>
    subst hrs
    cases h with
    | mk id hf hk =>
      have hf' := hmove hf
      refine .simple ?_ (.mk id hf' hk)
      intro c r' as e
      have := (hf'.unique e).1
      cases this

theorem readsLoop_ctx {y r l} (h : ReadsLoop known Y (y ++ τ) l (r ++ τ)) : ReadsLoop known Y (y ++ τ') l (r ++ τ') := by
  generalize hts : y ++ τ = ts at h
  generalize hrs : r ++ τ = rs at h
  cases h with
  | mk id lid ha hb hv =>
    rename_i ts mid c a vs
    subst hrs
    have h1 := readsElem_after ha
    obtain ⟨u, rfl, -⟩ := after_mid (y := y) (t := .ident (S "for")) (mid := ts) (r := r) (hts ▸ .refl _)
      ((h1.trans .cons).trans hb.after_rest)
    obtain ⟨s, rfl, -⟩ := after_mid h1 hb.after_rest
    obtain ⟨s', e, hb'⟩ := first_mid hb (.refl _)
    obtain rfl := List.append_cancel_right e
    obtain rfl : y = .ident (S "for") :: u := List.append_cancel_right (bs := τ) hts
    exact .mk id lid (readsElem_ctx (r := .ident (S "in") :: s) ha) (hb'.append τ') hv

theorem readsLoop_after {ts l r} (h : ReadsLoop known Y ts l r) : After ts r :=
  (parseLoop_exact Y known (fun x => x) _).after (Nat.le_refl _) h

theorem readsLoops_after {ts l r} (h : ReadsLoops known Y ts l r) : After ts r := by
  induction h with
  | nil h => exact .refl _
  | cons h _ ih => exact (readsLoop_after h).trans ih

/-- Something left that goes on into the second part. -/
theorem after_mid' {y τ mid r : Toks} (h : After (y ++ τ) mid) (hr : After mid (r ++ τ)) : ∃ u, mid = u ++ τ ∧ After y u := by
  rcases h.split with h | h
  · exact h
  · rcases h.lt with rfl | hlt
    · exact ⟨[], rfl, .of_nil⟩
    · have := hr.count
      rw [tokCount_append] at this
      omega

/-- Loops are read in the same way whatever follows them (except another loop). -/
theorem readsLoops_ctx {y r ls} (hf : ∀ s, r ++ τ' ≠ .ident (S "for") :: s) (h : ReadsLoops known Y (y ++ τ) ls (r ++ τ)) :
    ReadsLoops known Y (y ++ τ') ls (r ++ τ') := by
  generalize hts : y ++ τ = ts at h
  generalize hrs : r ++ τ = rs at h
  induction h generalizing y with
  | nil h =>
    subst hrs
    obtain rfl := List.append_cancel_right hts
    exact .nil hf
  | cons h hs ih =>
    subst hts hrs
    obtain ⟨u, rfl, hu⟩ := after_mid' (readsLoop_after h) (readsLoops_after hs)
    exact .cons (readsLoop_ctx h) (ih rfl rfl)
end

end Verif
