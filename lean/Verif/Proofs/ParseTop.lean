import Verif.Proofs.ParseExpr
/-! # Tuples, loops, definitions and whole inputs -/

namespace Verif
open Spec

theorem peekParen_iff {ts : Toks} : peekParen ts = true ↔ ∃ c r, First ts (.group .paren c) r := by
  unfold peekParen
  simp only [first_iff]
  generalize opened ts = ts
  rcases ts with _ | ⟨⟨⟩ | ⟨_, j⟩ | _ | ⟨d', c⟩, ts⟩
  case cons.group => cases d' <;> simp
  all_goals simp

theorem peekKw_iff {s : Str} {ts : Toks} : peekKw s ts = true ↔ ∃ r, ts = .ident s :: r := by
  rcases ts with _ | ⟨⟨⟩ | ⟨_, j⟩ | _ | ⟨d', c⟩, ts⟩ <;> simp [peekKw]

theorem peekIdent_iff {ts : Toks} : peekIdent ts = true ↔ ∃ n r, First ts (.ident n) r ∧ n ∉ keywords := by
  unfold peekIdent
  simp only [first_iff]
  generalize opened ts = ts
  rcases ts with _ | ⟨⟨⟩ | ⟨_, j⟩ | _ | ⟨d', c⟩, ts⟩ <;> simp

theorem peekPunct_iff {c : Char} {ts : Toks} : peekPunct c ts = true ↔ ∃ j r, ts = .punct c j :: r := by
  rcases ts with _ | ⟨⟨⟩ | ⟨d, j⟩ | _ | ⟨d', _⟩, ts⟩ <;> simp [peekPunct]

theorem convL_eq {α β : Type} (f : α → β) (ts : List (PTup α)) : PTup.convL f ts = ts.map (PTup.conv f) := by
  induction ts with
  | nil => rfl
  | cons t ts ih => simp [PTup.convL, ih]

theorem tupIdsL_eq {α : Type} (f : α → List Nat) (ts : List (PTup α)) : tupIdsL f ts = ts.flatMap (tupIds f) := by
  induction ts with
  | nil => rfl
  | cons t ts ih => simp [tupIdsL, ih]

section
variable {α τ : Type} {ids : Nat → Nat} {R : Toks → α → Toks → Prop} {er : α → τ} {f : α → List Nat} {x : P α}

theorem parseTupleValue_exact (hx : ∀ d, Exact ids d R er f x) :
    ∀ n d, d < n → Exact ids d (ReadsTup R) (PTup.conv er) (tupIds f) (parseTupleValue ids x n) := by
  intro n
  induction n with
  | zero => intro d h; omega
  | succ n ih =>
    intro d hd ts k hn
    simp only [parseTupleValue, wp_bind, wp_look]
    refine wp_ite (fun h => ?_) (fun h => ?_)
    · obtain ⟨c, r, hf⟩ := peekParen_iff.mp h
      simp only [wp_bind, wp_parseGroup]
      refine .inl ⟨c, r, hf, ?_⟩
      have := @nestL_group .paren c r
      have := hf.after.nest
      simp only [wp_within]
      refine (parseTerminated_exact (ih (nestL c) (by omega)) c k (Nat.le_refl _)).mono ?_ ?_
      · rintro as r' k' ⟨⟨rfl, h1⟩, h2, h3, h4, h5⟩
        simp only [if_true, wp_fresh, wp_pure]
        refine ⟨.tup _ _ hf h1, ?_, hf.after_rest, by omega, ?_⟩
        · intro a' r' h'
          cases h' with
          | val _ hp _ => exact (hp _ _ hf).elim
          | tup _ _ hf' h' =>
            obtain ⟨e, rfl⟩ := hf.unique hf'
            cases e
            exact ⟨rfl, by simp [PTup.conv, convL_eq, (h2 _ _ ⟨rfl, h'⟩).2]⟩
        · rw [tupIds, tupIdsL_eq]
          exact (h5.cons h4 (Nat.lt_succ_self _)).cons (by omega) (Nat.lt_succ_self _)
      · rintro e k' ⟨h1, h2, h3⟩
        refine ⟨?_, h2, h3⟩
        intro a' r' h'
        cases h' with
        | val _ hp _ => exact (hp _ _ hf).elim
        | tup _ _ hf' h' =>
          obtain ⟨e, rfl⟩ := hf.unique hf'
          cases e
          exact h1 _ _ ⟨rfl, h'⟩
    · have hnp : ∀ c r, ¬ First ts (.group .paren c) r := fun c r e => h (peekParen_iff.mpr ⟨c, r, e⟩)
      simp only [wp_bind]
      refine (hx d ts k hn).mono ?_ ?_
      · intro a r k' g
        simp only [wp_fresh, wp_pure]
        refine ⟨.val _ hnp g.reads, ?_, g.suf, by have := g.mono; omega, ?_⟩
        · intro a' r' h'
          cases h' with
          | val _ _ h' =>
            have := g.uniq _ _ h'
            exact ⟨this.1, by simp [PTup.conv, this.2]⟩
          | tup _ _ hf' h' => exact (hnp _ _ hf').elim
        · rw [tupIds]
          exact g.drawn.cons g.mono (Nat.lt_succ_self _)
      · rintro e k' ⟨h1, h2, h3⟩
        refine ⟨?_, h2, h3⟩
        intro a' r' h'
        cases h' with
        | val _ _ h' => exact h1 _ _ h'
        | tup _ _ hf' h' => exact (hnp _ _ hf').elim

theorem combineErrs_parse {es : List Err} (h : ∀ e ∈ es, e = .parse) : combineErrs es = .parse := by
  unfold combineErrs
  have : es.find? (fun e => decide (e ≠ .parse)) = none := by
    rw [List.find?_eq_none]
    intro e he
    simp [h e he]
  rw [this]
  rfl

theorem parseLoopElem_exact (hx : ∀ d, Exact ids d R er f x) (d : Nat) :
    Exact ids d (ReadsElem R) (elemErase er) (elemIds f) (parseLoopElem ids x) := by
  intro ts k hd
  have simple : ∀ es k1, (∀ e ∈ es, e = Err.parse) → k ≤ k1 → (∀ c r as, First ts (.group .paren c) r → ¬ CommaList (ReadsTup R) c as) →
      Wp x ts k1 (fun a r k' => PGood ids (ReadsElem R) (elemErase er) (elemIds f) ts k (.simple a) r k')
        (fun e k' => PBad (ReadsElem R) ts k (combineErrs (es ++ [e])) k') := by
    intro es k1 hes hk1 hno
    refine (hx d ts k1 hd).mono ?_ ?_
    · intro a r k' g
      refine ⟨.simple hno g.reads, ?_, g.suf, by have := g.mono; omega, g.drawn.mono hk1 (Nat.le_refl _)⟩
      intro a' r' h'
      cases h' with
      | tuple _ hf' h' => exact (hno _ _ _ hf' h').elim
      | simple _ h' =>
        have := g.uniq _ _ h'
        exact ⟨this.1, by simp [elemErase, PLoopElem.alias, this.2]⟩
    · rintro e k' ⟨h1, rfl, h3⟩
      refine ⟨?_, combineErrs_parse (by intro e he; simp at he; exact he.elim (hes e) id), by omega⟩
      intro a' r' h'
      cases h' with
      | tuple _ hf' h' => exact (hno _ _ _ hf' h').elim
      | simple _ h' => exact h1 _ _ h'
  simp only [parseLoopElem, wp_bind, wp_look]
  refine wp_ite (fun h => ?_) (fun h => ?_)
  · obtain ⟨c, r, hf⟩ := peekParen_iff.mp h
    simp only [wp_bind, wp_attempt, parseTuple, wp_parseGroup]
    refine .inl ⟨c, r, hf, ?_⟩
    simp only [wp_within]
    refine (parseTerminated_exact (parseTupleValue_exact hx (nestL c + 1) (nestL c) (by omega)) c k (Nat.le_refl _)).mono ?_ ?_
    · rintro as r' k' ⟨⟨rfl, h1⟩, h2, h3, h4, h5⟩
      simp only [if_true, wp_fresh, wp_pure]
      refine ⟨.tuple _ hf h1, ?_, hf.after_rest, by omega, ?_⟩
      · intro a' r' h'
        cases h' with
        | tuple _ hf' h' =>
          obtain ⟨e, rfl⟩ := hf.unique hf'
          cases e
          exact ⟨rfl, by simp [elemErase, PLoopElem.alias, convL_eq, (h2 _ _ ⟨rfl, h'⟩).2]⟩
        | simple hno _ => exact (hno _ _ _ hf h1).elim
      · rw [elemIds, tupIdsL_eq]
        exact h5.cons h4 (Nat.lt_succ_self _)
    · rintro e k' ⟨h1, rfl, h3⟩
      simp only [wp_pure, wp_fail]
      refine simple [.parse] k' (by simp) h3 ?_
      intro c' r' as hc hl
      obtain ⟨e, rfl⟩ := hf.unique hc
      cases e
      exact h1 _ _ ⟨rfl, hl⟩
  · simp only [wp_bind, wp_attempt, wp_pure, wp_fail]
    refine simple [] k (by simp) (Nat.le_refl _) ?_
    intro c r as hc _
    exact h (peekParen_iff.mpr ⟨c, r, hc⟩)
end

/-! ## Aliases and loops -/

theorem parseAlias_exact (ids : Nat → Nat) (d : Nat) : Exact ids d ReadsAlias (·.2) (fun a => [a.1]) (parseAlias ids) := by
  intro ts k _
  simp only [parseAlias, wp_bind, wp_parseIdentTok, wp_fresh, wp_pure]
  by_cases h : ∃ n r, First ts (.ident n) r ∧ n ∉ keywords
  · obtain ⟨n, r, hf, hn⟩ := h
    refine .inl ⟨n, r, hf, hn, .mk _ hf hn, ?_, hf.after_rest, by omega, Drawn.one (Nat.le_refl _) (by omega)⟩
    intro a' r' h'
    cases h' with
    | mk _ hf' _ =>
      obtain ⟨e, rfl⟩ := hf.unique hf'
      cases e
      exact ⟨rfl, rfl⟩
  · simp only [not_exists, not_and, Decidable.not_not] at h
    refine .inr ⟨h, ?_, rfl, Nat.le_refl _⟩
    intro a' r' h'
    cases h' with
    | mk id hf hn => exact hn (h _ _ hf)

@[simp] theorem wp_parseKw {s : Str} {ts k Q E} : Wp (parseKw s) ts k Q E ↔
    (∃ r, ts = .ident s :: r ∧ Q () r k) ∨ (∀ r, ts ≠ .ident s :: r) ∧ E .parse k := by
  rw [wp_iff]
  unfold WpRun parseKw
  rcases ts with _ | ⟨n | ⟨d, j⟩ | _ | _, ts⟩ <;> simp
  by_cases h : n = s
  · simp [h]
  · simp [h]

variable (Y : Syn) (known : Str → Bool) (ids : Nat → Nat)

theorem parseLoop_exact (d : Nat) : Exact ids d (ReadsLoop known Y) loopErase loopIds (parseLoop Y known ids) := by
  intro ts k hd
  simp only [parseLoop, wp_bind, wp_parseKw]
  by_cases h : ∃ r, ts = .ident (S "for") :: r
  · obtain ⟨ts, rfl⟩ := h
    refine .inl ⟨ts, rfl, ?_⟩
    refine (parseLoopElem_exact (fun d => parseAlias_exact ids d) (nestL ts) ts k (Nat.le_refl _)).mono ?_ ?_
    · intro a r1 k1 g1
      by_cases h2 : ∃ r, r1 = .ident (S "in") :: r
      · obtain ⟨r2, rfl⟩ := h2
        refine .inl ⟨r2, rfl, ?_⟩
        simp only [wp_parseGroup]
        by_cases h3 : ∃ c r, First r2 (.group .bracket c) r
        · obtain ⟨c, r, hf⟩ := h3
          refine .inl ⟨c, r, hf, ?_⟩
          simp only [wp_within]
          refine (parseTerminated_exact (parseLoopElem_exact (fun d => parseE_exact Y known ids d) (nestL c)) c k1 (Nat.le_refl _)).mono ?_ ?_
          · rintro vs r' k2 ⟨⟨rfl, h4⟩, h5, h6, h7, h8⟩
            have hm := g1.mono
            simp only [if_true, wp_fresh, wp_pure]
            refine ⟨.mk _ _ g1.reads hf h4, ?_, ?_, by omega, ?_⟩
            · intro a' r' h'
              cases h' with
              | mk _ _ ha hb hv =>
                have h9 := g1.uniq _ _ ha
                simp at h9
                obtain ⟨rfl, h10⟩ := h9
                obtain ⟨e, rfl⟩ := hf.unique hb
                cases e
                exact ⟨rfl, by simp [loopErase, h10, (h5 _ _ ⟨rfl, hv⟩).2]⟩
            · exact .tail (g1.suf.trans (.tail hf.after_rest))
            · rw [loopIds]
              exact ((g1.drawn.append (Nat.le_refl _) h8 hm h7).cons (by omega) (Nat.lt_succ_self _)).cons (by omega) (Nat.lt_succ_self _)
          · rintro e k' ⟨h4, h5, h6⟩
            refine ⟨?_, h5, Nat.le_trans g1.mono h6⟩
            intro a' r' h'
            cases h' with
            | mk _ _ ha hb hv =>
              have h9 := (g1.uniq _ _ ha).1
              simp at h9
              obtain rfl := h9
              obtain ⟨e, rfl⟩ := hf.unique hb
              cases e
              exact h4 _ _ ⟨rfl, hv⟩
        · refine .inr ⟨fun c r e => h3 ⟨c, r, e⟩, ?_, rfl, g1.mono⟩
          intro a' r' h'
          cases h' with
          | mk _ _ ha hb hv =>
            have h9 := (g1.uniq _ _ ha).1
            simp at h9
            exact h3 ⟨_, _, h9 ▸ hb⟩
      · refine .inr ⟨fun r e => h2 ⟨r, e⟩, ?_, rfl, g1.mono⟩
        intro a' r' h'
        cases h' with
        | mk _ _ ha hb hv => exact h2 ⟨_, (g1.uniq _ _ ha).1.symm⟩
    · rintro e k' ⟨h1, h2, h3⟩
      refine ⟨?_, h2, h3⟩
      intro a' r' h'
      cases h' with
      | mk _ _ ha hb hv => exact h1 _ _ ha
  · refine .inr ⟨fun r e => h ⟨r, e⟩, ?_, rfl, Nat.le_refl _⟩
    intro a' r' h'
    cases h' with
    | mk _ _ ha hb hv => exact h ⟨_, rfl⟩

theorem readsElem_shorter {known Y ts l r} (h : ReadsLoop known Y ts l r) : ∃ t, ts = .ident (S "for") :: t := by
  cases h; exact ⟨_, rfl⟩

theorem parseLoopList_exact : ∀ n ts k, tokCount ts < n →
    Wp (parseLoopList Y known ids n) ts k (PGood ids (ReadsLoops known Y) (List.map loopErase) (List.flatMap loopIds) ts k)
      (PBad (ReadsLoops known Y) ts k) := by
  intro n
  induction n with
  | zero => intro ts k h; omega
  | succ n ih =>
    intro ts k hn
    simp only [parseLoopList, wp_bind, wp_look]
    refine wp_ite (fun h => ?_) (fun h => ?_)
    · obtain ⟨ts, rfl⟩ := peekKw_iff.mp h
      have hfirst : ∀ {r ls}, ReadsLoops known Y (.ident (S "for") :: ts) ls r →
          ∃ l mid ls', ls = l :: ls' ∧ ReadsLoop known Y (.ident (S "for") :: ts) l mid ∧ ReadsLoops known Y mid ls' r := by
        intro r ls h
        cases h with
        | nil h => exact (h _ rfl).elim
        | cons h1 h2 => exact ⟨_, _, _, rfl, h1, h2⟩
      simp only [wp_bind]
      refine (parseLoop_exact Y known ids (nestL (.ident (S "for") :: ts)) _ k (Nat.le_refl _)).mono ?_ ?_
      · intro l mid k1 g
        have hlen : tokCount mid < n := by
          have h1 := g.reads
          cases h1 with
          | mk _ _ ha hb _ =>
            have := (parseLoopElem_exact (fun d => parseAlias_exact ids d) (nestL ts) ts 0 (Nat.le_refl _)).cases
            rcases this with ⟨a, r, k', _, g'⟩ | ⟨e, k', _, b⟩
            · have h3 := g'.suf
              rw [← (g'.uniq _ _ ha).1] at h3
              have h4 := (h3.trans (.tail hb.after_rest)).count
              have := @tokCount_cons (.ident (S "for")) ts
              omega
            · exact (b.none _ _ ha).elim
        refine (ih mid k1 hlen).mono ?_ ?_
        · intro ls r k2 g2
          simp only [wp_pure]
          refine ⟨.cons g.reads g2.reads, ?_, g.suf.trans g2.suf, Nat.le_trans g.mono g2.mono, ?_⟩
          · intro a' r' h'
            obtain ⟨l', mid', ls', rfl, h1, h2⟩ := hfirst h'
            obtain ⟨rfl, h3⟩ := g.uniq _ _ h1
            obtain ⟨rfl, h4⟩ := g2.uniq _ _ h2
            exact ⟨rfl, by simp [h3, h4]⟩
          · simpa using g.drawn.append (Nat.le_refl _) g2.drawn g.mono g2.mono
        · rintro e k' ⟨h1, h2, h3⟩
          refine ⟨?_, h2, Nat.le_trans g.mono h3⟩
          intro a' r' h'
          obtain ⟨l', mid', ls', rfl, h4, h5⟩ := hfirst h'
          obtain ⟨rfl, -⟩ := g.uniq _ _ h4
          exact h1 _ _ h5
      · rintro e k' ⟨h1, h2, h3⟩
        refine ⟨?_, h2, h3⟩
        intro a' r' h'
        obtain ⟨l', mid', ls', rfl, h4, h5⟩ := hfirst h'
        exact h1 _ _ h4
    · have hn : ∀ r, ts ≠ .ident (S "for") :: r := fun r e => h (peekKw_iff.mpr ⟨r, e⟩)
      simp only [wp_pure]
      refine ⟨.nil hn, ?_, (.refl _), Nat.le_refl _, Drawn.nil⟩
      intro a' r' h'
      cases h' with
      | nil => exact ⟨rfl, rfl⟩
      | cons h1 h2 =>
        obtain ⟨t, rfl⟩ := readsElem_shorter h1
        exact (hn _ rfl).elim

/-! ## Definitions -/

theorem sepNext_iff {rest : Toks} : (rest.isEmpty || peekPunct ',' rest || peekPunct ';' rest) = true ↔
    (rest = [] ∨ ∃ b t r, rest = t :: r ∧ IsSep b t) := by
  rw [Bool.or_eq_true, Bool.or_eq_true, peekPunct_iff, peekPunct_iff, isEmpty_iff]
  constructor
  · rintro ((h | ⟨j, r, rfl⟩) | ⟨j, r, rfl⟩)
    · exact .inl h
    · exact .inr ⟨_, _, _, rfl, .comma _⟩
    · exact .inr ⟨_, _, _, rfl, .semi _⟩
  · rintro (h | ⟨b, t, r, rfl, h⟩)
    · exact .inl (.inl h)
    · cases h with
      | comma j => exact .inl (.inr ⟨_, _, rfl⟩)
      | semi j => exact .inr ⟨_, _, rfl⟩

theorem parseItem_exact (d : Nat) : Exact ids d (ReadsItem known Y) itemErase itemIds (parseItem Y known ids) := by
  intro ts k hd
  simp only [parseItem, wp_bind]
  refine (parseAlias_exact ids (nestL ts) ts k (Nat.le_refl _)).mono ?_ ?_
  · intro a r1 k1 g1
    simp only [wp_parsePunct]
    obtain ⟨aid, n⟩ := a
    have hr := g1.reads
    have hm := g1.mono
    have hdr := g1.drawn
    cases hr with
    | mk _ hf hn =>
      by_cases h : ∃ j r, r1 = .punct '=' j :: r
      · obtain ⟨j, r2, rfl⟩ := h
        refine .inl ⟨j, r2, rfl, ?_⟩
        simp only [parseAliasValue, wp_bind, wp_look]
        refine (parseE_ok Y known ids r2 k1).mono ?_ (fun _ _ h => h.elim)
        intro e rest k2 g2
        have hm2 := g2.mono
        by_cases he : (rest.isEmpty || peekPunct ',' rest || peekPunct ';' rest) = true
        · simp only [he, Bool.not_true, Bool.false_eq_true, if_false, wp_pure, wp_bind, wp_fresh]
          have he' := sepNext_iff.mp he
          refine ⟨.mk _ _ _ hf hn g2.reads he', ?_, ?_, by omega, ?_⟩
          · intro a' r' h'
            cases h' with
            | mk _ _ _ hf' _ h' _ =>
              obtain ⟨e, e'⟩ := hf.unique hf'
              cases e; cases e'
              have := g2.uniq _ _ h'
              exact ⟨this.1, by simp [itemErase, this.2]⟩
          · exact hf.after_rest.trans (.tail g2.suf)
          · rw [itemIds]
            have := hdr.append (Nat.le_refl _) g2.drawn hm hm2
            exact (this.cons (by omega) (Nat.lt_succ_self _)).cons (by omega) (Nat.lt_succ_self _)
        · simp only [he, Bool.not_false, if_true, wp_fail, wp_bind]
          refine ⟨?_, rfl, by omega⟩
          intro a' r' h'
          cases h' with
          | mk _ _ _ hf' _ h' he' =>
            obtain ⟨e, e'⟩ := hf.unique hf'
            cases e; cases e'
            obtain ⟨rfl, -⟩ := g2.uniq _ _ h'
            exact he (sepNext_iff.mpr he')
      · refine .inr ⟨fun j r e => h ⟨j, r, e⟩, ?_, rfl, hm⟩
        intro a' r' h'
        cases h' with
        | mk _ _ _ hf' =>
          obtain ⟨e, e'⟩ := hf.unique hf'
          exact h ⟨_, _, e'.symm⟩
  · rintro e k' ⟨h1, h2, h3⟩
    refine ⟨?_, h2, h3⟩
    intro a' r' h'
    cases h' with
    | mk _ _ _ hf hn => exact h1 _ _ (.mk 0 hf hn)

theorem wp_parseSep {ts k Q E} (h1 : ∀ b t r, ts = t :: r → IsSep b t → Q b r k)
    (h2 : (∀ b t r, ts = t :: r → ¬ IsSep b t) → E .parse k) : Wp parseSep ts k Q E := by
  rw [wp_iff]
  unfold WpRun parseSep
  rcases ts with _ | ⟨n | ⟨c, j⟩ | _ | _, ts⟩ <;> simp only
  · exact h2 (by simp)
  · refine h2 ?_; intro b t r e h; cases e; cases h
  · by_cases hc : c = ','
    · subst hc
      simpa using h1 _ _ _ rfl (.comma _)
    · by_cases hs : c = ';'
      · subst hs
        simpa using h1 _ _ _ rfl (.semi _)
      · simp only [beq_iff_eq, hc, hs, if_false]
        refine h2 ?_; intro b t r e h; cases e; cases h <;> simp_all
  · refine h2 ?_; intro b t r e h; cases e; cases h
  · refine h2 ?_; intro b t r e h; cases e; cases h

theorem sep_unique {b c t} (h : IsSep b t) (h' : IsSep c t) : b = c := by cases h <;> cases h' <;> rfl

/-- All separators are the same, also the same as the one used before. -/
def Agree (used : Option Bool) (bs : List Bool) : Prop := ∀ b ∈ bs, ∀ c ∈ used.toList ++ bs, b = c

theorem agree_cons {used : Option Bool} {b : Bool} {bs : List Bool} :
    Agree used (b :: bs) ↔ mixes used b = false ∧ Agree (some b) bs := by
  unfold Agree
  cases used with
  | none => simp [mixes]; grind
  | some u => simp [mixes]; grind

/-- The result of `parseItems`. -/
structure GoodItems (used : Option Bool) (ts : Toks) (k : Nat) (a : List PItem × Option Bool) (r : Toks) (k' : Nat) : Prop where
  reads : ∃ bs, ReadsItems known Y ts a.1 bs r ∧ Agree used bs ∧ a.2 = used.or bs.head? ∧
    ∀ items' bs' r', ReadsItems known Y ts items' bs' r' → r' = r ∧ bs' = bs ∧ items'.map itemErase = a.1.map itemErase
  suf : After ts r
  mono : k ≤ k'
  drawn : Drawn ids k k' (a.1.flatMap itemIds)

theorem parseItems_exact : ∀ n used ts k, tokCount ts < n →
    Wp (parseItems Y known ids n used) ts k (GoodItems Y known ids used ts k)
      (fun e k' => e = .parse ∧ k ≤ k' ∧ ∀ items bs r, ReadsItems known Y ts items bs r → ¬ Agree used bs) := by
  intro n
  induction n with
  | zero => intro used ts k h; omega
  | succ n ih =>
    intro used ts k hn
    simp only [parseItems, wp_bind]
    refine (parseItem_exact Y known ids (nestL ts) ts k (Nat.le_refl _)).mono ?_ ?_
    · intro i r k1 g
      simp only [wp_look]
      refine wp_ite (fun h => ?_) (fun h => ?_)
      · rw [isEmpty_iff] at h
        subst h
        simp only [wp_pure]
        refine ⟨⟨[], .last g.reads, by simp [Agree], by simp, ?_⟩, g.suf, g.mono, by simpa using g.drawn⟩
        intro items' bs' r' h'
        cases h' with
        | last h => exact ⟨rfl, rfl, by simp [(g.uniq _ _ h).2]⟩
        | lastSep h => have := (g.uniq _ _ h).1; simp at this
        | cons h => have := (g.uniq _ _ h).1; simp at this
      · rw [isEmpty_iff] at h
        simp only [wp_bind]
        have hfirst : ∀ {items bs r'}, ReadsItems known Y ts items bs r' → ∃ b t rest bs', r = t :: rest ∧ IsSep b t ∧ bs = b :: bs' := by
          intro items bs r' h'
          cases h' with
          | last h' => exact (h (g.uniq _ _ h').1.symm).elim
          | lastSep h' hs => exact ⟨_, _, _, _, (g.uniq _ _ h').1.symm, hs, rfl⟩
          | cons h' hs => exact ⟨_, _, _, _, (g.uniq _ _ h').1.symm, hs, rfl⟩
        refine wp_parseSep ?_ ?_
        · rintro b t rest rfl hb
          by_cases hmix : mixes used b = true
          · simp only [hmix, if_true, wp_fail, wp_bind]
            refine ⟨trivial, g.mono, ?_⟩
            intro items bs r' h' ha
            obtain ⟨b', t', rest', bs', he, hs, rfl⟩ := hfirst h'
            cases he
            rw [← sep_unique hb hs, agree_cons, hmix] at ha
            simp at ha
          · have hmix' : mixes used b = false := by simpa using hmix
            have hused : used.getD b = b := by
              cases used with
              | none => rfl
              | some u => simp [mixes] at hmix'; simpa using hmix'
            simp only [hmix', Bool.false_eq_true, if_false, wp_bind, wp_look, hused]
            refine wp_ite (fun hi => ?_) (fun hi => ?_)
            · have hni : ∀ n r, First rest (.ident n) r → n ∈ keywords := by
                intro n r e
                by_cases hk : n ∈ keywords
                · exact hk
                · rw [peekIdent_iff.mpr ⟨n, r, e, hk⟩] at hi
                  simp at hi
              simp only [wp_pure]
              refine ⟨⟨[b], .lastSep g.reads hb hni, ?_, ?_, ?_⟩, g.suf.trans .cons, g.mono, by simpa using g.drawn⟩
              · rw [agree_cons]; exact ⟨hmix', by simp [Agree]⟩
              · cases used with
                | none => rfl
                | some u => simpa using hused.symm
              · intro items' bs' r' h'
                cases h' with
                | last h' => have := (g.uniq _ _ h').1; simp at this
                | lastSep h' hs _ =>
                  have h1 := g.uniq _ _ h'
                  simp at h1
                  obtain ⟨⟨rfl, rfl⟩, h1⟩ := h1
                  exact ⟨rfl, by rw [sep_unique hs hb], by simp [h1]⟩
                | cons h' hs hm hk _ =>
                  have h1 := (g.uniq _ _ h').1
                  simp at h1
                  exact (hk (hni _ _ (h1.2 ▸ hm))).elim
            · simp only [Bool.not_eq_true', Bool.not_eq_false] at hi
              obtain ⟨nm, mid, hf, hk⟩ := peekIdent_iff.mp hi
              simp only [wp_bind]
              have hlen : tokCount rest < n := by
                have := g.suf.count
                have := @tokCount_cons t rest
                omega
              refine (ih (some b) rest k1 hlen).mono ?_ ?_
              · rintro ⟨items, used'⟩ r' k2 ⟨⟨bs, h1, h2, h3, h4⟩, h5, h6, h7⟩
                simp only [wp_pure]
                refine ⟨⟨b :: bs, .cons g.reads hb hf hk h1, ?_, ?_, ?_⟩, g.suf.trans (.tail h5),
                  Nat.le_trans g.mono h6, ?_⟩
                · rw [agree_cons]; exact ⟨hmix', h2⟩
                · simp only at h3
                  rw [h3]
                  cases used with
                  | none => rfl
                  | some u => simpa using hused.symm
                · intro items' bs' r' h'
                  cases h' with
                  | last h' => have := (g.uniq _ _ h').1; simp at this
                  | lastSep h' _ hni =>
                    have h1 := (g.uniq _ _ h').1
                    simp at h1
                    exact (hk (hni _ _ (h1.2 ▸ hf))).elim
                  | cons h' hs _ _ hr =>
                    have h8 := g.uniq _ _ h'
                    simp at h8
                    obtain ⟨⟨rfl, rfl⟩, h8⟩ := h8
                    obtain ⟨rfl, rfl, h9⟩ := h4 _ _ _ hr
                    exact ⟨rfl, by rw [sep_unique hs hb], by simp [h8, h9]⟩
                · simpa using g.drawn.append (Nat.le_refl _) h7 g.mono h6
              · rintro e k2 ⟨rfl, h1, h2⟩
                refine ⟨rfl, Nat.le_trans g.mono h1, ?_⟩
                intro items bs r' h' ha
                cases h' with
                | last h' => have := (g.uniq _ _ h').1; simp at this
                | lastSep h' _ hni =>
                  have h1 := (g.uniq _ _ h').1
                  simp at h1
                  exact (hk (hni _ _ (h1.2 ▸ hf))).elim
                | cons h' hs _ _ hr =>
                  have h8 := (g.uniq _ _ h').1
                  simp at h8
                  obtain ⟨rfl, rfl⟩ := h8
                  rw [sep_unique hs hb, agree_cons] at ha
                  exact h2 _ _ _ hr ha.2
        · intro hno
          refine ⟨rfl, g.mono, ?_⟩
          intro items bs r' h' _
          obtain ⟨b', t', rest', bs', he, hs, rfl⟩ := hfirst h'
          exact hno _ _ _ he hs
    · rintro e k1 ⟨h1, h2, h3⟩
      refine ⟨h2, h3, ?_⟩
      intro items bs r h'
      cases h' with
      | last h' => exact (h1 _ _ h').elim
      | lastSep h' => exact (h1 _ _ h').elim
      | cons h' => exact (h1 _ _ h').elim

theorem agree_none {bs : List Bool} : Agree none bs ↔ ∀ b ∈ bs, ∀ c ∈ bs, b = c := by simp [Agree]

theorem parseSpec_exact (d : Nat) : Exact ids d (ReadsSpec known Y) specErase pspecIds (parseSpec Y known ids) := by
  intro ts k _
  simp only [parseSpec, wp_bind, wp_look]
  refine (parseItems_exact Y known ids (tokCount ts + 1) none ts k (by omega)).mono ?_ ?_
  · rintro ⟨items, used⟩ r k' ⟨⟨bs, h1, h2, h3, h4⟩, h5, h6, h7⟩
    simp only [wp_fresh, wp_pure]
    simp at h3
    subst h3
    refine ⟨.mk _ h1 (agree_none.mp h2), ?_, h5, by omega, ?_⟩
    · intro a' r' h'
      cases h' with
      | mk _ h _ =>
        obtain ⟨rfl, rfl, h8⟩ := h4 _ _ _ h
        exact ⟨rfl, by simpa [specErase] using h8⟩
    · exact h7.cons h6 (Nat.lt_succ_self _)
  · rintro e k' ⟨rfl, h1, h2⟩
    refine ⟨?_, rfl, h1⟩
    intro a' r' h'
    cases h' with
    | mk _ h hb => exact h2 _ _ _ h (agree_none.mpr hb)

/-! ## Whole inputs -/

theorem optLoops_exact (d : Nat) : Exact ids d (ReadsOptLoops Y known) (Option.map fun l => l.loops.map loopErase)
    (fun l => l.toList.flatMap loopsIds)
    (parseOptLoops Y known ids) := by
  intro ts k hd
  simp only [parseOptLoops, wp_bind, wp_look]
  refine wp_ite (fun h => ?_) (fun h => ?_)
  · have hf := peekKw_iff.mp h
    simp only [parseLoops, wp_bind, wp_look]
    refine (parseLoopList_exact Y known ids (tokCount ts + 1) ts k (by omega)).mono ?_ ?_
    · intro ls r k' g
      have hne : ls ≠ [] := by
        rintro rfl
        have := g.reads
        cases this with
        | nil hn => obtain ⟨r, rfl⟩ := hf; exact hn _ rfl
      have hne' : ls.isEmpty = false := by cases ls <;> simp_all
      simp only [hne', Bool.false_eq_true, if_false, wp_pure, wp_bind, wp_fresh]
      refine ⟨.inr ⟨_, _, rfl, hne, g.reads⟩, ?_, g.suf, by have := g.mono; omega, ?_⟩
      · rintro a' r' (⟨-, -, hn⟩ | ⟨id, l, rfl, -, h'⟩)
        · obtain ⟨r, rfl⟩ := hf; exact (hn _ rfl).elim
        · have := g.uniq _ _ h'
          exact ⟨this.1, by simp [this.2]⟩
      · simp only [Option.toList_some, List.flatMap_cons, List.flatMap_nil, List.append_nil, loopsIds]
        exact g.drawn.cons g.mono (Nat.lt_succ_self _)
    · rintro e k' ⟨h1, h2, h3⟩
      refine ⟨?_, h2, h3⟩
      rintro a' r' (⟨-, -, hn⟩ | ⟨id, l, rfl, -, h'⟩)
      · obtain ⟨r, rfl⟩ := hf; exact (hn _ rfl).elim
      · exact h1 _ _ h'
  · have hn : ∀ r, ts ≠ .ident (S "for") :: r := fun r e => h (peekKw_iff.mpr ⟨r, e⟩)
    simp only [wp_pure]
    refine ⟨.inl ⟨rfl, rfl, hn⟩, ?_, (.refl _), Nat.le_refl _, by simpa using Drawn.nil⟩
    rintro a' r' (⟨rfl, rfl, -⟩ | ⟨id, l, rfl, hne, h'⟩)
    · exact ⟨rfl, rfl⟩
    · cases h' with
      | nil => exact (hne rfl).elim
      | cons h1 h2 =>
        obtain ⟨t, rfl⟩ := readsElem_shorter h1
        exact (hn _ rfl).elim

theorem optSpec_exact (d : Nat) : Exact ids d (ReadsOptSpec Y known) (Option.map specErase) (fun s => s.toList.flatMap pspecIds)
    (parseOptSpec Y known ids) := by
  intro ts k hd
  simp only [parseOptSpec, wp_bind, wp_look]
  refine wp_ite (fun h => ?_) (fun h => ?_)
  · have hf := peekIdent_iff.mp h
    simp only [wp_bind]
    refine (parseSpec_exact Y known ids d ts k hd).mono ?_ ?_
    · intro s r k' g
      simp only [wp_pure]
      refine ⟨.inr ⟨_, rfl, hf, g.reads⟩, ?_, g.suf, g.mono, by simpa using g.drawn⟩
      rintro a' r' (⟨-, -, hn⟩ | ⟨s', rfl, -, h'⟩)
      · obtain ⟨n, r, hf, hk⟩ := hf; exact (hk (hn _ _ hf)).elim
      · have := g.uniq _ _ h'
        exact ⟨this.1, by simp [this.2]⟩
    · rintro e k' ⟨h1, h2, h3⟩
      refine ⟨?_, h2, h3⟩
      rintro a' r' (⟨-, -, hn⟩ | ⟨s', rfl, -, h'⟩)
      · obtain ⟨n, r, hf, hk⟩ := hf; exact (hk (hn _ _ hf)).elim
      · exact h1 _ _ h'
  · have hn : ∀ n r, First ts (.ident n) r → n ∈ keywords := by
      intro n r e
      by_cases hk : n ∈ keywords
      · exact hk
      · exact (h (peekIdent_iff.mpr ⟨n, r, e, hk⟩)).elim
    simp only [wp_pure]
    refine ⟨.inl ⟨rfl, rfl, hn⟩, ?_, (.refl _), Nat.le_refl _, by simpa using Drawn.nil⟩
    rintro a' r' (⟨rfl, rfl, -⟩ | ⟨s', rfl, ⟨n, r, hf, hk⟩, -⟩)
    · exact ⟨rfl, rfl⟩
    · exact (hk (hn _ _ hf)).elim

theorem parseHeader_exact (d : Nat) : Exact ids d (ReadsHeader known Y) headerErase headerIds (parseHeader Y known ids) := by
  intro ts k hd
  have h1 := optLoops_exact Y known ids d ts k hd
  simp only [parseHeader, wp_bind]
  refine h1.mono ?_ ?_
  · intro ls mid k1 g
    have hd2 : nestL mid ≤ d := Nat.le_trans g.suf.nest hd
    have h2 := optSpec_exact Y known ids d mid k1 hd2
    refine h2.mono ?_ ?_
    · intro s r k2 g2
      simp only [wp_pure]
      refine ⟨.mk g.reads g2.reads, ?_, g.suf.trans g2.suf, Nat.le_trans g.mono g2.mono, ?_⟩
      · intro a' r' h'
        cases h' with
        | mk hl hs =>
          obtain ⟨rfl, h3⟩ := g.uniq _ _ hl
          obtain ⟨rfl, h4⟩ := g2.uniq _ _ hs
          exact ⟨rfl, by simp [headerErase, h3, h4]⟩
      · exact g.drawn.append (Nat.le_refl _) g2.drawn g.mono g2.mono
    · rintro e k' ⟨h3, h4, h5⟩
      refine ⟨?_, h4, Nat.le_trans g.mono h5⟩
      intro a' r' h'
      cases h' with
      | mk hl hs =>
        obtain ⟨rfl, h3⟩ := g.uniq _ _ hl
        exact h3 _ _ hs
  · rintro e k' ⟨h3, h4, h5⟩
    refine ⟨?_, h4, h5⟩
    intro a' r' h'
    cases h' with
    | mk hl hs => exact h3 _ _ hl

/-! ## Separators at the end -/

/-- What may follow the block. -/
inductive ReadsTail : Toks → Option Bool → Toks → Prop
  | none {ts : Toks} (h : ∀ b t r, ts = t :: r → ¬ IsSep b t) : ReadsTail ts none ts
  | some {t : Tok} {r : Toks} {b : Bool} (h : IsSep b t) : ReadsTail (t :: r) (some b) r

theorem wp_parseOptSep {ts k Q E} (h : ∀ s r, ReadsTail ts s r → Q s r k) : Wp parseOptSep ts k Q E := by
  simp only [parseOptSep, wp_bind, wp_look]
  refine wp_ite (fun h1 => ?_) (fun h1 => ?_)
  · obtain ⟨j, r, rfl⟩ := peekPunct_iff.mp h1
    simp only [wp_bind, wp_parsePunct, wp_pure]
    exact .inl ⟨j, r, rfl, h _ _ (.some (.comma j))⟩
  · simp only [wp_bind, wp_look]
    refine wp_ite (fun h2 => ?_) (fun h2 => ?_)
    · obtain ⟨j, r, rfl⟩ := peekPunct_iff.mp h2
      simp only [wp_bind, wp_parsePunct, wp_pure]
      exact .inl ⟨j, r, rfl, h _ _ (.some (.semi j))⟩
    · simp only [wp_pure]
      refine h _ _ (.none ?_)
      intro b t r e hs
      subst e
      cases hs with
      | comma j => exact h1 (peekPunct_iff.mpr ⟨_, _, rfl⟩)
      | semi j => exact h2 (peekPunct_iff.mpr ⟨_, _, rfl⟩)

theorem withWarning_eq {α : Type} {warn : Bool} {sv : Service} (hb : 1 ≤ sv.borrowed) (x : Res (α × Toks) × Nat) :
    withWarning warn (some sv) x = (x.1, x.2, some (if warn then sv.addSemicolonWarning else sv)) := by
  unfold withWarning
  have : sv.borrowed ≠ 0 := by omega
  cases warn <;> simp [ThreadCell.scoped, ThreadCell.dropScope, ThreadCell.addSemicolonWarning, Service.addSemicolonWarning, this]

theorem parseTail_eq {loops spec block ts k s r} (h : ReadsTail ts s r) : parseTail ids loops spec block ts k =
    if mixesTail s spec then (.err .parse, k) else (.ok (⟨ids k, loops, spec, block⟩, r), k + 1) := by
  have h1 : parseOptSep ts k = (.ok (s, r), k) := by
    cases h with
    | none h =>
      have h1 : peekPunct ',' ts = false := by
        cases hp : peekPunct ',' ts
        · rfl
        · obtain ⟨j, r, rfl⟩ := peekPunct_iff.mp hp; exact (h _ _ _ rfl (.comma j)).elim
      have h2 : peekPunct ';' ts = false := by
        cases hp : peekPunct ';' ts
        · rfl
        · obtain ⟨j, r, rfl⟩ := peekPunct_iff.mp hp; exact (h _ _ _ rfl (.semi j)).elim
      simp [parseOptSep, bind, P.bind, P.look, h1, h2, pure]
    | some h =>
      cases h <;> simp [parseOptSep, bind, P.bind, P.look, peekPunct, parsePunct, pure]
  cases hm : mixesTail s spec <;> simp [parseTail, bind, P.bind, h1, hm, P.fail, P.fresh, pure]

theorem readsTail_exists (ts : Toks) : ∃ s r, ReadsTail ts s r := by
  by_cases h : ∃ b t r, ts = t :: r ∧ IsSep b t
  · obtain ⟨b, t, r, rfl, h⟩ := h
    exact ⟨_, _, .some h⟩
  · exact ⟨_, _, .none (fun b t r e hs => h ⟨b, t, r, e, hs⟩)⟩

theorem readsTail_unique {ts s r s' r'} (h : ReadsTail ts s r) (h' : ReadsTail ts s' r') : s' = s ∧ r' = r := by
  cases h with
  | none h =>
    cases h' with
    | none => exact ⟨rfl, rfl⟩
    | some h' => exact (h _ _ _ rfl h').elim
  | some h =>
    cases h' with
    | none h' => exact (h' _ _ _ rfl h).elim
    | some h' => exact ⟨by rw [sep_unique h h'], rfl⟩

/-- Everything up to the block. -/
def ReadsFront (ts : Toks) (a : (Option PLoops × Option PSpec) × List Stmt) (r : Toks) : Prop :=
  ∃ b mid, ReadsHeader known Y ts a.1 mid ∧ First mid (.group .brace b) r ∧ Y.parseBlock b = some a.2

theorem parseFront_exact (d : Nat) : Exact ids d (ReadsFront Y known) (fun a => (headerErase a.1, a.2)) (fun a => headerIds a.1)
    (parseFront Y known ids) := by
  intro ts k hd
  simp only [parseFront, wp_bind]
  refine (parseHeader_exact Y known ids d ts k hd).mono ?_ ?_
  · intro h r k1 g
    simp only [parseBlockTok, wp_bind, wp_parseGroup]
    by_cases hb : ∃ b r', First r (.group .brace b) r'
    · obtain ⟨b, r', hf⟩ := hb
      refine .inl ⟨b, r', hf, ?_⟩
      cases hp : Y.parseBlock b with
      | none =>
        simp only [wp_fail]
        refine ⟨?_, rfl, g.mono⟩
        rintro a' r2 ⟨b', mid, h1, hf', h2⟩
        obtain rfl := (g.uniq _ _ h1).1
        obtain ⟨e, rfl⟩ := hf.unique hf'
        cases e
        rw [hp] at h2
        cases h2
      | some block =>
        simp only [wp_pure]
        refine ⟨⟨b, r, g.reads, hf, hp⟩, ?_, g.suf.trans hf.after_rest, g.mono, g.drawn⟩
        rintro ⟨h', bl⟩ r2 ⟨b', mid, h1, hf', h2⟩
        obtain ⟨rfl, h3⟩ := g.uniq _ _ h1
        obtain ⟨e, rfl⟩ := hf.unique hf'
        cases e
        rw [hp] at h2
        cases h2
        exact ⟨rfl, by simp [h3]⟩
    · refine .inr ⟨fun c r' e => hb ⟨c, r', e⟩, ?_, rfl, g.mono⟩
      rintro a' r2 ⟨b', mid, h1, hf', h2⟩
      obtain rfl := (g.uniq _ _ h1).1
      exact hb ⟨_, _, hf'⟩
  · rintro e k' ⟨h1, h2, h3⟩
    refine ⟨?_, h2, h3⟩
    rintro a' r2 ⟨b', mid, h4, h5⟩
    exact h1 _ _ h4

/-- What a parser of a whole input does: it succeeds with the only reading there is, or fails if there is none; a warning may have
been added. -/
inductive POutcome (R : Toks → PAst → Prop) (ts : Toks) (k : Nat) (sv : Service) : Res PAst × Nat × ThreadCell → Prop
  | ok (a : PAst) (k' : Nat) (h : R ts a) (hu : ∀ a', R ts a' → astErase a' = astErase a) (hk : k ≤ k') (hd : Drawn ids k k' (astIds a)) :
      POutcome R ts k sv (.ok a, k', some (if usesSemicolon a.spec then sv.addSemicolonWarning else sv))
  | err (k' : Nat) (warn : Bool) (h : ∀ a, ¬ R ts a) (hk : k ≤ k') :
      POutcome R ts k sv (.err .parse, k', some (if warn then sv.addSemicolonWarning else sv))

/-- Definitions before a block end with a separator. -/
theorem readsItems_sep {ts items bs r} (hr : r ≠ []) (h : ReadsItems known Y ts items bs r) : bs ≠ [] := by
  cases h <;> simp_all

theorem readsHeader_comma {ts ls s r} (hr : r ≠ []) (h : ReadsHeader known Y ts (ls, some s) r) : ∃ c, s.comma = some c := by
  cases h with
  | mk hl hs =>
    rcases hs with ⟨h, _⟩ | ⟨s', h, _, hs⟩
    · cases h
    · cases h
      cases hs with
      | mk id h hb =>
        have := readsItems_sep Y known hr h
        rename_i bs
        cases bs with
        | nil => exact (this rfl).elim
        | cons b bs => exact ⟨b, rfl⟩

theorem usesSemicolon_erase {s s' : Option PSpec} (h : s.map specErase = s'.map specErase) : usesSemicolon s = usesSemicolon s' := by
  cases s <;> cases s' <;> simp_all [usesSemicolon, specErase]

theorem parseRawAst_outcome (ts : Toks) (k : Nat) (sv : Service) (hb : 1 ≤ sv.borrowed) :
    POutcome ids (ReadsInput known Y) ts k sv (parseRawAst Y known ids ts k (some sv)) := by
  unfold parseRawAst
  rcases (parseFront_exact Y known ids (nestL ts) ts k (Nat.le_refl _)).cases with ⟨⟨⟨ls, s⟩, block⟩, r, k1, h1, g⟩ | ⟨e, k1, h1, b⟩
  · rw [h1]
    simp only
    obtain ⟨b, mid, hh, hf, hbl⟩ := g.reads
    obtain ⟨sep, r', ht⟩ := readsTail_exists r
    rw [parseTail_eq ids ht, withWarning_eq hb]
    have hcomma : ∀ s', s = some s' → ∃ c, s'.comma = some c := by
      rintro s' rfl
      exact readsHeader_comma Y known (by rintro rfl; cases hf) hh
    have tail_of : ∀ {a}, ReadsInput known Y ts a → (∃ r, ReadsTail r sep r' ∧ r' = []) ∧ mixesTail sep s = false ∧
        astErase a = (headerErase (ls, s), block) := by
      intro a ha
      cases ha with
      | mk id h hm hb ht' =>
        rename_i mid' b' tail ls' s' block'
        obtain ⟨h2, h3⟩ := g.uniq (_, _) _ ⟨_, _, h, hm, hb⟩
        simp at h3
        obtain ⟨h3, h4⟩ := h3
        subst h2
        have hs : s'.map specErase = s.map specErase := by
          have := congrArg Prod.snd h3
          exact this
        have htr : r' = [] ∧ (sep = none ∨ ∃ c, sep = some c ∧ ∀ s2, s' = some s2 → s2.comma = some c) := by
          rcases ht' with rfl | ⟨c, t, rfl, hsep, hc⟩
          · cases ht with
            | none => exact ⟨rfl, .inl rfl⟩
          · cases ht with
            | none h => exact (h _ _ _ rfl hsep).elim
            | some h => exact ⟨rfl, .inr ⟨_, rfl, by rw [sep_unique h hsep]; exact hc⟩⟩
        refine ⟨⟨tail, ht, htr.1⟩, ?_, by simp [astErase, h3, h4]⟩
        rcases htr.2 with rfl | ⟨c, rfl, hc⟩
        · rfl
        · cases s with
          | none => rfl
          | some s =>
            cases s' with
            | none => simp at hs
            | some s2 =>
              simp only [Option.map_some, Option.some.injEq] at hs
              have h5 : s2.comma = s.comma := congrArg Prod.snd hs
              have h6 := hc s2 rfl
              rw [h5] at h6
              simp [mixesTail, h6]
    by_cases hm : mixesTail sep s = true
    · rw [if_pos hm]
      simp only [atEnd]
      refine .err k1 _ ?_ g.mono
      intro a ha
      have := (tail_of ha).2.1
      rw [hm] at this
      cases this
    · rw [if_neg hm]
      cases r' with
      | nil =>
        simp only [atEnd]
        have hr : ReadsInput known Y ts ⟨ids k1, ls, s, block⟩ := by
          refine .mk _ hh hf hbl ?_
          cases ht with
          | none => exact .inl rfl
          | some h =>
            rename_i t c
            refine .inr ⟨c, t, rfl, h, ?_⟩
            rintro s' rfl
            obtain ⟨c', hc'⟩ := hcomma _ rfl
            rw [hc']
            simp [mixesTail, hc'] at hm
            rw [hm]
        exact .ok _ _ hr (fun a' ha' => by rw [(tail_of ha').2.2]; rfl) (by have := g.mono; omega)
          (g.drawn.cons g.mono (Nat.lt_succ_self _))
      | cons t r' =>
        simp only [atEnd]
        refine .err (k1 + 1) _ ?_ (by have := g.mono; omega)
        intro a ha
        obtain ⟨⟨_, _, h⟩, _⟩ := tail_of ha
        cases h
  · rw [h1]
    cases b.parse
    refine .err k1 false ?_ b.mono
    intro a ha
    cases ha with
    | mk id h hm hb _ => exact b.none (_, _) _ ⟨_, _, h, hm, hb⟩

/-- What may follow the definitions in an attribute. -/
inductive ReadsAttrTail (ls : Option PLoops) (s : Option PSpec) : Toks → Option Toks → Prop
  | used {t : Tok} {r : Toks} {b : Bool} (h : IsSep b t) (hs : s.isSome) : ReadsAttrTail ls s (t :: r) (some r)
  | error {t : Tok} {r : Toks} {b : Bool} (h : IsSep b t) (hs : s = none) (hl : ls.isSome) : ReadsAttrTail ls s (t :: r) none
  | left {ts : Toks} (h : (∀ b t r, ts = t :: r → ¬ IsSep b t) ∨ (s = none ∧ ls = none)) : ReadsAttrTail ls s ts (some ts)

theorem parseAttrSep_eq {ls s ts k} : ∃ o, ReadsAttrTail ls s ts o ∧
    parseAttrSep ls s ts k = (match o with | some r => (.ok ((), r), k) | none => (.err .parse, k)) := by
  by_cases h : ∃ b t r, ts = t :: r ∧ IsSep b t
  · obtain ⟨b, t, r, rfl, h⟩ := h
    have hp : (peekPunct ',' (t :: r) || peekPunct ';' (t :: r)) = true := by cases h <;> rfl
    cases s with
    | some s =>
      refine ⟨some r, .used h rfl, ?_⟩
      cases h <;> simp [parseAttrSep, bind, P.bind, P.look, peekPunct, parsePunct]
    | none =>
      cases ls with
      | some ls =>
        refine ⟨none, .error h rfl rfl, ?_⟩
        simp [parseAttrSep, bind, P.bind, P.look, P.fail, hp]
      | none =>
        refine ⟨some (t :: r), .left (.inr ⟨rfl, rfl⟩), ?_⟩
        simp [parseAttrSep, bind, P.bind, P.look, pure, hp]
  · refine ⟨some ts, .left (.inl fun b t r e hs => h ⟨b, t, r, e, hs⟩), ?_⟩
    have h1 : peekPunct ',' ts = false := by
      cases hp : peekPunct ',' ts
      · rfl
      · obtain ⟨j, r, rfl⟩ := peekPunct_iff.mp hp; exact (h ⟨_, _, _, rfl, .comma j⟩).elim
    have h2 : peekPunct ';' ts = false := by
      cases hp : peekPunct ';' ts
      · rfl
      · obtain ⟨j, r, rfl⟩ := peekPunct_iff.mp hp; exact (h ⟨_, _, _, rfl, .semi j⟩).elim
    simp [parseAttrSep, bind, P.bind, P.look, h1, h2, pure]

theorem parseAttr_outcome (ts : Toks) (k : Nat) (sv : Service) (hb : 1 ≤ sv.borrowed) :
    POutcome ids (ReadsAttr known Y) ts k sv (parseAttr Y known ids ts k (some sv)) := by
  unfold parseAttr
  rcases (parseHeader_exact Y known ids (nestL ts) ts k (Nat.le_refl _)).cases with ⟨⟨ls, s⟩, r, k1, h1, g⟩ | ⟨e, k1, h1, b⟩
  · rw [h1]
    simp only
    obtain ⟨o, ho, heq⟩ := parseAttrSep_eq (ls := ls) (s := s) (ts := r) (k := k1)
    have htail : parseAttrTail ids ls s r k1 =
        match o with | some r => (.ok (⟨ids k1, ls, s, []⟩, r), k1 + 1) | none => (.err .parse, k1) := by
      cases o <;> simp [parseAttrTail, bind, P.bind, heq, P.fresh, pure]
    rw [htail, withWarning_eq hb]
    have tail_of : ∀ {a}, ReadsAttr known Y ts a → o = some [] ∧ astErase a = (headerErase (ls, s), []) := by
      intro a ha
      cases ha with
      | mk id h ht' =>
        rename_i tail ls' s'
        obtain ⟨rfl, h3⟩ := g.uniq _ _ h
        refine ⟨?_, by simp [astErase, h3]⟩
        have hs : s'.isSome = s.isSome := by
          have : s'.map specErase = s.map specErase := congrArg Prod.snd h3
          cases s <;> cases s' <;> simp_all
        rcases ht' with rfl | ⟨hsome, c, t, rfl, hsep⟩
        · cases ho with
          | left => rfl
        · rw [hs] at hsome
          cases ho with
          | used => rfl
          | error _ h => simp [h] at hsome
          | left h =>
            rcases h with h | ⟨h, _⟩
            · exact (h _ _ _ rfl hsep).elim
            · simp [h] at hsome
    cases o with
    | none =>
      simp only [atEnd]
      refine .err k1 _ (fun a ha => ?_) g.mono
      have := (tail_of ha).1
      simp at this
    | some r' =>
      cases r' with
      | nil =>
        simp only [atEnd]
        have hr : ReadsAttr known Y ts ⟨ids k1, ls, s, []⟩ := by
          cases ho with
          | used h hs => exact .mk _ g.reads (.inr ⟨hs, _, _, rfl, h⟩)
          | left h => exact .mk _ g.reads (.inl rfl)
        exact .ok _ _ hr (fun a' ha' => by rw [(tail_of ha').2]; rfl) (by have := g.mono; omega)
          (g.drawn.cons g.mono (Nat.lt_succ_self _))
      | cons t r' =>
        simp only [atEnd]
        refine .err (k1 + 1) _ (fun a ha => ?_) (by have := g.mono; omega)
        have := (tail_of ha).1
        simp at this
  · rw [h1]
    cases b.parse
    refine .err k1 false ?_ b.mono
    intro a ha
    cases ha with
    | mk id h _ => exact b.none _ _ h

end Verif
