import Verif.Proofs.Heads
import Verif.Spec.Typing
/-! # The parser recognises the syntax of `Verif.Spec.Syntax` -/

namespace Verif
open Spec

/-! ## Weakest preconditions -/

/-- See `Wp`. -/
def WpRun {α : Type} (x : P α) (ts : Toks) (k : Nat) (Q : α → Toks → Nat → Prop) (E : Err → Nat → Prop) : Prop :=
  match x ts k with
  | (.ok (a, r), k') => Q a r k'
  | (.err e, k') => E e k'
  | (.panic, _) => False

/-- `x` does not panic; it succeeds with `Q` or fails with `E`. (A structure, so that it is never unfolded by accident.) -/
structure Wp {α : Type} (x : P α) (ts : Toks) (k : Nat) (Q : α → Toks → Nat → Prop) (E : Err → Nat → Prop) : Prop where
  run : WpRun x ts k Q E

section
variable {α β : Type} {ts : Toks} {k : Nat}

theorem wp_iff {x : P α} {Q E} : Wp x ts k Q E ↔ WpRun x ts k Q E := ⟨fun h => h.run, fun h => ⟨h⟩⟩

theorem Wp.mono {x : P α} {Q Q' : α → Toks → Nat → Prop} {E E' : Err → Nat → Prop} (h : Wp x ts k Q E)
    (hQ : ∀ a r k', Q a r k' → Q' a r k') (hE : ∀ e k', E e k' → E' e k') : Wp x ts k Q' E' := by
  rw [wp_iff] at *
  unfold WpRun at *
  split <;> simp_all

@[simp] theorem wp_bind {x : P α} {f : α → P β} {Q E} :
    Wp (x >>= f) ts k Q E ↔ Wp x ts k (fun a r k' => Wp (f a) r k' Q E) E := by
  show Wp (P.bind x f) ts k Q E ↔ _
  simp only [wp_iff]
  unfold WpRun P.bind
  rcases x ts k with ⟨_ | _ | _, k'⟩ <;> simp

@[simp] theorem wp_pure {a : α} {Q E} : Wp (pure a : P α) ts k Q E ↔ Q a ts k := wp_iff
@[simp] theorem wp_fail {e : Err} {Q E} : Wp (P.fail e : P α) ts k Q E ↔ E e k := wp_iff
@[simp] theorem wp_panic {Q E} : Wp (P.panic : P α) ts k Q E ↔ False := wp_iff
@[simp] theorem wp_look {Q E} : Wp P.look ts k Q E ↔ Q ts ts k := wp_iff
@[simp] theorem wp_fresh {ids : Nat → Nat} {Q E} : Wp (P.fresh ids) ts k Q E ↔ Q (ids k) ts (k + 1) := wp_iff
@[simp] theorem wp_attempt {x : P α} {Q E} : Wp (P.attempt x) ts k Q E ↔
    Wp x ts k (fun a r k' => Q (.ok a) r k') (fun e k' => Q (.error e) ts k') := by
  simp only [wp_iff]
  unfold WpRun P.attempt
  rcases x ts k with ⟨_ | _ | _, k'⟩ <;> simp
@[simp] theorem wp_within {c : Toks} {x : P α} {Q E} : Wp (P.within c x) ts k Q E ↔
    Wp x c k (fun a r k' => if r = [] then Q a ts k' else E .parse k') E := by
  simp only [wp_iff]
  unfold WpRun P.within
  rcases x c k with ⟨⟨a, _ | _⟩ | _ | _, k'⟩ <;> simp
theorem wp_ite {c : Prop} [Decidable c] {x y : P α} {Q E} (h : c → Wp x ts k Q E) (h' : ¬ c → Wp y ts k Q E) :
    Wp (if c then x else y) ts k Q E := by
  split <;> simp_all

theorem Wp.of_ok {x : P α} {Q E} (h : Wp x ts k Q E) {a r k'} (hx : x ts k = (.ok (a, r), k')) : Q a r k' := by
  replace h := h.run; unfold WpRun at h; rw [hx] at h; exact h

theorem Wp.of_err {x : P α} {Q E} (h : Wp x ts k Q E) {e k'} (hx : x ts k = (.err e, k')) : E e k' := by
  replace h := h.run; unfold WpRun at h; rw [hx] at h; exact h

theorem Wp.cases {x : P α} {Q E} (h : Wp x ts k Q E) :
    (∃ a r k', x ts k = (.ok (a, r), k') ∧ Q a r k') ∨ ∃ e k', x ts k = (.err e, k') ∧ E e k' := by
  replace h := h.run
  unfold WpRun at h
  rcases hx : x ts k with ⟨⟨a, r⟩ | e | _, k'⟩ <;> rw [hx] at h
  · exact .inl ⟨a, r, k', rfl, h⟩
  · exact .inr ⟨e, k', rfl, h⟩
  · exact h.elim

theorem wp_congr {x y : P α} {Q E} (h : x ts k = y ts k) : Wp x ts k Q E ↔ Wp y ts k Q E := by
  rw [wp_iff, wp_iff]; unfold WpRun; rw [h]

theorem Wp.intro_ok {x : P α} {Q E} {a r k'} (hx : x ts k = (.ok (a, r), k')) (h : Q a r k') : Wp x ts k Q E := by
  rw [wp_iff]; unfold WpRun; rw [hx]; exact h
end

/-! ## Ids drawn -/

/-- The ids `l` come from different draws, the `k`-th to the one before the `k'`-th. -/
def Drawn (ids : Nat → Nat) (k k' : Nat) (l : List Nat) : Prop :=
  ∃ ps : List Nat, l = ps.map ids ∧ ps.Nodup ∧ ∀ p ∈ ps, k ≤ p ∧ p < k'

theorem Drawn.nil {ids k k'} : Drawn ids k k' [] := ⟨[], rfl, .nil, by simp⟩
theorem Drawn.one {ids} {k j k' : Nat} (h : k ≤ j) (h' : j < k') : Drawn ids k k' [ids j] :=
  ⟨[j], rfl, by simp, by simpa using ⟨h, h'⟩⟩
theorem Drawn.append {ids k m m' k' l l'} (h : Drawn ids k m l) (hm : m ≤ m') (h' : Drawn ids m' k' l') (hk : k ≤ m') (hk' : m ≤ k') :
    Drawn ids k k' (l ++ l') := by
  obtain ⟨ps, rfl, h1, h2⟩ := h
  obtain ⟨qs, rfl, h3, h4⟩ := h'
  refine ⟨ps ++ qs, by simp, ?_, ?_⟩
  · rw [List.nodup_append]
    refine ⟨h1, h3, ?_⟩
    intro a ha b hb e
    have := h2 a ha
    have := h4 b hb
    omega
  · intro p hp
    rcases List.mem_append.mp hp with hp | hp
    · have := h2 p hp; omega
    · have := h4 p hp; omega
theorem Drawn.mono {ids k m m' k' l} (h : Drawn ids m m' l) (hk : k ≤ m) (hk' : m' ≤ k') : Drawn ids k k' l := by
  obtain ⟨ps, rfl, h1, h2⟩ := h
  refine ⟨ps, rfl, h1, fun p hp => ?_⟩
  have := h2 p hp
  omega
theorem Drawn.perm {ids k k' l l'} (h : Drawn ids k k' l) (hp : l.Perm l') : Drawn ids k k' l' := by
  obtain ⟨ps, rfl, h1, h2⟩ := h
  obtain ⟨qs, hq, rfl⟩ : ∃ qs, ps.Perm qs ∧ l' = qs.map ids := by
    clear h1 h2
    generalize hm : ps.map ids = m at hp
    induction hp generalizing ps with
    | nil => exact ⟨[], by simp_all⟩
    | cons x h ih =>
      cases ps with
      | nil => simp at hm
      | cons p ps =>
        simp at hm
        obtain ⟨qs, h1, h2⟩ := ih ps hm.2
        exact ⟨p :: qs, h1.cons _, by simp [hm.1, h2]⟩
    | swap x y l =>
      rcases ps with _ | ⟨p, _ | ⟨q, ps⟩⟩ <;> simp at hm
      exact ⟨q :: p :: ps, .swap .., by simp [hm]⟩
    | trans _ _ ih1 ih2 =>
      obtain ⟨qs, h1, h2⟩ := ih1 _ hm
      obtain ⟨rs, h3, h4⟩ := ih2 _ h2.symm
      exact ⟨rs, h1.trans h3, h4⟩
  exact ⟨qs, rfl, hq.nodup h1, fun p hp => h2 p (hq.mem_iff.mpr hp)⟩
theorem Drawn.cons {ids k m k' l} (h : Drawn ids k m l) (hk : k ≤ m) (hm : m < k') : Drawn ids k k' (ids m :: l) :=
  (h.append (Nat.le_refl _) (Drawn.one (Nat.le_refl _) hm) hk (by omega)).perm (List.perm_append_singleton _ _)

/-! ## Exact parsers -/

/-- A successful result: a reading of the tokens, the only one up to ids. -/
structure PGood {α τ : Type} (ids : Nat → Nat) (R : Toks → α → Toks → Prop) (er : α → τ) (f : α → List Nat) (ts : Toks) (k : Nat)
    (a : α) (r : Toks) (k' : Nat) : Prop where
  reads : R ts a r
  uniq : ∀ a' r', R ts a' r' → r' = r ∧ er a' = er a
  suf : After ts r
  mono : k ≤ k'
  drawn : Drawn ids k k' (f a)

/-- A failure: there is no reading. -/
structure PBad {α : Type} (R : Toks → α → Toks → Prop) (ts : Toks) (k : Nat) (e : Err) (k' : Nat) : Prop where
  none : ∀ a r, ¬ R ts a r
  parse : e = .parse
  mono : k ≤ k'

/-- `x` recognises `R` on tokens with nesting up to `d`. -/
def Exact {α τ : Type} (ids : Nat → Nat) (d : Nat) (R : Toks → α → Toks → Prop) (er : α → τ) (f : α → List Nat) (x : P α) : Prop :=
  ∀ ts k, nestL ts ≤ d → Wp x ts k (PGood ids R er f ts k) (PBad R ts k)

theorem nestL_suffix {r ts : Toks} (h : r <:+ ts) : nestL r ≤ nestL ts := (After.of_suffix h).nest

theorem nestL_tail {t : Tok} {ts : Toks} : nestL ts ≤ nestL (t :: ts) := by simp [nestL]; omega
theorem nestL_group {d : Delim} {c ts : Toks} : nestL c + 1 ≤ nestL (.group d c :: ts) := by simp [nestL, Tok.nest]; omega

/-! ## Lists -/

/-- `CommaList` with nothing left. -/
def Lists {α : Type} (R : Toks → α → Toks → Prop) (ts : Toks) (as : List α) (r : Toks) : Prop := r = [] ∧ CommaList R ts as

theorem isEmpty_iff {ts : Toks} : ts.isEmpty = true ↔ ts = [] := by cases ts <;> simp

@[simp] theorem wp_parsePunct {c : Char} {ts k Q E} : Wp (parsePunct c) ts k Q E ↔
    (∃ j r, ts = .punct c j :: r ∧ Q () r k) ∨ (∀ j r, ts ≠ .punct c j :: r) ∧ E .parse k := by
  rw [wp_iff]
  unfold WpRun parsePunct
  rcases ts with _ | ⟨⟨⟩ | ⟨d, j⟩ | _ | _, ts⟩ <;> simp
  by_cases h : d = c
  · cases j <;> simp [h]
  · simp [h]

theorem parseTerminatedLoop_exact {α τ : Type} {ids d} {R : Toks → α → Toks → Prop} {er : α → τ} {f} {x : P α} (hx : Exact ids d R er f x) :
    ∀ n ts k, nestL ts ≤ d → tokCount ts < n →
      Wp (parseTerminatedLoop x n) ts k (PGood ids (Lists R) (List.map er) (List.flatMap f) ts k) (PBad (Lists R) ts k) := by
  intro n
  induction n with
  | zero => intro ts k _ h; omega
  | succ n ih =>
    intro ts k hd hn
    simp only [parseTerminatedLoop, wp_bind, wp_look]
    refine wp_ite (fun h => ?_) (fun h => ?_)
    · rw [isEmpty_iff] at h
      subst h
      simp only [wp_pure]
      refine ⟨⟨rfl, .nil⟩, ?_, .refl _, Nat.le_refl _, Drawn.nil⟩
      rintro a' r' ⟨rfl, h⟩
      cases h <;> simp_all
    · rw [isEmpty_iff] at h
      simp only [wp_bind]
      refine (hx ts k hd).mono ?_ ?_
      · intro a r k' g
        simp only [wp_look]
        refine wp_ite (fun hr => ?_) (fun hr => ?_)
        · rw [isEmpty_iff] at hr
          subst hr
          simp only [wp_pure]
          refine ⟨⟨rfl, .last h g.reads⟩, ?_, g.suf, g.mono, by simpa using g.drawn⟩
          rintro a' r' ⟨rfl, h'⟩
          cases h' with
          | nil => simp_all
          | last _ h' => exact ⟨rfl, by simp [(g.uniq _ _ h').2]⟩
          | cons _ h' => have := (g.uniq _ _ h').1; simp at this
        · rw [isEmpty_iff] at hr
          simp only [wp_bind, wp_parsePunct]
          by_cases hc : ∃ j r', r = .punct ',' j :: r'
          · obtain ⟨j, r', rfl⟩ := hc
            refine .inl ⟨j, r', rfl, ?_⟩
            have hlen := g.suf.count
            have hnest := g.suf.nest
            have := @nestL_tail (.punct ',' j) r'
            have := @tokCount_cons (.punct ',' j) r'
            refine (ih r' k' (by omega) (by omega)).mono ?_ ?_
            · intro as r2 k2 g2
              obtain ⟨⟨rfl, hl⟩, hu, hs, hm, hdr⟩ := g2
              simp only [wp_pure]
              refine ⟨⟨rfl, .cons h g.reads hl⟩, ?_, .of_nil, Nat.le_trans g.mono hm, ?_⟩
              · rintro as' r' ⟨rfl, h'⟩
                cases h' with
                | nil => simp_all
                | last _ h' => have := (g.uniq _ _ h').1; simp at this
                | cons _ h' hs' =>
                  have h1 := g.uniq _ _ h'
                  simp at h1
                  obtain ⟨⟨-, rfl⟩, h1⟩ := h1
                  exact ⟨rfl, by simp [h1, (hu _ _ ⟨rfl, hs'⟩).2]⟩
              · simpa using g.drawn.append (Nat.le_refl _) hdr g.mono hm
            · intro e k2 b
              refine ⟨?_, b.parse, Nat.le_trans g.mono b.mono⟩
              rintro as' r' ⟨rfl, h'⟩
              cases h' with
              | nil => simp_all
              | last _ h' => have := (g.uniq _ _ h').1; simp at this
              | cons _ h' hs' =>
                have h1 := (g.uniq _ _ h').1
                simp at h1
                obtain ⟨-, rfl⟩ := h1
                exact b.none _ _ ⟨rfl, hs'⟩
          · refine .inr ⟨by simpa using hc, ?_, rfl, g.mono⟩
            rintro as' r' ⟨rfl, h'⟩
            cases h' with
            | nil => simp_all
            | last _ h' => have := (g.uniq _ _ h').1; simp_all
            | cons _ h' hs' =>
              have h1 := (g.uniq _ _ h').1
              exact hc ⟨_, _, h1.symm⟩
      · intro e k' b
        refine ⟨?_, b.parse, b.mono⟩
        rintro as' r' ⟨rfl, h'⟩
        cases h' with
        | nil => simp_all
        | last _ h' => exact b.none _ _ h'
        | cons _ h' _ => exact b.none _ _ h'

theorem parseTerminated_exact {α τ : Type} {ids d} {R : Toks → α → Toks → Prop} {er : α → τ} {f} {x : P α} (hx : Exact ids d R er f x) :
    Exact ids d (Lists R) (List.map er) (List.flatMap f) (parseTerminated x) := by
  intro ts k hd
  have h := parseTerminatedLoop_exact hx (tokCount ts + 1) ts k hd (by omega)
  exact (wp_congr (x := parseTerminated x) (y := parseTerminatedLoop x (tokCount ts + 1)) rfl).mpr h

/-! ## Values -/

mutual
theorem leaves_eq (t : Tok) : t.leaves = (flatTok t).length := by
  match t with
  | .group _ ts => simp [Tok.leaves, flatTok, leafCount_eq ts]
  | .ident _ | .punct _ _ | .lit _ => simp [Tok.leaves, flatTok]
theorem leafCount_eq (ts : Toks) : leafCount ts = (flat ts).length := by
  match ts with
  | [] => simp [leafCount, flat]
  | t :: ts => simp [leafCount, flat, leaves_eq t, leafCount_eq ts]
end

theorem ends_iff {ts : Toks} : (ts.isEmpty || peekPunct ',' ts) = true ↔ Ends ts := by
  constructor
  · intro h
    rcases ts with _ | ⟨⟨⟩ | ⟨d, j⟩ | _ | _, ts⟩ <;> simp [peekPunct] at h
    · exact .nil
    · subst h; exact .comma _ _
  · intro h
    cases h <;> simp [peekPunct]

/-- `KindReads kind i`: the parser `kind` is that of the `i`-th kind. -/
def KindIs (Y : Syn) (kind : Kind) (i : Nat) : Prop :=
  ∀ ts v n rest, (∃ used, ReadsAs Y i ts v used rest ∧ n = (flat used).length) ↔ kind ts = some (v, n, rest)

theorem negInt_iff {ts : Toks} {v : VKind} {n : Nat} {rest : Toks} :
    Kind.negInt ts = some (v, n, rest) ↔ ∃ r x, First ts (.lit (.int r x)) rest ∧ v = .litInt ⟨true, r, x⟩ ∧ n = 2 := by
  unfold Kind.negInt
  constructor
  · intro h
    split at h <;> simp at h
    rename_i r x _ ho
    obtain ⟨rfl, rfl, rfl⟩ := h
    exact ⟨_, _, first_iff.mpr ho, rfl, rfl⟩
  · rintro ⟨r, x, h, rfl, rfl⟩
    rw [h.opened]

theorem ext_iff {Y : Syn} {i : Nat} {p : Toks → Option Nat} {mk : Toks → VKind}
    (h : ∀ ts v used rest, ReadsAs Y i ts v used rest ↔ ∃ n, p ts = some n ∧ v = mk (ts.take n) ∧ used = ts.take n ∧ rest = ts.drop n) :
    KindIs Y (.ext p mk) i := by
  intro ts v n rest
  simp only [h, Kind.ext, Option.map_eq_some_iff, Prod.mk.injEq, leafCount_eq]
  constructor
  · rintro ⟨used, ⟨m, h1, rfl, rfl, rfl⟩, rfl⟩; exact ⟨m, h1, rfl, rfl, rfl⟩
  · rintro ⟨m, h1, rfl, rfl, rfl⟩; exact ⟨_, ⟨m, h1, rfl, rfl, rfl⟩, rfl⟩

theorem kinds_are (Y : Syn) (i : Nat) (h : i < (kinds Y).length) : KindIs Y (kinds Y)[i] i := by
  simp [kinds] at h
  match i, h with
  | 0, _ =>
    intro ts v n rest
    show _ ↔ Kind.litInt ts = some (v, n, rest)
    constructor
    · rintro ⟨used, h, rfl⟩
      cases h with
      | int h => simp [Kind.litInt, h.opened, flat, flatTok]
      | negInt h h' => simp [Kind.litInt, h.opened, Kind.negInt, h'.opened, flat, flatTok]
    · intro h
      unfold Kind.litInt at h
      split at h
      · rename_i ho
        simp at h
        obtain ⟨rfl, rfl, rfl⟩ := h
        exact ⟨_, .int (first_iff.mpr ho), by simp [flat, flatTok]⟩
      · rename_i ho
        obtain ⟨r, x, h1, rfl, rfl⟩ := negInt_iff.mp h
        exact ⟨_, .negInt (first_iff.mpr ho) h1, by simp [flat, flatTok]⟩
      · simp at h
  | 1, _ =>
    intro ts v n rest
    show _ ↔ Kind.litStr ts = some (v, n, rest)
    constructor
    · rintro ⟨used, h, rfl⟩
      cases h with
      | str h => simp [Kind.litStr, h.opened, flat, flatTok]
    · intro h
      unfold Kind.litStr at h
      split at h <;> simp at h
      rename_i ho
      obtain ⟨rfl, rfl, rfl⟩ := h
      exact ⟨_, .str (first_iff.mpr ho), by simp [flat, flatTok]⟩
  | 2, _ =>
    intro ts v n rest
    show _ ↔ Kind.underscore ts = some (v, n, rest)
    constructor
    · rintro ⟨used, h, rfl⟩
      cases h with
      | underscore h => simp [Kind.underscore, h.opened, flat, flatTok]
    · intro h
      unfold Kind.underscore at h
      split at h
      · rename_i ho
        split at h
        · rename_i h'
          simp only [beq_iff_eq] at h'
          subst h'
          simp at h
          obtain ⟨rfl, rfl, rfl⟩ := h
          exact ⟨_, .underscore (first_iff.mpr ho), by simp [flat, flatTok]⟩
        · simp at h
      · simp at h
  | 3, _ =>
    intro ts v n rest
    show _ ↔ Kind.ident ts = some (v, n, rest)
    constructor
    · rintro ⟨used, h, rfl⟩
      cases h with
      | ident h hn => simp [Kind.ident, h.opened, hn, flat, flatTok]
    · intro h
      unfold Kind.ident at h
      split at h
      · rename_i ho
        split at h
        · simp at h
        · rename_i h'
          simp at h h'
          obtain ⟨rfl, rfl, rfl⟩ := h
          exact ⟨_, .ident (first_iff.mpr ho) h', by simp [flat, flatTok]⟩
      · simp at h
  | 4, _ =>
    refine ext_iff (p := Y.path) (mk := .path) fun ts v used rest => ?_
    exact ⟨fun h => by cases h; exact ⟨_, ‹_›, rfl, rfl, rfl⟩, by rintro ⟨n, h, rfl, rfl, rfl⟩; exact .path _ _ h⟩
  | 5, _ =>
    refine ext_iff (p := Y.type) (mk := .type) fun ts v used rest => ?_
    exact ⟨fun h => by cases h; exact ⟨_, ‹_›, rfl, rfl, rfl⟩, by rintro ⟨n, h, rfl, rfl, rfl⟩; exact .type _ _ h⟩
  | 6, _ =>
    refine ext_iff (p := Y.expr) (mk := .expr) fun ts v used rest => ?_
    exact ⟨fun h => by cases h; exact ⟨_, ‹_›, rfl, rfl, rfl⟩, by rintro ⟨n, h, rfl, rfl, rfl⟩; exact .expr _ _ h⟩

theorem readsAs_lt {Y : Syn} {i ts v used rest} (h : ReadsAs Y i ts v used rest) : i < 7 := by cases h <;> omega

theorem readsAs_after {Y : Syn} {i ts v used rest} (h : ReadsAs Y i ts v used rest) : After ts rest := by
  cases h with
  | int h | str h | underscore h | ident h _ => exact h.after_rest
  | negInt h h' => exact h.after_rest.trans h'.after_rest
  | path | type | expr => exact .drop ..

/-- A reading that ends at a comma or at the end. -/
def Cand (Y : Syn) (i : Nat) (ts : Toks) (v : VKind) (used rest : Toks) : Prop := ReadsAs Y i ts v used rest ∧ Ends rest

theorem tryParse_some {Y : Syn} {kind : Kind} {i : Nat} (hk : KindIs Y kind i) {ts n v rest} :
    tryParse kind ts = some (n, v, rest) ↔ ∃ used, Cand Y i ts v used rest ∧ n = (flat used).length := by
  unfold tryParse Cand
  constructor
  · intro h
    split at h
    · simp at h
    · rename_i w m r hm
      split at h
      · rename_i he
        simp at h
        obtain ⟨rfl, rfl, rfl⟩ := h
        obtain ⟨used, h1, h2⟩ := (hk ..).mpr hm
        exact ⟨used, ⟨h1, ends_iff.mp he⟩, h2⟩
      · simp at h
  · rintro ⟨used, ⟨h, he⟩, hn⟩
    rw [(hk ..).mp ⟨used, h, hn⟩]
    simp only
    rw [if_pos (ends_iff.mpr he)]

theorem cand_unique {Y : Syn} {i ts v used rest v' used' rest'} (h : Cand Y i ts v used rest) (h' : Cand Y i ts v' used' rest') :
    v = v' ∧ (flat used').length = (flat used).length ∧ rest = rest' := by
  have hi := readsAs_lt h.1
  have h1 := (kinds_are Y i (by simpa [kinds] using hi) ..).mp ⟨_, h.1, rfl⟩
  have h2 := (kinds_are Y i (by simpa [kinds] using hi) ..).mp ⟨_, h'.1, rfl⟩
  rw [h1] at h2
  simp at h2
  exact ⟨h2.1, h2.2.1.symm, h2.2.2⟩

/-- What is known after the first `i` kinds have been tried. -/
inductive Best (Y : Syn) (ids : Nat → Nat) (ts : Toks) (k : Nat) (i : Nat) : Option (Nat × Expr × Toks) → Nat → Prop
  | none (k' : Nat) (hk : k ≤ k') (h : ∀ j v used rest, j < i → ¬ Cand Y j ts v used rest) : Best Y ids ts k i .none k'
  | some (i' : Nat) (v : VKind) (used rest : Toks) (p k' : Nat) (hi : i' < i) (h : Cand Y i' ts v used rest)
      (hmax : ∀ j v' used' rest', j < i → Cand Y j ts v' used' rest' →
        (flat used').length < (flat used).length ∨ ((flat used').length = (flat used).length ∧ i' ≤ j))
      (hp : k ≤ p) (hk : p < k') : Best Y ids ts k i (.some ((flat used).length, .value (ids p) v, rest)) k'

theorem tryKinds_best {Y : Syn} {ids ts k0} : ∀ (ks : List Kind) (i : Nat) (best k), kinds Y = (kinds Y).take i ++ ks → i + ks.length = 7 →
    Best Y ids ts k0 i best k → Best Y ids ts k0 7 (tryKinds ids ts ks best k).1 (tryKinds ids ts ks best k).2
  | [], i, best, k, _, h7, hb => by
    simp at h7
    subst h7
    simpa [tryKinds] using hb
  | kind :: ks, i, best, k, hks, h7, hb => by
    have hlen : (kinds Y).length = 7 := by simp [kinds]
    have hi : i < (kinds Y).length := by simp at h7; omega
    have hki : (kinds Y)[i] = kind := by
      have : (kinds Y)[i]? = some kind := by
        rw [hks, List.getElem?_append_right (by simp; omega)]
        simp only [List.length_take]
        rw [show i - min i (kinds Y).length = 0 by omega]
        rfl
      rw [List.getElem?_eq_getElem hi] at this
      simpa using this
    have hk := kinds_are Y i hi
    rw [hki] at hk
    have hks' : kinds Y = (kinds Y).take (i + 1) ++ ks := by
      rw [List.take_succ_eq_append_getElem hi, hki, List.append_assoc]
      exact hks
    have h7' : i + 1 + ks.length = 7 := by simp at h7; omega
    have none_case : tryParse kind ts = .none → Best Y ids ts k0 (i + 1) best k := by
      intro hn
      have hno : ∀ v used rest, ¬ Cand Y i ts v used rest := by
        intro v used rest hc
        have := (tryParse_some hk).mpr ⟨used, hc, rfl⟩
        rw [hn] at this
        cases this
      cases hb with
      | none _ hk h =>
        refine .none _ hk fun j v used rest hj => ?_
        by_cases hji : j = i
        · subst hji; exact hno v used rest
        · exact h j v used rest (by omega)
      | some i' v used rest p _ hi' h hmax hp hk =>
        refine .some i' v used rest p _ (by omega) h (fun j v' used' rest' hj hc => ?_) hp hk
        by_cases hji : j = i
        · subst hji; exact (hno _ _ _ hc).elim
        · exact hmax j v' used' rest' (by omega) hc
    unfold tryKinds
    split
    · rename_i hn
      exact tryKinds_best ks (i + 1) best k hks' h7' (none_case hn)
    · rename_i n v rest hp
      obtain ⟨used, hc, rfl⟩ := (tryParse_some hk).mp hp
      split
      · rename_i hlt
        refine tryKinds_best ks (i + 1) _ _ hks' h7' ?_
        cases hb with
        | none _ hk h =>
          refine .some i v used rest k _ (by omega) hc (fun j v' used' rest' hj hc' => ?_) hk (by omega)
          by_cases hji : j = i
          · subst hji
            exact .inr ⟨(cand_unique hc hc').2.1, Nat.le_refl _⟩
          · exact (h j v' used' rest' (by omega) hc').elim
        | some i' v0 used0 rest0 p _ hi' h hmax hp hk =>
          simp [isBetter] at hlt
          refine .some i v used rest k _ (by omega) hc (fun j v' used' rest' hj hc' => ?_) (by omega) (by omega)
          by_cases hji : j = i
          · subst hji
            exact .inr ⟨(cand_unique hc hc').2.1, Nat.le_refl _⟩
          · have := hmax j v' used' rest' (by omega) hc'
            omega
      · rename_i hlt
        refine tryKinds_best ks (i + 1) _ _ hks' h7' ?_
        cases hb with
        | none _ hk h => simp [isBetter] at hlt
        | some i' v0 used0 rest0 p _ hi' h hmax hp hk =>
          simp [isBetter] at hlt
          refine .some i' v0 used0 rest0 p _ (by omega) h (fun j v' used' rest' hj hc' => ?_) hp hk
          by_cases hji : j = i
          · subst hji
            have := (cand_unique hc hc').2.1
            omega
          · exact hmax j v' used' rest' (by omega) hc'

theorem isComma_iff {t : Tok} : peekPunct ',' [t] = true ↔ ∃ j, t = .punct ',' j := by
  rcases t with _ | ⟨d, j⟩ | _ | _ <;> simp [peekPunct]

theorem untilComma_spec (ts : Toks) : ts = (untilComma ts).1 ++ (untilComma ts).2 ∧ (∀ j, .punct ',' j ∉ (untilComma ts).1) ∧
    Ends (untilComma ts).2 := by
  induction ts with
  | nil => exact ⟨rfl, by simp [untilComma], .nil⟩
  | cons t ts ih =>
    unfold untilComma
    split
    · rename_i h
      obtain ⟨j, rfl⟩ := isComma_iff.mp h
      exact ⟨rfl, by simp, .comma _ _⟩
    · rename_i h
      refine ⟨by simpa using ih.1, ?_, ih.2.2⟩
      intro j hj
      simp at hj
      rcases hj with hj | hj
      · exact h (isComma_iff.mpr ⟨j, hj.symm⟩)
      · exact ih.2.1 j hj

/-- Splitting at the first comma is possible in one way only. -/
theorem split_unique {a b a' b' : Toks} (h : a ++ b = a' ++ b') (ha : ∀ j, .punct ',' j ∉ a) (hb : Ends b) (ha' : ∀ j, .punct ',' j ∉ a')
    (hb' : Ends b') : a = a' ∧ b = b' := by
  induction a generalizing a' with
  | nil =>
    cases a' with
    | nil => simpa using h
    | cons t a' =>
      cases hb with
      | nil => simp at h
      | comma j r =>
        simp at h
        exact (ha' j (by simp [h.1])).elim
  | cons t a ih =>
    cases a' with
    | nil =>
      cases hb' with
      | nil => simp at h
      | comma j r =>
        simp at h
        exact (ha j (by simp [h.1])).elim
    | cons t' a' =>
      simp at h
      obtain ⟨rfl, h⟩ := h
      obtain ⟨rfl, rfl⟩ := ih h (fun j hj => ha j (by simp [hj])) (fun j hj => ha' j (by simp [hj]))
      exact ⟨rfl, rfl⟩

theorem readsValue_unique {Y : Syn} {ts v rest v' rest'} (h : ReadsValue Y ts v rest) (h' : ReadsValue Y ts v' rest') :
    v = v' ∧ rest = rest' := by
  cases h with
  | longest i v used rest h he hmax =>
    cases h' with
    | longest i' v' used' rest' h' he' hmax' =>
      have h1 := hmax _ _ _ _ h' he'
      have h2 := hmax' _ _ _ _ h he
      have : i = i' := by omega
      subst this
      obtain ⟨rfl, -, rfl⟩ := cand_unique ⟨h, he⟩ ⟨h', he'⟩
      exact ⟨rfl, rfl⟩
    | tokens used' rest' hn => exact (hn _ _ _ _ h he).elim
  | tokens used rest hn h hc he =>
    cases h' with
    | longest i' v' used' rest' h' he' hmax' => exact (hn _ _ _ _ h' he').elim
    | tokens used' rest' hn' h' hc' he' =>
      rw [h] at h'
      obtain ⟨rfl, rfl⟩ := split_unique h' hc he hc' he'
      exact ⟨rfl, rfl⟩

theorem readsValue_ends {Y : Syn} {ts v rest} (h : ReadsValue Y ts v rest) : Ends rest ∧ After ts rest := by
  cases h with
  | longest i v used rest h he hmax => exact ⟨he, readsAs_after h⟩
  | tokens used rest hn h hc he => exact ⟨he, .of_suffix ⟨used, h.symm⟩⟩

theorem parseValue_spec (Y : Syn) (ids : Nat → Nat) (ts : Toks) (k : Nat) : ∃ p v rest k', parseValue Y ids ts k = (.ok (.value (ids p) v, rest), k') ∧
    ReadsValue Y ts v rest ∧ k ≤ p ∧ p < k' := by
  have hb := tryKinds_best (Y := Y) (ids := ids) (ts := ts) (k0 := k) (kinds Y) 0 .none k (by simp) (by simp [kinds])
    (.none _ (Nat.le_refl _) (fun j _ _ _ hj => by omega))
  unfold parseValue
  rcases hr : tryKinds ids ts (kinds Y) .none k with ⟨best, k'⟩
  rw [hr] at hb
  simp only at hb ⊢
  cases hb with
  | none _ hk h =>
    refine ⟨k', .tokens (untilComma ts).1, (untilComma ts).2, k' + 1, rfl, ?_, hk, by omega⟩
    obtain ⟨h1, h2, h3⟩ := untilComma_spec ts
    exact .tokens _ _ (fun i v used rest hr he => h i v used rest (readsAs_lt hr) ⟨hr, he⟩) h1 h2 h3
  | some i' v used rest p _ hi h hmax hp hk =>
    exact ⟨p, v, rest, k', rfl, .longest i' v used rest h.1 h.2 (fun j v' used' rest' hr he =>
      hmax j v' used' rest' (readsAs_lt hr) ⟨hr, he⟩), hp, hk⟩

end Verif
