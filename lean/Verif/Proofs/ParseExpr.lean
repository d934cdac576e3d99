import Verif.Proofs.Parse
/-! # Expressions -/

namespace Verif
open Spec

theorem eraseL_eq (es : List Expr) : Expr.eraseL es = es.map Expr.erase := by
  induction es with
  | nil => rfl
  | cons e es ih => simp [Expr.eraseL, ih]

theorem idsL_eq (es : List Expr) : idsL es = es.flatMap ids := by
  induction es with
  | nil => rfl
  | cons e es ih => simp [idsL, ih]

theorem pieces_cons (ts : Toks) (h : ts ≠ []) : pieces ts = (untilComma ts).1 :: pieces (untilComma ts).2.tail := by
  induction ts with
  | nil => exact (h rfl).elim
  | cons t ts ih =>
    by_cases hc : ∃ j, t = .punct ',' j
    · obtain ⟨j, rfl⟩ := hc
      simp [pieces, untilComma, peekPunct]
    · rw [pieces]
      · rw [untilComma, if_neg (by rw [isComma_iff]; exact hc)]
        by_cases hts : ts = []
        · subst hts; simp [pieces, untilComma]
        · rw [ih hts]
      · simpa using hc

theorem nestL_untilComma (ts : Toks) : nestL (untilComma ts).1 ≤ nestL ts := by
  have h := (untilComma_spec ts).1
  generalize (untilComma ts).1 = a at h
  generalize (untilComma ts).2 = b at h
  subst h
  induction a with
  | nil => simp [nestL]
  | cons t a ih => simp [nestL]; omega

@[simp] theorem wp_terminated {α : Type} {x : P α} {ts k Q E} : Wp (terminated x) ts k Q E ↔
    Wp x (untilComma ts).1 k (fun a r k' => if r = [] then Q a (untilComma ts).2 k' else E .parse k') E := by
  rw [← wp_within (ts := (untilComma ts).2), wp_iff, wp_iff]
  unfold WpRun terminated
  exact Iff.rfl

@[simp] theorem wp_parseIdentTok {ts k Q E} : Wp parseIdentTok ts k Q E ↔
    (∃ n r, First ts (.ident n) r ∧ n ∉ keywords ∧ Q n r k) ∨ (∀ n r, First ts (.ident n) r → n ∈ keywords) ∧ E .parse k := by
  rw [wp_iff]
  unfold WpRun parseIdentTok
  simp only [first_iff]
  generalize opened ts = ts
  rcases ts with _ | ⟨⟨⟩ | ⟨d, j⟩ | _ | _, ts⟩ <;> simp
  rename_i n
  by_cases h : n ∈ keywords
  · simp [h]
  · simp only [h, if_false, false_and, or_false]
    exact ⟨fun q => ⟨n, ts, ⟨rfl, rfl⟩, h, q⟩, fun ⟨m, r, ⟨e1, e2⟩, _, q⟩ => e1 ▸ e2 ▸ q⟩

@[simp] theorem wp_parseGroup {d : Delim} {ts k Q E} : Wp (parseGroup d) ts k Q E ↔
    (∃ c r, First ts (.group d c) r ∧ Q c r k) ∨ (∀ c r, ¬ First ts (.group d c) r) ∧ E .parse k := by
  rw [wp_iff]
  unfold WpRun parseGroup
  simp only [first_iff]
  generalize opened ts = ts
  rcases ts with _ | ⟨⟨⟩ | ⟨_, j⟩ | _ | ⟨d', c⟩, ts⟩ <;> simp
  by_cases h : d' = d
  · simp only [h, if_true, true_and, not_true, false_and, or_false]
    exact ⟨fun q => ⟨c, ts, ⟨rfl, rfl⟩, q⟩, fun ⟨m, r, ⟨e1, e2⟩, q⟩ => e1 ▸ e2 ▸ q⟩
  · simp [h]

theorem wp_parseTerminated {α : Type} {x : P α} {ts k Q E} :
    Wp (parseTerminated x) ts k Q E ↔ Wp (parseTerminatedLoop x (tokCount ts + 1)) ts k Q E :=
  wp_congr rfl

/-- What `parseExpr` does: it always succeeds. -/
def ExprOk (ids : Nat → Nat) (known : Str → Bool) (Y : Syn) (d : Nat) (x : P Expr) : Prop :=
  ∀ ts k, nestL ts < d → Wp x ts k (PGood ids (ReadsExpr known Y) Expr.erase Spec.ids ts k) (fun _ _ => False)

theorem args_spec {ids known Y n} {x : P Expr} (hx : ExprOk ids known Y n x) : ∀ m raw k, nestL raw < n → tokCount raw < m →
    Wp (parseTerminatedLoop (terminated x) m) raw k
      (fun es r k' => r = [] ∧ (∀ p ∈ pieces raw, ¬ Trailing known Y p) ∧ ReadsPieces known Y (pieces raw) es ∧
        (∀ es', ReadsPieces known Y (pieces raw) es' → es'.map Expr.erase = es.map Expr.erase) ∧ k ≤ k' ∧ Drawn ids k k' (idsL es))
      (fun _ k' => (∃ p ∈ pieces raw, Trailing known Y p) ∧ (∀ es, ¬ ReadsPieces known Y (pieces raw) es) ∧ k ≤ k') := by
  intro m
  induction m with
  | zero => intro raw k _ h; omega
  | succ m ih =>
    intro raw k hd hm
    simp only [parseTerminatedLoop, wp_bind, wp_look]
    refine wp_ite (fun h => ?_) (fun h => ?_)
    · rw [isEmpty_iff] at h
      subst h
      simp only [wp_pure, pieces]
      refine ⟨trivial, by simp, .nil, ?_, Nat.le_refl _, by simpa [idsL] using Drawn.nil⟩
      intro es' h
      cases h
      rfl
    · rw [isEmpty_iff] at h
      obtain ⟨hu1, hu2, hu3⟩ := untilComma_spec raw
      have hnest := nestL_untilComma raw
      simp only [wp_bind, wp_terminated]
      refine (hx (untilComma raw).1 k (by omega)).mono ?_ (fun _ _ h => h.elim)
      intro e r k' g
      have htr : r ≠ [] ↔ Trailing known Y (untilComma raw).1 := by
        constructor
        · intro hr
          cases r with
          | nil => exact (hr rfl).elim
          | cons t r => exact ⟨_, _, _, g.reads⟩
        · rintro ⟨e', t, r', h'⟩
          rw [← (g.uniq _ _ h').1]
          simp
      rw [pieces_cons raw h]
      split
      · rename_i hr
        subst hr
        have hnt : ¬ Trailing known Y (untilComma raw).1 := by simpa using htr
        simp only [wp_look]
        refine wp_ite (fun hr => ?_) (fun hr => ?_)
        · rw [isEmpty_iff] at hr
          rw [hr]
          simp only [wp_pure, List.tail_nil, pieces]
          refine ⟨trivial, by simpa using hnt, .cons g.reads .nil, ?_, g.mono, by simpa [idsL] using g.drawn⟩
          intro es' h'
          cases h' with
          | cons h1 h2 => cases h2; simp [(g.uniq _ _ h1).2]
        · rw [isEmpty_iff] at hr
          simp only [wp_bind, wp_parsePunct]
          generalize hv : (untilComma raw).2 = rest at hu3 hr hu1
          cases hu3 with
          | nil => exact (hr rfl).elim
          | comma j rest =>
            refine .inl ⟨j, rest, rfl, ?_⟩
            have haft : After raw (.punct ',' j :: rest) := .of_suffix ⟨_, hu1.symm⟩
            have hlen : tokCount rest < m := by
              have := haft.count
              have := @tokCount_cons (.punct ',' j) rest
              omega
            have hn2 : nestL rest < n := by
              have h1 := haft.nest
              have := @nestL_tail (.punct ',' j) rest
              omega
            refine (ih rest k' hn2 hlen).mono ?_ ?_
            · rintro es r2 k2 ⟨rfl, h1, h2, h3, h4, h5⟩
              simp only [wp_pure, List.tail_cons]
              refine ⟨trivial, by simpa using ⟨hnt, h1⟩, .cons g.reads h2, ?_, Nat.le_trans g.mono h4, ?_⟩
              · intro es' h'
                cases h' with
                | cons h6 h7 => simp [(g.uniq _ _ h6).2, h3 _ h7]
              · simpa [idsL] using g.drawn.append (Nat.le_refl _) h5 g.mono h4
            · rintro e2 k2 ⟨⟨p, hp, ht⟩, h1, h2⟩
              refine ⟨⟨p, by simp [hp], ht⟩, ?_, Nat.le_trans g.mono h2⟩
              intro es h'
              cases h' with
              | cons _ h' => exact h1 _ h'
      · rename_i hr
        refine ⟨⟨_, by simp, htr.mp hr⟩, ?_, g.mono⟩
        intro es h'
        cases h' with
        | cons h' _ => exact hr (g.uniq _ _ h').1.symm

theorem callAt_unique {known ts n raw rest n' raw' rest'} (h : CallAt known ts n raw rest) (h' : CallAt known ts n' raw' rest') :
    n' = n ∧ raw' = raw ∧ rest' = rest := by
  cases h with
  | mk h1 _ _ h2 =>
    cases h' with
    | mk h1' _ _ h2' =>
      obtain ⟨e1, rfl⟩ := h1.unique h1'
      obtain ⟨e2, rfl⟩ := h2.unique h2'
      cases e1; cases e2
      exact ⟨rfl, rfl, rfl⟩

theorem parseExpr_ok (Y : Syn) (known : Str → Bool) (ids : Nat → Nat) : ∀ n, ExprOk ids known Y n (parseExpr Y known ids n) := by
  intro n
  induction n with
  | zero => intro ts k h; omega
  | succ n ih =>
    intro ts k hd
    simp only [parseExpr, wp_bind, wp_attempt]
    have value_case : (∀ n raw rest, ¬ CallAt known ts n raw rest) → ∀ (k1 : Nat), k ≤ k1 →
        Wp (parseValue Y ids) ts k1 (fun a r k' => PGood ids (ReadsExpr known Y) Expr.erase Spec.ids ts k a r k') (fun _ _ => False) := by
      intro hno k1 hk1
      obtain ⟨p, v, rest, k', h1, h2, h3, h4⟩ := parseValue_spec Y ids ts k1
      refine Wp.intro_ok h1 ?_
      refine ⟨.value _ hno h2, ?_, (readsValue_ends h2).2, by omega, ?_⟩
      · intro a' r' h'
        cases h' with
        | call _ _ h _ => exact (hno _ _ _ h).elim
        | dropped _ _ h _ _ => exact (hno _ _ _ h).elim
        | value _ _ h =>
          obtain ⟨rfl, rfl⟩ := readsValue_unique h h2
          exact ⟨rfl, rfl⟩
      · simp only [Spec.ids]
        exact Drawn.one (by omega) h4
    simp only [wp_parseIdentTok]
    by_cases h1 : ∃ name r, First ts (.ident name) r ∧ name ∉ keywords
    · obtain ⟨name, r, hf, hn⟩ := h1
      refine .inl ⟨name, r, hf, hn, ?_⟩
      by_cases hk : known name
      · simp only [hk, Bool.not_true, Bool.false_eq_true, if_false, wp_pure, wp_bind, wp_parseGroup]
        by_cases h2 : ∃ c r', First r (.group .paren c) r'
        · obtain ⟨raw, rest, hg⟩ := h2
          refine .inl ⟨raw, rest, hg, ?_⟩
          have hc : CallAt known ts name raw rest := .mk hf hk hn hg
          have hraw : nestL raw < n := by
            have h1 := @nestL_group .paren raw rest
            have h2 := hg.after.nest
            have h3 := hf.after_rest.nest
            omega
          simp only [wp_attempt, wp_within, wp_parseTerminated]
          have hs : After ts rest := hf.after_rest.trans hg.after_rest
          refine (args_spec ih (tokCount raw + 1) raw k hraw (by omega)).mono ?_ ?_
          · rintro es r k' ⟨rfl, h3, h4, h5, h6, h7⟩
            simp only [if_true, wp_fresh, argsOr]
            refine ⟨.call _ _ hc h4, ?_, hs, by omega, ?_⟩
            · intro a' r' h'
              cases h' with
              | call _ _ h h8 =>
                obtain ⟨rfl, rfl, rfl⟩ := callAt_unique hc h
                exact ⟨rfl, by simp [Expr.erase, eraseL_eq, h5 _ h8]⟩
              | dropped _ _ h hp h8 =>
                obtain ⟨rfl, rfl, rfl⟩ := callAt_unique hc h
                exact (h3 _ hp ⟨_, _, _, h8⟩).elim
              | value _ h _ => exact (h _ _ _ hc).elim
            · simp only [Spec.ids, Option.map_some, Option.toList_some]
              exact ((h7.cons h6 (Nat.lt_succ_self _)).cons (by omega) (Nat.lt_succ_self _))
          · rintro e k' ⟨⟨p, hp, e', t, left, h3⟩, h8, h4⟩
            simp only [wp_fresh, argsOr]
            refine ⟨.dropped _ _ hc hp h3, ?_, hs, by omega, ?_⟩
            · intro a' r' h'
              cases h' with
              | call _ _ h h9 =>
                obtain ⟨rfl, rfl, rfl⟩ := callAt_unique hc h
                exact (h8 _ h9).elim
              | dropped _ _ h _ _ =>
                obtain ⟨rfl, rfl, rfl⟩ := callAt_unique hc h
                exact ⟨rfl, rfl⟩
              | value _ h _ => exact (h _ _ _ hc).elim
            · simp only [Spec.ids, Option.map_some, Option.toList_some, idsL]
              exact (((Drawn.nil (k := k) (k' := k')).cons h4 (Nat.lt_succ_self _)).cons (by omega) (Nat.lt_succ_self _))
        · refine .inr ⟨by simpa using h2, ?_⟩
          simp only [wp_fail]
          refine value_case ?_ _ (Nat.le_refl _)
          rintro n' raw rest ⟨hf', _, _, hg'⟩
          obtain ⟨-, rfl⟩ := hf.unique hf'
          exact h2 ⟨_, _, hg'⟩
      · simp only [hk, Bool.not_false, if_true, wp_bind, wp_fail]
        simp only [wp_pure]
        refine value_case ?_ _ (Nat.le_refl _)
        rintro n' raw rest ⟨hf', hk', _, _⟩
        obtain ⟨e, -⟩ := hf.unique hf'
        cases e
        exact hk hk'
    · refine .inr ⟨?_, ?_⟩
      · intro n r h
        simp only [not_exists, not_and] at h1
        have := h1 n r h
        simpa using this
      · simp only [wp_pure, wp_fail]
        refine value_case ?_ _ (Nat.le_refl _)
        rintro n' raw rest ⟨hf', _, hn', _⟩
        exact h1 ⟨_, _, hf', hn'⟩

theorem parseE_ok (Y : Syn) (known : Str → Bool) (ids : Nat → Nat) (ts : Toks) (k : Nat) :
    Wp (parseE Y known ids) ts k (PGood ids (ReadsExpr known Y) Expr.erase Spec.ids ts k) (fun _ _ => False) :=
  (wp_congr (x := parseE Y known ids) (y := parseExpr Y known ids (nestL ts + 1)) rfl).mpr (parseExpr_ok Y known ids (nestL ts + 1) ts k (by omega))

theorem parseE_exact (Y : Syn) (known : Str → Bool) (ids : Nat → Nat) (d : Nat) :
    Exact ids d (ReadsExpr known Y) Expr.erase Spec.ids (parseE Y known ids) :=
  fun ts k _ => (parseE_ok Y known ids ts k).mono (fun _ _ _ h => h) (fun _ _ h => h.elim)

end Verif
