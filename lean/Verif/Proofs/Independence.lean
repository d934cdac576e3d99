import Verif.Proofs.OverflowCongr
import Verif.Spec.Uses
/-! # Definitions that do not depend on each other -/

namespace Verif
open Spec

theorem checkSpec_agree {T} : ∀ (items : List (Str × Expr)) {Γ Γ' : TyEnv},
    (∀ n, n ∈ usedIn items ∨ n ∈ items.map (·.1) → Γ n = Γ' n) →
    checkSpec T items Γ = checkSpec T items Γ' ∧ overflowsSpec T items Γ = overflowsSpec T items Γ'
  | [], Γ, Γ', _ => ⟨rfl, rfl⟩
  | (m, e) :: items, Γ, Γ', h => by
    have he : ∀ n ∈ used e, Γ n = Γ' n := fun n hn => h n (.inl (by simp [usedIn, hn]))
    have hm : Γ m = Γ' m := h m (.inr (by simp))
    simp only [checkSpec, overflowsSpec]
    rw [check_agree e he, overflows_agree e he, hm]
    cases check T Γ' e none with
    | error x => exact ⟨rfl, rfl⟩
    | ok p =>
      obtain ⟨c, te⟩ := p
      have ih := checkSpec_agree (T := T) items (Γ := extend Γ m te.target) (Γ' := extend Γ' m te.target) (by
        intro n hn
        unfold extend
        split
        · rfl
        · refine h n (hn.imp (fun hn => ?_) (fun hn => ?_))
          · simp only [usedIn, List.flatMap_cons, List.mem_append]; exact .inr hn
          · simp only [List.map_cons, List.mem_cons]; exact .inr hn)
      simp only [ih.1, ih.2]
      exact ⟨trivial, trivial⟩

theorem checkSpec_used {T} : ∀ (items : List (Str × Expr)) {Γ : TyEnv} {tes : List (Str × TExpr)}, checkSpec T items Γ = .ok tes →
    ∀ te ∈ tes, ∀ n ∈ te.2.used, n ∈ usedIn items
  | [], Γ, tes, h => by simp only [checkSpec] at h; cases h; simp
  | (m, e) :: items, Γ, tes, h => by
    simp only [checkSpec] at h
    split at h
    · cases h
    · rename_i c te hc
      split at h
      · cases h
      · split at h
        · cases h
        · rename_i rest hr
          cases h
          intro te' hte n hn
          simp only [usedIn, List.flatMap_cons, List.mem_append]
          rcases List.mem_cons.1 hte with rfl | hte
          · exact .inl (check_used e hc n hn)
          · exact .inr (checkSpec_used items hr te' hte n hn)

theorem evalSpecT_agree {E seed} : ∀ (tes : List (Str × TExpr)) {ρ ρ' : Str → Option VKind},
    (∀ te ∈ tes, ∀ n ∈ te.2.used, ρ n = ρ' n) → evalSpecT E seed tes ρ = evalSpecT E seed tes ρ'
  | [], _, _, _ => rfl
  | (m, te) :: tes, ρ, ρ', h => by
    simp only [evalSpecT, Res.bind_eq]
    rw [eval_agree te (fun n hn => h (m, te) (by simp) n hn)]
    cases te.eval E seed ρ' with
    | err x => rfl
    | panic => rfl
    | ok v =>
      simp only [Res.bind_ok]
      rw [evalSpecT_agree tes (ρ := extend ρ m v) (ρ' := extend ρ' m v)]
      intro te' hte n hn
      unfold extend
      split
      · rfl
      · exact h te' (by simp [hte]) n hn

/-- Definitions added to two lists which give the same values to the names they use or define. -/
theorem outcome_post {E : Ext} {env : Env} (henv : env.funcs = builtinFuncs) {pre pre' post : List (Str × Expr)} {vs vs' : Subs}
    (h : outcome E env pre = .ok vs) (h' : outcome E env pre' = .ok vs')
    (hu : ∀ n, n ∈ usedIn post ∨ n ∈ post.map (·.1) → vs.get n = vs'.get n) :
    ∃ o : Res Subs, outcome E env (pre ++ post) = o.bind (fun ws => .ok (vs ++ ws)) ∧
      outcome E env (pre' ++ post) = o.bind (fun ws => .ok (vs' ++ ws)) := by
  rw [outcome_append henv h, outcome_append henv h']
  have hty : ∀ n, n ∈ usedIn post ∨ n ∈ post.map (·.1) →
      (fun n => (Subs.get vs n).map (·.ty)) n = (fun n => (Subs.get vs' n).map (·.ty)) n := by
    intro n hn; simp only [hu n hn]
  obtain ⟨h1, h2⟩ := checkSpec_agree (T := env.funcs) post hty
  rw [← h1, ← h2]
  cases overflowsSpec env.funcs post (fun n => (Subs.get vs n).map (·.ty)) with
  | true => exact ⟨.panic, by simp, by simp⟩
  | false =>
    cases hc : checkSpec env.funcs post (fun n => (Subs.get vs n).map (·.ty)) with
    | error x => exact ⟨.err x, by simp, by simp⟩
    | ok tes =>
      refine ⟨evalSpecT E env.seed tes vs.get, by simp, ?_⟩
      simp only [Bool.false_eq_true, if_false]
      rw [← evalSpecT_agree tes (ρ := vs.get) (ρ' := vs'.get)
        (fun te hte n hn => hu n (.inl (checkSpec_used post hc te hte n hn)))]

/-- One more definition. -/
theorem outcome_one {E : Ext} {env : Env} (henv : env.funcs = builtinFuncs) {pre : List (Str × Expr)} {vs : Subs}
    (h : outcome E env pre = .ok vs) {a : Str} {e : Expr} {r : Subs} (hr : outcome E env (pre ++ [(a, e)]) = .ok r) :
    ∃ v, r = vs ++ [(a, v)] ∧ a ∉ pre.map (·.1) := by
  obtain ⟨ws, us, h1, rfl⟩ := outcome_prefix hr
  rw [h] at h1
  cases h1
  obtain ⟨h2, h3⟩ := denote_names (outcome_ok.1 hr).2
  have h4 := (denote_names (outcome_ok.1 h).2).1
  simp only [List.map_append, h4, List.map_cons, List.map_nil] at h2
  have h5 := List.append_cancel_left h2
  obtain ⟨⟨n, v⟩, us', rfl, h6, h7⟩ := List.map_eq_cons_iff.1 h5
  simp only [List.map_eq_nil_iff] at h7
  subst h7
  simp only at h6
  subst h6
  refine ⟨v, rfl, ?_⟩
  rw [List.map_append, List.nodup_append] at h3
  intro hm
  exact h3.2.2 n (by rw [h4]; exact hm) n (by simp) rfl

/-- An accepted definition that nothing after it uses, or defines again, can be left out. -/
theorem outcome_drop {E : Ext} {env : Env} (henv : env.funcs = builtinFuncs) {pre post : List (Str × Expr)} {a : Str} {e : Expr}
    (hu : a ∉ usedIn post) {vs : Subs} (h : outcome E env (pre ++ (a, e) :: post) = .ok vs) :
    ∃ vs' : Subs, outcome E env (pre ++ post) = .ok vs' ∧ (∀ n, n ≠ a → vs'.get n = vs.get n) := by
  have hnd := (denote_names (outcome_ok.1 h).2)
  have e1 : pre ++ (a, e) :: post = (pre ++ [(a, e)]) ++ post := by simp
  rw [e1] at h
  obtain ⟨ws, us, h1, rfl⟩ := outcome_prefix h
  obtain ⟨vs0, us0, h0, -⟩ := outcome_prefix h1
  obtain ⟨v, rfl, ha⟩ := outcome_one henv h0 h1
  have hap : a ∉ post.map (·.1) := by
    have := hnd.2
    rw [hnd.1, List.map_append, List.map_cons, List.nodup_append, List.nodup_cons] at this
    exact this.2.1.1
  obtain ⟨o, h2, h3⟩ := outcome_post henv h1 h0 (post := post) (by
    intro n hn
    rw [Subs.get_append]
    have hne : ¬ a = n := by
      rintro rfl
      rcases hn with hn | hn
      · exact hu hn
      · exact hap hn
    cases Subs.get vs0 n <;> simp [Subs.get_cons, Subs.get_nil, hne])
  rw [h] at h2
  obtain ⟨ws, rfl, h5⟩ := Res.bind_eq_ok.1 h2.symm
  simp only [Res.bind_ok] at h3
  refine ⟨_, h3, fun n hn => ?_⟩
  have h6 : us = ws := by simpa using h5.symm
  subst h6
  have hne : ¬ a = n := fun h => hn h.symm
  simp only [Subs.get_append]
  cases Subs.get vs0 n <;> simp [Subs.get_cons, Subs.get_nil, hne]

/-- Two neighbouring definitions that do not use each other can be swapped. -/
theorem outcome_swap {E : Ext} {env : Env} (henv : env.funcs = builtinFuncs) {pre post : List (Str × Expr)} {a b : Str} {e f : Expr}
    (hab : a ∉ used f) (hba : b ∉ used e) {vs : Subs} (h : outcome E env (pre ++ (a, e) :: (b, f) :: post) = .ok vs) :
    ∃ vs' : Subs, outcome E env (pre ++ (b, f) :: (a, e) :: post) = .ok vs' ∧ ∀ n, vs'.get n = vs.get n := by
  have e1 : pre ++ (a, e) :: (b, f) :: post = ((pre ++ [(a, e)]) ++ [(b, f)]) ++ post := by simp
  have e2 : pre ++ (b, f) :: (a, e) :: post = ((pre ++ [(b, f)]) ++ [(a, e)]) ++ post := by simp
  rw [e1] at h
  rw [e2]
  obtain ⟨ws2, us2, h2, rfl⟩ := outcome_prefix h
  obtain ⟨ws1, us1, h1, -⟩ := outcome_prefix h2
  obtain ⟨vs0, us0, h0, -⟩ := outcome_prefix h1
  obtain ⟨v, rfl, ha⟩ := outcome_one henv h0 h1
  obtain ⟨w, rfl, hb⟩ := outcome_one henv h1 h2
  simp only [List.map_append, List.map_cons, List.map_nil, List.mem_append, List.mem_singleton, not_or] at hb
  obtain ⟨o, h3, h4⟩ := outcome_last henv h1 h0 (e := f) (a := b) (a' := b) (by
    intro n hn
    rw [Subs.get_append]
    have hne : ¬ a = n := fun h => hab (h ▸ hn)
    cases Subs.get vs0 n <;> simp [Subs.get_cons, Subs.get_nil, hne]) (by simp [hb.1, hb.2]) hb.1
  rw [h2] at h3
  obtain ⟨w', rfl, h5⟩ := Res.bind_eq_ok.1 h3.symm
  have hw : w' = w := by simpa using h5
  subst hw
  simp only [Res.bind_ok] at h4
  obtain ⟨o, h6, h7⟩ := outcome_last henv h0 h4 (e := e) (a := a) (a' := a) (by
    intro n hn
    rw [Subs.get_append]
    have hne : ¬ b = n := fun h => hba (h ▸ hn)
    cases Subs.get vs0 n <;> simp [Subs.get_cons, Subs.get_nil, hne]) ha (by
      have : ¬ a = b := fun h => hb.2 h.symm
      simp only [List.map_append, List.map_cons, List.map_nil, List.mem_append, List.mem_singleton, not_or]
      exact ⟨ha, this⟩)
  rw [h1] at h6
  obtain ⟨v', rfl, h8⟩ := Res.bind_eq_ok.1 h6.symm
  have hv : v' = v := by simpa using h8
  subst hv
  simp only [Res.bind_ok] at h7
  have hget : ∀ n, Subs.get (vs0 ++ [(a, v')] ++ [(b, w')]) n = Subs.get (vs0 ++ [(b, w')] ++ [(a, v')]) n := by
    intro n
    simp only [Subs.get_append, Subs.get_cons, Subs.get_nil]
    have : b ≠ a := hb.2
    cases Subs.get vs0 n with
    | some x => simp
    | none =>
      by_cases h9 : a = n
      · subst h9; simp [this]
      · simp [h9]
  obtain ⟨o, h9, h10⟩ := outcome_post henv h2 h7 (post := post) (fun n _ => hget n)
  rw [h] at h9
  obtain ⟨us, rfl, h11⟩ := Res.bind_eq_ok.1 h9.symm
  simp only [Res.bind_ok] at h10
  refine ⟨_, h10, fun n => ?_⟩
  have : us2 = us := by simpa using h11.symm
  subst this
  rw [Subs.get_append _ us2, Subs.get_append _ us2, hget]

/-- A definition can be moved to the front of definitions that do not use it and that it does not use. -/
theorem outcome_forward {E : Ext} {env : Env} (henv : env.funcs = builtinFuncs) {x : Str} {e : Expr} (q : List (Str × Expr)) :
    ∀ {pre : List (Str × Expr)} {vs : Subs}, x ∉ usedIn q → (∀ y ∈ q.map (·.1), y ∉ used e) →
    outcome E env (pre ++ q ++ [(x, e)]) = .ok vs →
    ∃ vs' : Subs, outcome E env (pre ++ (x, e) :: q) = .ok vs' ∧ ∀ n, vs'.get n = vs.get n := by
  induction q with
  | nil => intro pre vs _ _ h; exact ⟨vs, by simpa using h, fun _ => rfl⟩
  | cons d q ih =>
    obtain ⟨y, f⟩ := d
    intro pre vs hx hy h
    simp only [usedIn, List.flatMap_cons, List.mem_append, not_or] at hx
    simp only [List.map_cons, List.mem_cons] at hy
    have e1 : pre ++ (y, f) :: q ++ [(x, e)] = (pre ++ [(y, f)]) ++ q ++ [(x, e)] := by simp
    rw [e1] at h
    obtain ⟨vs1, h1, g1⟩ := ih (pre := pre ++ [(y, f)]) hx.2 (fun z hz => hy z (.inr hz)) h
    have e2 : pre ++ [(y, f)] ++ (x, e) :: q = pre ++ (y, f) :: (x, e) :: q := by simp
    rw [e2] at h1
    obtain ⟨vs2, h2, g2⟩ := outcome_swap henv (hy y (.inl rfl)) hx.1 h1
    exact ⟨vs2, h2, fun n => (g2 n).trans (g1 n)⟩

theorem noForward_append {xs ys : List (Str × Expr)} : NoForward (xs ++ ys) ↔
    NoForward xs ∧ NoForward ys ∧ ∀ d ∈ xs, ∀ y ∈ ys.map (·.1), y ∉ used d.2 := by
  induction xs with
  | nil => simp [NoForward]
  | cons d xs ih =>
    obtain ⟨x, e⟩ := d
    simp only [List.cons_append, NoForward, ih, List.map_append, List.mem_append, List.mem_cons]
    constructor
    · rintro ⟨h1, h2, h3, h4⟩
      exact ⟨⟨fun y hy => h1 y (.inl hy), h2⟩, h3, fun d hd y hy => by
        rcases hd with rfl | hd
        · exact h1 y (.inr hy)
        · exact h4 d hd y hy⟩
    · rintro ⟨⟨h1, h2⟩, h3, h4⟩
      exact ⟨fun y hy => hy.elim (h1 y) (h4 _ (.inl rfl) y), h2, h3, fun d hd => h4 d (.inr hd)⟩

/-- The order of the definitions does not matter, as long as none uses a name defined later. -/
theorem outcome_perm {E : Ext} {env : Env} (henv : env.funcs = builtinFuncs) {pre : List (Str × Expr)} (k : Nat) :
    ∀ {d d' : List (Str × Expr)} {vs : Subs}, d.length = k → d.Perm d' → NoForward d → NoForward d' → outcome E env (pre ++ d) = .ok vs →
    ∃ vs' : Subs, outcome E env (pre ++ d') = .ok vs' ∧ ∀ n, vs'.get n = vs.get n := by
  induction k with
  | zero =>
    intro d d' vs hk hp _ _ h
    obtain rfl := List.length_eq_zero_iff.1 hk
    obtain rfl := hp.symm.eq_nil
    exact ⟨vs, h, fun _ => rfl⟩
  | succ k ih =>
    intro d d' vs hk hp hd hd' h
    have hne : d ≠ [] := by rintro rfl; cases hk
    obtain ⟨d0, ⟨x, e⟩, rfl⟩ : ∃ d0 a, d = d0 ++ [a] := ⟨d.dropLast, d.getLast hne, (List.dropLast_concat_getLast hne).symm⟩
    obtain ⟨p, q, rfl⟩ := List.append_of_mem ((hp.mem_iff (a := (x, e))).1 (by simp))
    have hp0 : d0.Perm (p ++ q) := by
      have h1 : ((x, e) :: d0).Perm (d0 ++ [(x, e)]) := (List.perm_append_singleton (x, e) d0).symm
      exact (h1.trans (hp.trans List.perm_middle)).cons_inv
    obtain ⟨h1, -, h2⟩ := noForward_append.1 hd
    obtain ⟨h3, ⟨h4, h5⟩, h6⟩ := noForward_append.1 hd'
    have h7 : NoForward (p ++ q) := noForward_append.2 ⟨h3, h5, fun z hz y hy => h6 z hz y (by simp [hy])⟩
    rw [← List.append_assoc] at h
    obtain ⟨vs0, us0, h0, rfl⟩ := outcome_prefix h
    obtain ⟨vs1, h8, g1⟩ := ih (by simpa using hk) hp0 h1 h7 h0
    obtain ⟨o, h9, h10⟩ := outcome_post henv h0 h8 (post := [(x, e)]) (fun n _ => (g1 n).symm)
    rw [h] at h9
    obtain ⟨us, rfl, h11⟩ := Res.bind_eq_ok.1 h9.symm
    have h12 : us0 = us := by simpa using h11.symm
    subst h12
    simp only [Res.bind_ok] at h10
    obtain ⟨vs2, h13, g2⟩ := outcome_forward henv (x := x) (e := e) q (pre := pre ++ p) (by
      intro hx
      obtain ⟨z, hz, hxz⟩ := List.mem_flatMap.1 hx
      exact h2 z (hp0.mem_iff.2 (by simp [hz])) x (by simp) hxz) h4 (by simpa using h10)
    refine ⟨vs2, by simpa using h13, fun n => ?_⟩
    rw [g2, Subs.get_append, Subs.get_append, g1]

end Verif
