import Verif.Spec.RawNames
import Verif.Proofs.Twice
import Verif.Spec.Text
import Verif.Proofs.Independence
/-! # Raw identifiers: proofs -/

namespace Verif
open Spec

theorem check_value_none {T} {Γ : TyEnv} {i : Nat} {k : VKind} {p : Nat × TExpr} (h : check T Γ (.value i k) none = .ok p) : p.2 = .val k (natural Γ k) := by
  simp only [check, Option.getD_none] at h
  split at h
  · cases h; rfl
  · cases h

theorem checkSpec_cons_ok {T} {n : Str} {e : Expr} {ds : List (Str × Expr)} {Γ : TyEnv} {tes : List (Str × TExpr)} (h : checkSpec T ((n, e) :: ds) Γ = .ok tes) :
    ∃ c te rest, check T Γ e none = .ok (c, te) ∧ checkSpec T ds (extend Γ n te.target) = .ok rest ∧ tes = (n, te) :: rest := by
  simp only [checkSpec] at h
  split at h
  · cases h
  · rename_i c te hc
    split at h
    · cases h
    · split at h
      · cases h
      · rename_i rest hr
        cases h
        exact ⟨c, te, rest, hc, hr, rfl⟩

theorem evalSpecT_cons_ok {E seed} {n : Str} {te : TExpr} {tes : List (Str × TExpr)} {ρ : Str → Option VKind} {vs : List (Str × VKind)}
    (h : evalSpecT E seed ((n, te) :: tes) ρ = .ok vs) :
    ∃ v rest, te.eval E seed ρ = .ok v ∧ evalSpecT E seed tes (extend ρ n v) = .ok rest ∧ vs = (n, v) :: rest := by
  simp only [evalSpecT, Res.bind_eq] at h
  cases hv : te.eval E seed ρ with
  | err x => rw [hv] at h; cases h
  | panic => rw [hv] at h; cases h
  | ok v =>
    rw [hv] at h
    simp only [Res.bind_ok] at h
    cases hr : evalSpecT E seed tes (extend ρ n v) with
    | err x => rw [hr] at h; cases h
    | panic => rw [hr] at h; cases h
    | ok rest =>
      rw [hr] at h
      cases h
      exact ⟨v, rest, rfl, hr, rfl⟩

/-- What is known of an alias when definitions are evaluated side by side. -/
def RawKnown (C : Str → Prop) (Γ : TyEnv) (ρ ρ' : Str → Option VKind) (s : Str) : Prop :=
  ρ s = ρ' s ∨ ∃ x x', ρ s = some (.ident x) ∧ ρ' s = some (.ident x') ∧ plainName x = plainName x' ∧ Γ s = some .ident ∧ C s

theorem rawKnown_extend {C : Str → Prop} {Γ : TyEnv} {ρ ρ' : Str → Option VKind} (h : ∀ s, RawKnown C Γ ρ ρ' s) {n : Str} {t : Ty} {v v' : VKind}
    (hv : v = v' ∨ ∃ x x', v = .ident x ∧ v' = .ident x' ∧ plainName x = plainName x' ∧ t = .ident ∧ C n) (s : Str) :
    RawKnown C (extend Γ n t) (extend ρ n v) (extend ρ' n v') s := by
  unfold RawKnown extend
  by_cases hs : s = n
  · simp only [if_pos hs]
    rcases hv with rfl | ⟨x, x', rfl, rfl, h1, rfl, h2⟩
    · exact .inl rfl
    · exact .inr ⟨x, x', rfl, rfl, h1, rfl, hs ▸ h2⟩
  · simp only [if_neg hs]
    exact h s

theorem rawDefs_values {E : Ext} {seed : Nat} {A C : Str → Prop} {ds ds' : List (Str × Expr)} (h : RawDefs A C ds ds') :
    ∀ {Γ : TyEnv} {ρ ρ' : Str → Option VKind} {tes tes' : List (Str × TExpr)} {vs vs' : List (Str × VKind)}, (∀ d ∈ ds, A d.1) →
      (∀ s, RawKnown C Γ ρ ρ' s) → (∀ s, ¬ A s → Γ s = none ∧ ρ s = none ∧ ρ' s = none) →
      checkSpec builtinFuncs ds Γ = .ok tes → checkSpec builtinFuncs ds' Γ = .ok tes' →
      evalSpecT E seed tes ρ = .ok vs → evalSpecT E seed tes' ρ' = .ok vs' → RawAlikes vs vs' := by
  have freshA : ∀ {Γ : TyEnv} {ρ ρ' : Str → Option VKind} {n : Str} {t : Ty} {v v' : VKind}, A n → (∀ s, ¬ A s → Γ s = none ∧ ρ s = none ∧ ρ' s = none) →
      ∀ s, ¬ A s → extend Γ n t s = none ∧ extend ρ n v s = none ∧ extend ρ' n v' s = none := by
    intro Γ ρ ρ' n t v v' hn h s hs
    unfold extend
    have : s ≠ n := by rintro rfl; exact hs hn
    simp only [if_neg this]
    exact h s hs
  have idc : ∀ x, tryCast E (.ident x) .ident = .ok (.ident x) := fun _ => tryCast_refl rfl
  induction h with
  | nil =>
    intro Γ ρ ρ' tes tes' vs vs' _ _ _ h1 h2 h3 h4
    simp only [checkSpec] at h1 h2
    cases h1; cases h2
    simp only [evalSpecT] at h3 h4
    cases h3; cases h4
    exact .nil
  | @same n e e' ds ds' hn he hu _ ih =>
    intro Γ ρ ρ' tes tes' vs vs' hA hk hf h1 h2 h3 h4
    obtain ⟨c, te, rest, g1, g2, rfl⟩ := checkSpec_cons_ok h1
    obtain ⟨c', te', rest', g1', g2', rfl⟩ := checkSpec_cons_ok h2
    obtain ⟨v, ws, g3, g4, rfl⟩ := evalSpecT_cons_ok h3
    obtain ⟨v', ws', g3', g4', rfl⟩ := evalSpecT_cons_ok h4
    have ha := (renumbered_same (E := E) (seed := seed) (F := fun _ => False) he).check Γ (fun _ h => h.elim) none
    rw [g1, g1'] at ha
    obtain ⟨-, ht, hev⟩ := ha
    have e1 : te.eval E seed ρ = te'.eval E seed ρ' := by
      rw [hev ρ (fun _ h => h.elim)]
      refine eval_agree te' fun m hm => ?_
      rcases hk m with h | ⟨_, _, _, _, _, _, h⟩
      · exact h
      · exact absurd h (hu m (check_used e' g1' m hm))
    rw [g3, g3'] at e1
    cases e1
    rw [← ht] at g2'
    exact .cons n (.same v) (ih (fun d hd => hA d (by simp [hd])) (rawKnown_extend hk (.inl rfl)) (freshA (hA _ List.mem_cons_self) hf) g2 g2' g4 g4')
  | @value n i i' k ds ds' hn _ ih =>
    intro Γ ρ ρ' tes tes' vs vs' hA hk hf h1 h2 h3 h4
    obtain ⟨c, te, rest, g1, g2, rfl⟩ := checkSpec_cons_ok h1
    obtain ⟨c', te', rest', g1', g2', rfl⟩ := checkSpec_cons_ok h2
    obtain ⟨v, ws, g3, g4, rfl⟩ := evalSpecT_cons_ok h3
    obtain ⟨v', ws', g3', g4', rfl⟩ := evalSpecT_cons_ok h4
    cases check_value_none g1
    cases check_value_none g1'
    have key : v = v' ∨ ∃ x x', v = .ident x ∧ v' = .ident x' ∧ plainName x = plainName x' ∧ natural Γ k = .ident ∧ C n := by
      by_cases hi : ∃ s, k = .ident s
      · obtain ⟨s, rfl⟩ := hi
        rcases hk s with h | ⟨x, x', r1, r2, r3, r4, -⟩
        · refine .inl (Res.ok.inj ?_)
          rw [← g3, ← g3']
          simp only [TExpr.eval, h]
        · have nt : natural Γ (.ident s) = .ident := by simp only [natural, r4, Option.getD_some]
          simp only [TExpr.eval, r1, r2, nt, Option.getD_some, idc] at g3 g3'
          cases g3; cases g3'
          exact .inr ⟨x, x', rfl, rfl, r3, nt, hn⟩
      · refine .inl (Res.ok.inj ?_)
        rw [← g3, ← g3']
        cases k <;> first | rfl | exact absurd ⟨_, rfl⟩ hi
    refine .cons n ?_ (ih (fun d hd => hA d (by simp [hd])) (rawKnown_extend hk key) (freshA (hA _ List.mem_cons_self) hf) g2 g2' g4 g4')
    rcases key with rfl | ⟨x, x', rfl, rfl, h, -⟩
    · exact .same _
    · exact .name h
  | @raw n i i' x x' ds ds' hn hx ha ha' _ ih =>
    intro Γ ρ ρ' tes tes' vs vs' hA hk hf h1 h2 h3 h4
    obtain ⟨c, te, rest, g1, g2, rfl⟩ := checkSpec_cons_ok h1
    obtain ⟨c', te', rest', g1', g2', rfl⟩ := checkSpec_cons_ok h2
    obtain ⟨v, ws, g3, g4, rfl⟩ := evalSpecT_cons_ok h3
    obtain ⟨v', ws', g3', g4', rfl⟩ := evalSpecT_cons_ok h4
    cases check_value_none g1
    cases check_value_none g1'
    have n1 : natural Γ (.ident x) = .ident := by simp only [natural, (hf x ha).1, Option.getD_none]
    have n2 : natural Γ (.ident x') = .ident := by simp only [natural, (hf x' ha').1, Option.getD_none]
    simp only [TExpr.eval, (hf x ha).2.1, n1, Option.getD_none, idc] at g3
    simp only [TExpr.eval, (hf x' ha').2.2, n2, Option.getD_none, idc] at g3'
    cases g3; cases g3'
    rw [TExpr.target, n1] at g2
    rw [TExpr.target, n2] at g2'
    exact .cons n (.name hx) (ih (fun d hd => hA d (by simp [hd])) (rawKnown_extend hk (.inr ⟨x, x', rfl, rfl, hx, rfl, hn⟩))
      (freshA (hA _ List.mem_cons_self) hf) g2 g2' g4 g4')

/-- Definitions which differ in `r#` have values which differ in `r#`. -/
theorem rawDefs_outcome {E : Ext} {seed : Nat} {A C : Str → Prop} {ds ds' : List (Str × Expr)} (h : RawDefs A C ds ds') (hA : ∀ d ∈ ds, A d.1)
    {vs vs' : List (Str × VKind)} (h1 : outcome E (Env.builtin seed) ds = .ok vs) (h2 : outcome E (Env.builtin seed) ds' = .ok vs') : RawAlikes vs vs' := by
  have h1 := (outcome_ok.1 h1).2
  have h2 := (outcome_ok.1 h2).2
  unfold denote at h1 h2
  simp only [Env.builtin] at h1 h2
  cases c1 : checkSpec builtinFuncs ds (fun _ => none) with
  | error x => rw [c1] at h1; cases h1
  | ok tes =>
    cases c2 : checkSpec builtinFuncs ds' (fun _ => none) with
    | error x => rw [c2] at h2; cases h2
    | ok tes' =>
      rw [c1] at h1
      rw [c2] at h2
      exact rawDefs_values h hA (fun _ => .inl rfl) (fun _ _ => ⟨rfl, rfl, rfl⟩) c1 c2 h1 h2

mutual
theorem plain_unspacedTok : ∀ t : Tok, plainTok (unspacedTok t) = unspacedTok (plainTok t)
  | .ident _ => rfl
  | .punct _ _ => rfl
  | .lit _ => rfl
  | .group d ts => by simp only [unspacedTok, plainTok, plain_unspaced ts]
theorem plain_unspaced : ∀ ts : Toks, plainToks (unspaced ts) = unspaced (plainToks ts)
  | [] => rfl
  | t :: ts => by simp only [unspaced, plainToks, plain_unspacedTok t, plain_unspaced ts]
end

theorem plainToks_append : ∀ ts us : Toks, plainToks (ts ++ us) = plainToks ts ++ plainToks us
  | [], _ => rfl
  | t :: ts, us => by simp only [List.cons_append, plainToks, plainToks_append ts us]

section
variable {look look' : Str → Option Toks} {str str' : Str → Lit} {A : Str → Prop}
  (hl : ∀ n, (look n).map plainToks = (look' n).map plainToks) (hA : ∀ n, (look n).isSome = true → A n)
include hl

theorem look_isSome (n : Str) : (look' n).isSome = (look n).isSome := by
  have := congrArg Option.isSome (hl n)
  simpa using this.symm

include hA

mutual
theorem plain_substTok : ∀ t u : Tok, plainTok t = plainTok u → (∀ n, A n → asDefinedTok n t ∧ asDefinedTok n u) → strLitsTok (fun _ v => str v = str' v) t →
    plainToks (substTok look str t) = plainToks (substTok look' str' u)
  | .ident s, .ident s', h, hd, _ => by
    simp only [plainTok, Tok.ident.injEq] at h
    rw [substTok, substTok]
    have both : ∀ n, (look n).isSome = true → plainName s = plainName n → s = n ∧ s' = n := fun n hn hp => by
      have := hd n (hA n hn)
      simp only [asDefinedTok] at this
      exact ⟨this.1 hp, this.2 (h ▸ hp)⟩
    cases h1 : look s with
    | some ts =>
      obtain ⟨-, rfl⟩ := both s (by rw [h1]; rfl) rfl
      have := hl s'
      rw [h1] at this
      cases h2 : look' s' with
      | none => rw [h2] at this; cases this
      | some us => rw [h2] at this; simpa using this
    | none =>
      cases h2 : look' s' with
      | none => simp only [Option.getD_none, plainToks, plainTok, h]
      | some us =>
        have h3 : (look s').isSome = true := by rw [← look_isSome hl s', h2]; rfl
        obtain ⟨rfl, -⟩ := both s' h3 h
        rw [h1] at h3
        cases h3
  | .punct c j, u, h, _, _ => by
    cases u <;> simp only [plainTok] at h <;> cases h
    rw [substTok, substTok] <;> simp
  | .lit l, u, h, _, hs => by
    cases u <;> simp only [plainTok] at h <;> cases h
    by_cases hl : ∃ r v, l = .str r v
    · obtain ⟨r, v, rfl⟩ := hl
      simp only [strLitsTok] at hs
      rw [substTok, substTok, hs]
    · have e1 : substTok look str (.lit l) = [.lit l] := by rw [substTok] <;> simp_all
      have e2 : substTok look' str' (.lit l) = [.lit l] := by rw [substTok] <;> simp_all
      rw [e1, e2]
  | .group d ts, .group d' us, h, hd, hs => by
    simp only [plainTok, Tok.group.injEq] at h
    obtain ⟨rfl, h⟩ := h
    have ih := plain_substAll ts us h (fun n hn => by simpa [asDefinedTok] using hd n hn) (by simpa [strLitsTok] using hs)
    rw [substTok, substTok]
    simp only [plainToks, plainTok, ih]
  | .group _ _, .ident _, h, _, _ => by simp [plainTok] at h
  | .group _ _, .punct _ _, h, _, _ => by simp [plainTok] at h
  | .group _ _, .lit _, h, _, _ => by simp [plainTok] at h
  | .ident s, .punct _ _, h, _, _ => by simp [plainTok] at h
  | .ident s, .lit _, h, _, _ => by simp [plainTok] at h
  | .ident s, .group _ _, h, _, _ => by simp [plainTok] at h
theorem plain_substAll : ∀ ts us : Toks, plainToks ts = plainToks us → (∀ n, A n → asDefined n ts ∧ asDefined n us) → strLits (fun _ v => str v = str' v) ts →
    plainToks (substAll look str ts) = plainToks (substAll look' str' us)
  | [], [], _, _, _ => rfl
  | [], _ :: _, h, _, _ => by simp [plainToks] at h
  | _ :: _, [], h, _, _ => by simp [plainToks] at h
  | t :: ts, u :: us, h, hd, hs => by
    simp only [plainToks, List.cons.injEq] at h
    have h1 := plain_substTok t u h.1 (fun n hn => ⟨(hd n hn).1.1, (hd n hn).2.1⟩) hs.1
    have h2 := plain_substAll ts us h.2 (fun n hn => ⟨(hd n hn).1.2, (hd n hn).2.2⟩) hs.2
    simp only [substAll, plainToks_append, h1, h2]
end
end

end Verif
