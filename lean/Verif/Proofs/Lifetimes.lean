import Verif.Spec.Lifetimes
import Verif.Spec.Subst
/-! # Lifetimes and labels: proofs -/

namespace Verif
open Spec

/-- Code that does not begin with a name. -/
def NoNameFirst (ts : Toks) : Prop := ∀ n us, ts ≠ .ident n :: us

theorem lifetimes_append (a b : Toks) (h : wholeLifetimes a) : lifetimes (a ++ b) = lifetimes a ++ lifetimes b := by
  fun_induction lifetimes a with
  | case1 => rfl
  | case2 d us ts ih1 ih2 =>
    have ht : wholeLifetimes ts := fun j hj => by
      cases ts with
      | nil => simp at hj
      | cons t ts => exact h j (by simpa using hj)
    simp only [List.cons_append, lifetimes, ih2 ht, List.append_assoc]
  | case3 j n ts ih =>
    have ht : wholeLifetimes ts := fun j' hj => by
      cases ts with
      | nil => simp at hj
      | cons t ts => exact h j' (by simpa using hj)
    simp only [List.cons_append, lifetimes, if_true, ih ht]
  | case4 c j n ts hc ih =>
    have ht : wholeLifetimes ts := fun j' hj => by
      cases ts with
      | nil => simp at hj
      | cons t ts => exact h j' (by simpa using hj)
    simp only [List.cons_append, lifetimes, if_neg hc, ih ht]
  | case5 t ts h1 h2 ih =>
    have ht : wholeLifetimes ts := fun j' hj => by
      cases ts with
      | nil => simp at hj
      | cons t ts => exact h j' (by simpa using hj)
    cases ts with
    | cons u us =>
      rw [← ih ht, List.cons_append]
      rw [lifetimes]
      · exact h1
      · intro c j n us' e1 e2
        simp only [List.cons_append, List.cons.injEq] at e2
        exact h2 c j n us e1 (by rw [e2.1])
    | nil =>
      cases t with
      | ident n => simp [lifetimes]
      | lit l => simp [lifetimes]
      | group d us => exact absurd rfl (h1 d us)
      | punct c j =>
        have hc : c ≠ '\'' := by rintro rfl; exact h j rfl
        cases b with
        | nil => simp [lifetimes]
        | cons u us => cases u <;> simp [lifetimes, hc]

theorem lifetimes_unspaced : ∀ ts : Toks, lifetimes (unspaced ts) = lifetimes ts
  | [] => rfl
  | .group d us :: ts => by simp only [unspaced, unspacedTok, lifetimes, lifetimes_unspaced us, lifetimes_unspaced ts]
  | .ident n :: ts => by simp only [unspaced, unspacedTok, lifetimes, lifetimes_unspaced ts]
  | .lit l :: ts => by simp only [unspaced, unspacedTok, lifetimes, lifetimes_unspaced ts]
  | .punct c j :: [] => by simp [unspaced, unspacedTok, lifetimes]
  | .punct c j :: .ident n :: ts => by simp only [unspaced, unspacedTok, lifetimes, lifetimes_unspaced ts]
  | .punct c j :: .lit l :: ts => by simp only [unspaced, unspacedTok, lifetimes, lifetimes_unspaced ts]
  | .punct c j :: .group d us :: ts => by simp only [unspaced, unspacedTok, lifetimes, lifetimes_unspaced ts, lifetimes_unspaced us]
  | .punct c j :: .punct c' j' :: ts => by
    have ih := lifetimes_unspaced (.punct c' j' :: ts)
    have e : ∀ (j j' : Bool) (us : Toks), lifetimes (.punct c j :: .punct c' j' :: us) = lifetimes (.punct c' j' :: us) := fun _ _ us => by rw [lifetimes]; all_goals simp
    simp only [unspaced, unspacedTok] at ih ⊢
    rw [e, e, ih]
termination_by ts => sizeOf ts

section
variable {look : Str → Option Toks} {str : Str → Lit} (hv : ∀ n v, look n = some v → wholeLifetimes v)
include hv

/-- Lifetimes which are not named like an alias are kept, and there are no others but those in values. -/
theorem lifetimes_substAll : ∀ ts : Toks, (∀ n ∈ lifetimes ts, look n = none) →
    (lifetimes ts).Sublist (lifetimes (substAll look str ts)) ∧
    ∀ n ∈ lifetimes (substAll look str ts), n ∈ lifetimes ts ∨ ∃ m v, look m = some v ∧ n ∈ lifetimes v
  | [], _ => by simp [substAll, lifetimes]
  | .group d us :: ts, h => by
    have h1 := lifetimes_substAll us (fun n hn => h n (by simp [lifetimes, hn]))
    have h2 := lifetimes_substAll ts (fun n hn => h n (by simp [lifetimes, hn]))
    simp only [substAll, substTok, List.cons_append, List.nil_append, lifetimes]
    refine ⟨h1.1.append h2.1, fun n hn => ?_⟩
    rcases List.mem_append.1 hn with hn | hn
    · exact (h1.2 n hn).imp (fun h => List.mem_append.2 (.inl h)) id
    · exact (h2.2 n hn).imp (fun h => List.mem_append.2 (.inr h)) id
  | .ident m :: ts, h => by
    have h2 := lifetimes_substAll ts (fun n hn => h n (by simp [lifetimes, hn]))
    simp only [substAll, substTok]
    cases hm : look m with
    | none => simpa only [Option.getD_none, List.cons_append, List.nil_append, lifetimes] using h2
    | some v =>
      rw [Option.getD_some, lifetimes_append v _ (hv m v hm)]
      refine ⟨?_, fun n hn => ?_⟩
      · simp only [lifetimes]
        exact h2.1.trans (List.sublist_append_right _ _)
      · rcases List.mem_append.1 hn with hn | hn
        · exact .inr ⟨m, v, hm, hn⟩
        · simpa only [lifetimes] using h2.2 n hn
  | .lit l :: ts, h => by
    have h2 := lifetimes_substAll ts (fun n hn => h n (by simp [lifetimes, hn]))
    obtain ⟨l', hl⟩ : ∃ l', substTok look str (.lit l) = [.lit l'] := by cases l <;> exact ⟨_, by rw [substTok]; all_goals simp⟩
    simpa only [substAll, hl, List.cons_append, List.nil_append, lifetimes] using h2
  | .punct c j :: [], _ => by simp [substAll, substTok, lifetimes]
  | .punct c j :: .ident n :: ts, h => by
    by_cases hc : c = '\''
    · subst hc
      have hn : look n = none := h n (by simp [lifetimes])
      have h2 := lifetimes_substAll ts (fun n hn => h n (by simp [lifetimes, hn]))
      simp only [substAll, substTok, hn, Option.getD_none, List.cons_append, List.nil_append, lifetimes, if_true]
      refine ⟨h2.1.cons_cons n, fun m hm => ?_⟩
      rcases List.mem_cons.1 hm with rfl | hm
      · exact .inl (by simp)
      · exact (h2.2 m hm).imp (fun h => List.mem_cons_of_mem _ h) id
    · have h2 := lifetimes_substAll (.ident n :: ts) (fun m hm => h m (by simpa [lifetimes, hc] using hm))
      have e : lifetimes (substAll look str (.punct c j :: .ident n :: ts)) = lifetimes (substAll look str (.ident n :: ts)) := by
        have : substAll look str (.punct c j :: .ident n :: ts) = [.punct c j] ++ substAll look str (.ident n :: ts) := by simp [substAll, substTok]
        rw [this, lifetimes_append _ _ (fun j' hj => by simp at hj; exact hc hj.1)]
        simp [lifetimes]
      rw [e]
      simpa [lifetimes, hc] using h2
  | .punct c j :: .lit l :: ts, h => by
    have h2 := lifetimes_substAll ts (fun n hn => h n (by simp [lifetimes, hn]))
    obtain ⟨l', hl⟩ : ∃ l', substTok look str (.lit l) = [.lit l'] := by cases l <;> exact ⟨_, by rw [substTok]; all_goals simp⟩
    have e : substAll look str (.punct c j :: .lit l :: ts) = .punct c j :: .lit l' :: substAll look str ts := by
      simp only [substAll, hl, List.cons_append, List.nil_append]
      rw [substTok]
      all_goals simp
    rw [e]
    simpa [lifetimes] using h2
  | .punct c j :: .group d us :: ts, h => by
    have h2 := lifetimes_substAll (.group d us :: ts) (fun n hn => h n (by simpa [lifetimes] using hn))
    simp only [substAll, substTok, List.cons_append, List.nil_append] at h2 ⊢
    simpa [lifetimes] using h2
  | .punct c j :: .punct c' j' :: ts, h => by
    have e : ∀ us, lifetimes (.punct c j :: .punct c' j' :: us) = lifetimes (.punct c' j' :: us) := fun us => by rw [lifetimes]; all_goals simp
    have h2 := lifetimes_substAll (.punct c' j' :: ts) (fun n hn => h n (by rw [e]; exact hn))
    simp only [substAll, substTok, List.cons_append, List.nil_append] at h2 ⊢
    rw [e, e]
    exact h2
termination_by ts => sizeOf ts
end

theorem nameFor_substTok {look : Str → Option Toks} {str : Str → Lit} {n : Str} (h : ∀ v, look n = some v → ∃ m, v = [.ident m]) :
    substTok look str (.ident n) = [.ident (nameFor look n)] := by
  rw [substTok, nameFor]
  cases hn : look n with
  | none => rfl
  | some v => obtain ⟨m, rfl⟩ := h v hn; rfl

/-- If aliases stand for names, the lifetimes are the names that the names of lifetimes stand for. -/
theorem lifetimes_names {look : Str → Option Toks} {str : Str → Lit} : ∀ ts : Toks, (∀ n, mentions n ts → ∀ v, look n = some v → ∃ m, v = [.ident m]) →
    lifetimes (substAll look str ts) = (lifetimes ts).map (nameFor look)
  | [], _ => by simp [substAll, lifetimes]
  | .group d us :: ts, h => by
    simp only [substAll, substTok, List.cons_append, List.nil_append, lifetimes, List.map_append]
    rw [lifetimes_names us fun n hn => h n (.inl hn), lifetimes_names ts fun n hn => h n (.inr hn)]
  | .ident m :: ts, h => by
    rw [substAll, nameFor_substTok (h m (.inl rfl))]
    simp only [List.cons_append, List.nil_append, lifetimes]
    exact lifetimes_names ts fun n hn => h n (.inr hn)
  | .lit l :: ts, h => by
    obtain ⟨l', hl⟩ : ∃ l', substTok look str (.lit l) = [.lit l'] := by cases l <;> exact ⟨_, by rw [substTok]; all_goals simp⟩
    simp only [substAll, hl, List.cons_append, List.nil_append, lifetimes]
    exact lifetimes_names ts fun n hn => h n (.inr hn)
  | .punct c j :: [], _ => by simp [substAll, substTok, lifetimes]
  | .punct c j :: .ident n :: ts, h => by
    have ih := lifetimes_names (str := str) ts fun n hn => h n (.inr (.inr hn))
    rw [substAll, substAll, nameFor_substTok (h n (.inr (.inl rfl)))]
    simp only [substTok, List.cons_append, List.nil_append, lifetimes]
    by_cases hc : c = '\'' <;> simp [hc, ih]
  | .punct c j :: .lit l :: ts, h => by
    have ih := lifetimes_names (str := str) (.lit l :: ts) fun n hn => h n (.inr hn)
    obtain ⟨l', hl⟩ : ∃ l', substTok look str (.lit l) = [.lit l'] := by cases l <;> exact ⟨_, by rw [substTok]; all_goals simp⟩
    have e : ∀ us, substAll look str (.lit l :: us) = .lit l' :: substAll look str us := fun us => by simp only [substAll, hl, List.cons_append, List.nil_append]
    have e' : substAll look str (.punct c j :: .lit l :: ts) = .punct c j :: substAll look str (.lit l :: ts) := by rw [substAll]; simp [substTok]
    rw [e', e]
    rw [e] at ih
    simpa [lifetimes] using ih
  | .punct c j :: .group d us :: ts, h => by
    have ih := lifetimes_names (str := str) (.group d us :: ts) fun n hn => h n (.inr hn)
    simp only [substAll, substTok, List.cons_append, List.nil_append] at ih ⊢
    simpa [lifetimes] using ih
  | .punct c j :: .punct c' j' :: ts, h => by
    have ih := lifetimes_names (str := str) (.punct c' j' :: ts) fun n hn => h n (.inr hn)
    have e : ∀ us, lifetimes (.punct c j :: .punct c' j' :: us) = lifetimes (.punct c' j' :: us) := fun us => by rw [lifetimes]; all_goals simp
    simp only [substAll, substTok, List.cons_append, List.nil_append] at ih ⊢
    rw [e, e]
    exact ih
termination_by ts => sizeOf ts

end Verif
