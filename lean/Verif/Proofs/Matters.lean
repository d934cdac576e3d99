import Verif.Proofs.Size
import Verif.Spec.Items
/-! # A replaced alias can be recognised in the result -/

namespace Verif
open Spec

section
variable {q : Toks → Toks} (hc : Coarse q) (hq : ∀ ts, (q ts).length = ts.length) {look look' : Str → Option Toks} {str str' : Str → Lit}

/-- What stands in the place of an identifier. -/
def insteadOf (look : Str → Option Toks) (n : Str) : Toks := (look n).getD [.ident n]

/-- How often the name stands outside all groups. -/
def outside (y : Str) : Toks → Nat
  | [] => 0
  | .ident n :: ts => (if n = y then 1 else 0) + outside y ts
  | _ :: ts => outside y ts

/-- The other names stand for the same. -/
def SameBut (q : Toks → Toks) (y : Str) (look look' : Str → Option Toks) : Prop := ∀ n, n ≠ y → q (insteadOf look n) = q (insteadOf look' n)

include hc hq

/-- The lengths differ by the occurrences of the one alias. -/
theorem outside_length {y : Str} (h : SameBut q y look look') : ∀ (ts : Toks),
    (substAll look str ts).length + outside y ts * (insteadOf look' y).length = (substAll look' str' ts).length + outside y ts * (insteadOf look y).length
  | [] => by simp [substAll, outside]
  | t :: ts => by
    have ih := outside_length h ts
    cases t with
    | ident n =>
      simp only [substAll, substTok, List.length_append, outside]
      by_cases hn : n = y
      · subst hn
        simp only [if_true, Nat.add_mul, Nat.one_mul]
        change (insteadOf look n).length + _ + _ = (insteadOf look' n).length + _ + _
        omega
      · have := congrArg List.length (h n hn)
        rw [hq, hq] at this
        simp only [hn, if_false, Nat.zero_add]
        change (insteadOf look n).length + _ + _ = (insteadOf look' n).length + _ + _
        omega
    | group d us => simp only [substAll, substTok, List.length_append, List.length_singleton, outside]; omega
    | punct c j => simp only [substAll, substTok, List.length_append, List.length_singleton, outside]; omega
    | lit l => cases l <;> (simp only [substAll, substTok, List.length_append, List.length_singleton, outside]; omega)

/-- If the results are the same, the name stands for the same if it stands outside all groups. -/
theorem outside_or {y : Str} (h : SameBut q y look look') {ts : Toks} (he : q (substAll look str ts) = q (substAll look' str' ts)) :
    (insteadOf look y).length = (insteadOf look' y).length ∨ outside y ts = 0 := by
  have h1 := outside_length (str := str) (str' := str') hc hq h ts
  have h2 := congrArg List.length he
  rw [hq, hq] at h2
  rw [h2] at h1
  have h3 : outside y ts * (insteadOf look' y).length = outside y ts * (insteadOf look y).length := by omega
  by_cases h0 : outside y ts = 0
  · exact .inr h0
  · exact .inl (Nat.eq_of_mul_eq_mul_left (by omega) h3).symm

mutual
theorem substTok_matters {y : Str} (h : SameBut q y look look') (t : Tok) (he : q (substTok look str t) = q (substTok look' str' t)) (hm : mentionsTok y t) :
    q (insteadOf look y) = q (insteadOf look' y) := by
  match t with
  | .ident n =>
    simp only [mentionsTok] at hm
    subst hm
    exact he
  | .group d us =>
    simp only [mentionsTok] at hm
    simp only [substTok] at he
    rw [hc.group, hc.group] at he
    simp only [List.cons.injEq, Tok.group.injEq, true_and] at he
    exact substAll_matters h us (outside_or hc hq h he.1) he.1 hm
  | .punct _ _ | .lit _ => simp only [mentionsTok] at hm
/-- If the results are the same, a mentioned name stands for the same. -/
theorem substAll_matters {y : Str} (h : SameBut q y look look') (ts : Toks)
    (ho : (insteadOf look y).length = (insteadOf look' y).length ∨ outside y ts = 0) (he : q (substAll look str ts) = q (substAll look' str' ts))
    (hm : mentions y ts) : q (insteadOf look y) = q (insteadOf look' y) := by
  match ts with
  | [] => simp only [mentions] at hm
  | t :: ts =>
    have hl : (q (substTok look str t)).length = (q (substTok look' str' t)).length := by
      rw [hq, hq]
      cases t with
      | ident n =>
        by_cases hn : n = y
        · subst hn
          rcases ho with ho | ho
          · exact ho
          · simp [outside] at ho
        · have := congrArg List.length (h n hn)
          rw [hq, hq] at this
          exact this
      | group d us => rfl
      | punct c j => rfl
      | lit l => cases l <;> rfl
    have ho' : (insteadOf look y).length = (insteadOf look' y).length ∨ outside y ts = 0 := by
      refine ho.imp_right fun ho => ?_
      cases t <;> simp only [outside] at ho <;> omega
    simp only [substAll, hc.append] at he
    obtain ⟨h1, h2⟩ := List.append_inj he hl
    simp only [mentions] at hm
    rcases hm with hm | hm
    · exact substTok_matters h t h1 hm
    · exact substAll_matters h ts ho' h2 hm
end

/-- If one name is changed and the result is the same, then the name is not mentioned or stands for the same. -/
theorem subst_matters {y : Str} (h : SameBut q y look look') {ts : Toks} (he : q (substAll look str ts) = q (substAll look' str' ts)) (hm : mentions y ts) :
    q (insteadOf look y) = q (insteadOf look' y) := substAll_matters hc hq h ts (outside_or hc hq h he) he hm

end

end Verif
