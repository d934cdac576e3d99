import Verif.Proofs.ParseContext
import Verif.Proofs.ParseTop
import Verif.Spec.Commas
/-! # Values before commas -/

namespace Verif.Props
open Verif Spec

section
variable {Y : Syn} (h1 : StopsBeforeComma Y.path) (h2 : StopsBeforeComma Y.type) (h3 : StopsBeforeComma Y.expr)

theorem first_comma {ts τ : Toks} {j : Bool} {t : Tok} {r : Toks} (h : First (ts ++ .punct ',' j :: τ) t r) (ht : ∀ j, t ≠ .punct ',' j) :
    ∃ r', r = r' ++ .punct ',' j :: τ ∧ First ts t r' := by
  rcases first_append h with ⟨s, h1, h2⟩ | ⟨-, h⟩
  · exact ⟨s, h1, h2⟩
  · cases h with
    | here => exact (ht _ rfl).elim

theorem ends_append {r : Toks} (j : Bool) (τ : Toks) (h : Ends r) : Ends (r ++ .punct ',' j :: τ) := by
  cases h with
  | nil => exact .comma _ _
  | comma => exact .comma _ _

include h1 h2 h3 in
theorem readsAs_comma {i : Nat} {ts : Toks} {v : VKind} {used r : Toks} (j : Bool) (τ : Toks) (h : ReadsAs Y i ts v used r) :
    ReadsAs Y i (ts ++ .punct ',' j :: τ) v used (r ++ .punct ',' j :: τ) := by
  cases h with
  | int h => exact .int (h.append _)
  | negInt h h' => exact .negInt (h.append _) (h'.append _)
  | str h => exact .str (h.append _)
  | underscore h => exact .underscore (h.append _)
  | ident h hn => exact .ident (h.append _) hn
  | path _ n h =>
    obtain ⟨hl, hp⟩ := (h1 ts j τ n).1 h
    have := ReadsAs.path (Y := Y) (ts ++ .punct ',' j :: τ) n hp
    rwa [List.take_append_of_le_length hl, List.drop_append_of_le_length hl] at this
  | type _ n h =>
    obtain ⟨hl, hp⟩ := (h2 ts j τ n).1 h
    have := ReadsAs.type (Y := Y) (ts ++ .punct ',' j :: τ) n hp
    rwa [List.take_append_of_le_length hl, List.drop_append_of_le_length hl] at this
  | expr _ n h =>
    obtain ⟨hl, hp⟩ := (h3 ts j τ n).1 h
    have := ReadsAs.expr (Y := Y) (ts ++ .punct ',' j :: τ) n hp
    rwa [List.take_append_of_le_length hl, List.drop_append_of_le_length hl] at this

include h1 h2 h3 in
theorem readsAs_alone {i : Nat} {ts : Toks} {v : VKind} {used : Toks} {j : Bool} {τ : Toks}
    (h : ReadsAs Y i (ts ++ .punct ',' j :: τ) v used (.punct ',' j :: τ)) : ReadsAs Y i ts v used [] := by
  have nil : ∀ {r' : Toks}, .punct ',' j :: τ = r' ++ .punct ',' j :: τ → r' = [] := by
    intro r' e
    have := congrArg List.length e
    simp at this
    exact this
  have len : ∀ {n : Nat}, (ts ++ .punct ',' j :: τ).drop n = .punct ',' j :: τ → n = ts.length := by
    intro n e
    have := congrArg List.length e
    simp only [List.length_cons, List.length_drop, List.length_append] at this
    omega
  generalize hr : Tok.punct ',' j :: τ = r at h
  generalize hs : ts ++ r = s at h
  cases h with
  | int h => subst hr hs; obtain ⟨r', e, g⟩ := first_comma h (by simp); rw [nil e] at g; exact .int g
  | negInt h h' =>
    subst hr hs
    obtain ⟨q, rfl, g⟩ := first_comma h (by simp)
    obtain ⟨r', e, g'⟩ := first_comma h' (by simp)
    rw [nil e] at g'
    exact .negInt g g'
  | str h => subst hr hs; obtain ⟨r', e, g⟩ := first_comma h (by simp); rw [nil e] at g; exact .str g
  | underscore h => subst hr hs; obtain ⟨r', e, g⟩ := first_comma h (by simp); rw [nil e] at g; exact .underscore g
  | ident h hn => subst hr hs; obtain ⟨r', e, g⟩ := first_comma h (by simp); rw [nil e] at g; exact .ident g hn
  | path _ n h =>
    have e := len (n := n) (by rw [hr, hs])
    subst e
    rw [← hs, ← hr] at h
    have := ReadsAs.path (Y := Y) ts _ ((h1 ts j τ _).2 h (Nat.le_refl _))
    rw [← hs]
    simpa using this
  | type _ n h =>
    have e := len (n := n) (by rw [hr, hs])
    subst e
    rw [← hs, ← hr] at h
    have := ReadsAs.type (Y := Y) ts _ ((h2 ts j τ _).2 h (Nat.le_refl _))
    rw [← hs]
    simpa using this
  | expr _ n h =>
    have e := len (n := n) (by rw [hr, hs])
    subst e
    rw [← hs, ← hr] at h
    have := ReadsAs.expr (Y := Y) ts _ ((h3 ts j τ _).2 h (Nat.le_refl _))
    rw [← hs]
    simpa using this

include h1 h2 h3 in
theorem readsValue_alone {v : VKind} {ts : Toks} {j : Bool} {τ : Toks} (h : ReadsValue Y (ts ++ .punct ',' j :: τ) v (.punct ',' j :: τ)) :
    ReadsValue Y ts v [] := by
  cases h with
  | longest i _ used _ h he hmax =>
    exact .longest i v used [] (readsAs_alone h1 h2 h3 h) .nil fun k v' used' rest' hk hke =>
      hmax k v' used' _ (readsAs_comma h1 h2 h3 j τ hk) (ends_append j τ hke)
  | tokens used _ hnone h hc he =>
    have e : ts = used := List.append_cancel_right h
    subst e
    exact .tokens ts [] (fun i v u r g ge => hnone i v u _ (readsAs_comma h1 h2 h3 j τ g) (ends_append j τ ge)) (by simp) hc .nil

variable {known : Str → Bool}

include h1 h2 h3 in
theorem expr_alone {v : Toks} {j : Bool} {r : Toks} {e : Expr} (h : ReadsExpr known Y (v ++ .punct ',' j :: r) e (.punct ',' j :: r)) :
    ReadsExpr known Y v e [] := by
  have call : ∀ {n raw}, CallAt known (v ++ .punct ',' j :: r) n raw (.punct ',' j :: r) → CallAt known v n raw [] := by
    intro n raw hc
    cases hc with
    | mk h hk hn h' =>
      obtain ⟨q, rfl, g⟩ := first_comma h (by simp)
      obtain ⟨r', e, g'⟩ := first_comma h' (by simp)
      have : r' = [] := by
        have := congrArg List.length e
        simp at this
        exact this
      subst this
      exact .mk g hk hn g'
  cases h with
  | call id rid h ha => exact .call id rid (call h) ha
  | dropped id rid h hp he => exact .dropped id rid (call h) hp he
  | value id hn h =>
    refine .value id (fun n raw rest h' => ?_) (readsValue_alone h1 h2 h3 h)
    cases h' with
    | mk g hk hk' g' => exact hn _ _ _ (.mk (g.append _) hk hk' (g'.append _))

include h1 h2 h3 in
theorem expr_context {v : Toks} {j j' : Bool} {r r' : Toks} {e e' : Expr} (h : ReadsExpr known Y (v ++ .punct ',' j :: r) e (.punct ',' j :: r))
    (h' : ReadsExpr known Y (v ++ .punct ',' j' :: r') e' (.punct ',' j' :: r')) : e'.erase = e.erase :=
  ((parseE_exact Y known (fun x => x) _).unique (Nat.le_refl _) (expr_alone h1 h2 h3 h) (expr_alone h1 h2 h3 h')).2

end

end Verif.Props
