import Verif.Model.FormatString
import Verif.Spec.Format
/-! Helper lemmas about `format_string`. -/

namespace Verif
open Spec

variable {C : CharClass} {look : Str → Option Str}

/-- A state outside any placeholder. -/
abbrev fClosed (f : Str) (p : Option Char) : FmtState := ⟨f, [], [], false, p⟩

/-- Fold and finish. -/
def fmtRun (C : CharClass) (look : Str → Option Str) (st : FmtState) (s : Str) : Str :=
  fmtFinish (s.foldl (fmtStep C look) st)

theorem formatString_eq_run (s : Str) : formatString C look s = fmtRun C look (fClosed [] none) s := rfl

/-- Already produced output is only a prefix. -/
theorem fmtStep_prefix (g : Str) (st : FmtState) (c : Char) :
    fmtStep C look { st with formatted := g ++ st.formatted } c =
      { fmtStep C look st c with formatted := g ++ (fmtStep C look st c).formatted } := by
  unfold fmtStep
  by_cases h1 : c = '%'
  · by_cases h2 : st.prev = some '%'
    · simp [h1, h2]
    · by_cases h3 : st.inPh
      · cases h4 : look st.placeholder <;> simp [h1, h2, h3]
      · simp [h1, h2, h3]
  · by_cases h3 : st.inPh
    · by_cases h4 : C.whitespace c <;> simp [h1, h3, h4]
    · simp [h1, h3]

theorem fmtRun_prefix (g : Str) (s : Str) : ∀ st : FmtState,
    fmtRun C look { st with formatted := g ++ st.formatted } s = g ++ fmtRun C look st s := by
  induction s with
  | nil => intro st; unfold fmtRun fmtFinish; by_cases h : st.inPh <;> simp [h]
  | cons c cs ih =>
    intro st
    have := ih (fmtStep C look st c)
    unfold fmtRun at *
    rw [List.foldl_cons, List.foldl_cons, fmtStep_prefix, this]

theorem fmtRun_closed (f : Str) (p : Option Char) (s : Str) :
    fmtRun C look (fClosed f p) s = f ++ fmtRun C look (fClosed [] p) s := by
  have := fmtRun_prefix (C := C) (look := look) f s (fClosed [] p)
  simpa using this

/-- The previous character matters only if it and the next one are percents. -/
theorem fmtRun_prev (p q : Option Char) (s : Str)
    (h : s.head? ≠ some '%' ∨ (p ≠ some '%' ∧ q ≠ some '%')) :
    fmtRun C look (fClosed [] p) s = fmtRun C look (fClosed [] q) s := by
  cases s with
  | nil => rfl
  | cons c cs =>
    unfold fmtRun
    rw [List.foldl_cons, List.foldl_cons]
    congr 2
    unfold fmtStep
    by_cases h1 : c = '%'
    · have : p ≠ some '%' ∧ q ≠ some '%' := by
        rcases h with h | h
        · simp [h1] at h
        · exact h
      simp [h1, this.1, this.2]
    · simp [h1]

theorem fold_plain (s : Str) (h : '%' ∉ s) : ∀ (f : Str) (p : Option Char),
    ∃ q, (q ≠ some '%' ∨ (s = [] ∧ q = p)) ∧
      s.foldl (fmtStep C look) (fClosed f p) = fClosed (f ++ s) q := by
  induction s with
  | nil => intro f p; exact ⟨p, Or.inr ⟨rfl, rfl⟩, by simp⟩
  | cons c cs ih =>
    intro f p
    have hc : c ≠ '%' := by intro e; subst e; simp at h
    obtain ⟨q, hq, hf⟩ := ih (by intro e; exact h (List.mem_cons_of_mem _ e)) (f ++ [c]) (some c)
    refine ⟨q, Or.inl ?_, ?_⟩
    · rcases hq with hq | ⟨-, rfl⟩
      · exact hq
      · simpa using hc
    · rw [List.foldl_cons]
      have : fmtStep C look (fClosed f p) c = fClosed (f ++ [c]) (some c) := by
        simp [fmtStep, hc]
      rw [this, hf]; simp

theorem fold_body (s : Str) (h : '%' ∉ s) : ∀ (f ph t : Str) (p : Option Char),
    ∃ q, (q ≠ some '%' ∨ (s = [] ∧ q = p)) ∧
      s.foldl (fmtStep C look) ⟨f, ph, t, true, p⟩ =
        ⟨f, ph ++ s.filter (fun c => !C.whitespace c), t ++ s, true, q⟩ := by
  induction s with
  | nil => intro f ph t p; exact ⟨p, Or.inr ⟨rfl, rfl⟩, by simp⟩
  | cons c cs ih =>
    intro f ph t p
    have hc : c ≠ '%' := by intro e; subst e; simp at h
    have hcs : '%' ∉ cs := by intro e; exact h (List.mem_cons_of_mem _ e)
    by_cases hw : C.whitespace c
    · obtain ⟨q, hq, hf⟩ := ih hcs f ph (t ++ [c]) (some c)
      refine ⟨q, Or.inl ?_, ?_⟩
      · rcases hq with hq | ⟨-, rfl⟩
        · exact hq
        · simpa using hc
      · rw [List.foldl_cons]
        have : fmtStep C look ⟨f, ph, t, true, p⟩ c = ⟨f, ph, t ++ [c], true, some c⟩ := by
          simp [fmtStep, hc, hw]
        rw [this, hf]; simp [hw]
    · obtain ⟨q, hq, hf⟩ := ih hcs f (ph ++ [c]) (t ++ [c]) (some c)
      refine ⟨q, Or.inl ?_, ?_⟩
      · rcases hq with hq | ⟨-, rfl⟩
        · exact hq
        · simpa using hc
      · rw [List.foldl_cons]
        have : fmtStep C look ⟨f, ph, t, true, p⟩ c = ⟨f, ph ++ [c], t ++ [c], true, some c⟩ := by
          simp [fmtStep, hc, hw]
        rw [this, hf]; simp [hw]

theorem fold_percents (k : Nat) : ∀ (f : Str),
    (List.replicate k '%').foldl (fmtStep C look) (fClosed f (some '%')) =
      fClosed (f ++ List.replicate k '%') (some '%') := by
  induction k with
  | zero => intro f; simp
  | succ k ih =>
    intro f
    rw [List.replicate_succ, List.foldl_cons]
    have : fmtStep C look (fClosed f (some '%')) '%' = fClosed (f ++ ['%']) (some '%') := by
      simp [fmtStep]
    rw [this, ih]; simp

/-- Continuing after a percent run. -/
theorem fmtRun_after (f : Str) (k : Nat) (post : Str) (h : post.head? ≠ some '%') :
    fmtFinish ((List.replicate k '%' ++ post).foldl (fmtStep C look) (fClosed f (some '%'))) =
      f ++ List.replicate k '%' ++ formatString C look post := by
  rw [List.foldl_append, fold_percents]
  have := fmtRun_closed (C := C) (look := look) (f ++ List.replicate k '%') (some '%') post
  unfold fmtRun at this
  rw [this]
  have := fmtRun_prev (C := C) (look := look) (some '%') none post (Or.inl h)
  unfold fmtRun at this
  rw [this]; rfl

theorem formatString_plain (s : Str) (h : '%' ∉ s) : formatString C look s = s := by
  obtain ⟨q, -, hf⟩ := fold_plain (C := C) (look := look) s h [] none
  unfold formatString
  rw [show ({} : FmtState) = fClosed [] none from rfl, hf]
  simp [fmtFinish]

theorem fold_open (pre : Str) (hp : '%' ∉ pre) :
    (pre ++ ['%']).foldl (fmtStep C look) (fClosed [] none) = ⟨pre, [], ['%'], true, some '%'⟩ := by
  obtain ⟨q, hq, hf⟩ := fold_plain (C := C) (look := look) pre hp [] none
  rw [List.foldl_append, hf]
  have hq' : q ≠ some '%' := by
    rcases hq with hq | ⟨-, rfl⟩
    · exact hq
    · simp
  simp [fmtStep, hq']

theorem formatString_unclosed (pre body : Str) (hp : '%' ∉ pre) (hb : '%' ∉ body) :
    formatString C look (pre ++ '%' :: body) = pre ++ '%' :: body := by
  unfold formatString
  rw [show pre ++ '%' :: body = (pre ++ ['%']) ++ body by simp, List.foldl_append,
    show ({} : FmtState) = fClosed [] none from rfl, fold_open pre hp]
  obtain ⟨q, -, hf⟩ := fold_body (C := C) (look := look) body hb pre [] ['%'] (some '%')
  rw [hf]; simp [fmtFinish]

theorem formatString_run (pre post : Str) (k : Nat) (hp : '%' ∉ pre) (hpost : post.head? ≠ some '%') :
    formatString C look (pre ++ List.replicate (k + 2) '%' ++ post) =
      pre ++ List.replicate (k + 1) '%' ++ formatString C look post := by
  conv => lhs; unfold formatString
  rw [show pre ++ List.replicate (k + 2) '%' ++ post =
      (pre ++ ['%']) ++ ('%' :: (List.replicate k '%' ++ post)) by simp [List.replicate_succ],
    List.foldl_append, show ({} : FmtState) = fClosed [] none from rfl, fold_open pre hp,
    List.foldl_cons]
  have : fmtStep C look ⟨pre, [], ['%'], true, some '%'⟩ '%' = fClosed (pre ++ ['%']) (some '%') := by
    simp [fmtStep]
  rw [this, fmtRun_after _ _ _ hpost]
  simp [List.replicate_succ]

theorem formatString_placeholder (pre body post : Str) (k : Nat) (hp : '%' ∉ pre) (hb : '%' ∉ body)
    (hne : body ≠ []) (hpost : post.head? ≠ some '%') :
    formatString C look (pre ++ '%' :: body ++ '%' :: List.replicate k '%' ++ post) =
      pre ++ expandPlaceholder C look body ++ List.replicate k '%' ++ formatString C look post := by
  conv => lhs; unfold formatString
  rw [show pre ++ '%' :: body ++ '%' :: List.replicate k '%' ++ post =
      (pre ++ ['%']) ++ (body ++ '%' :: (List.replicate k '%' ++ post)) by simp,
    List.foldl_append, show ({} : FmtState) = fClosed [] none from rfl, fold_open pre hp,
    List.foldl_append]
  obtain ⟨q, hq, hf⟩ := fold_body (C := C) (look := look) body hb pre [] ['%'] (some '%')
  have hq' : q ≠ some '%' := by
    rcases hq with hq | ⟨h, -⟩
    · exact hq
    · exact absurd h hne
  rw [hf, List.foldl_cons]
  have : fmtStep C look ⟨pre, [] ++ body.filter (fun c => !C.whitespace c), ['%'] ++ body, true, q⟩ '%' =
      fClosed (pre ++ expandPlaceholder C look body) (some '%') := by
    simp only [fmtStep, expandPlaceholder, List.nil_append]
    cases hl : look (body.filter (fun c => !C.whitespace c)) <;> simp [hq']
  rw [this, fmtRun_after _ _ _ hpost]

/-! ### Decomposition of strings -/

theorem split_percent (s : Str) :
    '%' ∉ s ∨ ∃ pre post, s = pre ++ '%' :: post ∧ '%' ∉ pre := by
  induction s with
  | nil => simp
  | cons c cs ih =>
    by_cases hc : c = '%'
    · exact Or.inr ⟨[], cs, by simp [hc], by simp⟩
    · rcases ih with h | ⟨pre, post, rfl, hp⟩
      · left; simp [h]; exact fun e => hc e.symm
      · right; exact ⟨c :: pre, post, rfl, by simp [hp]; exact fun e => hc e.symm⟩

theorem split_run (s : Str) : ∃ k post, s = List.replicate k '%' ++ post ∧ post.head? ≠ some '%' := by
  induction s with
  | nil => exact ⟨0, [], by simp⟩
  | cons c cs ih =>
    by_cases hc : c = '%'
    · obtain ⟨k, post, rfl, hp⟩ := ih
      exact ⟨k + 1, post, by simp [hc, List.replicate_succ], hp⟩
    · exact ⟨0, c :: cs, by simp, by simpa using hc⟩

theorem formats_total (n : Nat) : ∀ s : Str, s.length ≤ n → Formats C look s (formatString C look s) := by
  induction n with
  | zero =>
    intro s hs
    have : s = [] := by cases s with | nil => rfl | cons => simp at hs
    subst this
    rw [formatString_plain [] (by simp)]
    exact .plain [] (by simp)
  | succ n ih =>
    intro s hs
    rcases split_percent s with h | ⟨pre, rest, rfl, hp⟩
    · rw [formatString_plain s h]; exact .plain s h
    · rcases split_percent rest with h | ⟨body, rest', rfl, hb⟩
      · rw [formatString_unclosed pre rest hp h]; exact .unclosed pre rest hp h
      · obtain ⟨k, post, rfl, hpost⟩ := split_run rest'
        have hlen : post.length ≤ n := by simp at hs; omega
        by_cases hbody : body = []
        · subst hbody
          have e : pre ++ '%' :: ([] ++ '%' :: (List.replicate k '%' ++ post)) =
              pre ++ List.replicate (k + 2) '%' ++ post := by simp [List.replicate_succ]
          rw [e, formatString_run pre post k hp hpost]
          exact .run pre post _ k hp hpost (ih post hlen)
        · have e : pre ++ '%' :: (body ++ '%' :: (List.replicate k '%' ++ post)) =
              pre ++ '%' :: body ++ '%' :: List.replicate k '%' ++ post := by simp
          rw [e, formatString_placeholder pre body post k hp hb hbody hpost]
          exact .placeholder pre body post _ k hp hb hbody hpost (ih post hlen)

theorem formats_sound {s o : Str} (h : Formats C look s o) : formatString C look s = o := by
  induction h with
  | plain s h => exact formatString_plain s h
  | unclosed pre body hp hb => exact formatString_unclosed pre body hp hb
  | run pre post o k hp hpost _ ih => rw [formatString_run pre post k hp hpost, ih]
  | placeholder pre body post o k hp hb hne hpost _ ih =>
    rw [formatString_placeholder pre body post k hp hb hne hpost, ih]

theorem joinWith_eq (sep : Str) : ∀ ss : List Str, VKind.joinWith sep ss = sep.intercalate ss
  | [] => rfl
  | [s] => by simp [VKind.joinWith]
  | s :: t :: ss => by
    rw [VKind.joinWith, joinWith_eq sep (t :: ss)]
    · simp [List.intercalate_cons_cons]
    · simp

theorem stringForm_eq (E : Ext) (v : VKind) : stringForm E v = v.format E := by
  cases v with
  | path ts => exact (joinWith_eq _ _).symm
  | litInt i => cases i; cases ‹Bool› <;> simp [stringForm, VKind.format]
  | _ => rfl

end Verif
