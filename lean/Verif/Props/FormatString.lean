import Verif.Proofs.FormatString
/-!
# Properties C06–C10: placeholders in string literals

`look name` is the text of the value of alias `name`, if there is such an alias.
-/

namespace Verif.Props
open Verif Spec

variable {C : CharClass} {look : Str → Option Str}

/-- **C06**: a string without `%` is never altered. -/
theorem C06_no_percent_unchanged (s : Str) (h : '%' ∉ s) : formatString C look s = s :=
  formatString_plain s h

/-- **C07**: `% name %`, with any whitespace around the name, is replaced by the alias value; what precedes
is copied, what follows is formatted on its own. -/
theorem C07_placeholder_replaced (pre ws₁ name ws₂ post v : Str)
    (hpre : '%' ∉ pre) (hpost : post.head? ≠ some '%')
    (hws₁ : ∀ c ∈ ws₁, C.whitespace c = true) (hws₂ : ∀ c ∈ ws₂, C.whitespace c = true)
    (hwp : C.whitespace '%' = false)
    (hname : ∀ c ∈ name, C.whitespace c = false ∧ c ≠ '%') (hne : name ≠ [])
    (hlook : look name = some v) :
    formatString C look (pre ++ '%' :: (ws₁ ++ name ++ ws₂) ++ '%' :: post) =
      pre ++ v ++ formatString C look post := by
  have hb : '%' ∉ ws₁ ++ name ++ ws₂ := by
    intro hm
    simp only [List.mem_append] at hm
    rcases hm with (hm | hm) | hm
    · have := hws₁ _ hm; simp [hwp] at this
    · exact (hname _ hm).2 rfl
    · have := hws₂ _ hm; simp [hwp] at this
  have hn : ws₁ ++ name ++ ws₂ ≠ [] := by simp [hne]
  have hf : (ws₁ ++ name ++ ws₂).filter (fun c => !C.whitespace c) = name := by
    rw [List.filter_append, List.filter_append]
    have h1 : ws₁.filter (fun c => !C.whitespace c) = [] := by
      rw [List.filter_eq_nil_iff]; intro c hc; simp [hws₁ c hc]
    have h2 : ws₂.filter (fun c => !C.whitespace c) = [] := by
      rw [List.filter_eq_nil_iff]; intro c hc; simp [hws₂ c hc]
    have h3 : name.filter (fun c => !C.whitespace c) = name := by
      rw [List.filter_eq_self]; intro c hc; simp [(hname c hc).1]
    simp [h1, h2, h3]
  have := formatString_placeholder (C := C) (look := look) pre (ws₁ ++ name ++ ws₂) post 0 hpre hb hn hpost
  simp only [List.replicate_zero, List.append_nil] at this
  rw [show pre ++ '%' :: (ws₁ ++ name ++ ws₂) ++ '%' :: post =
    pre ++ '%' :: (ws₁ ++ name ++ ws₂) ++ ['%'] ++ post by simp]
  rw [this]
  simp only [expandPlaceholder, hf, hlook]

/-- The table used by the examples: two aliases. -/
def demoLook : Str → Option Str := fun s =>
  if s = S "a" then some (S "Foo") else if s = S "b" then some (S "Bar") else none

example : formatString CharClass.ascii demoLook (S "x %\t a  % y %b%!") = S "x Foo y Bar!" := by decide
example : CharClass.ascii.whitespace '%' = false ∧ CharClass.ascii.whitespace '\t' = true := by decide

/-- **C08**: a string without `%%` none of whose placeholders names an alias keeps its value. -/
theorem C08_unknown_placeholders_verbatim (s : Str) (hd : ¬ HasDoublePercent s)
    (hlook : ∀ a body b, s = a ++ '%' :: body ++ '%' :: b → '%' ∉ body →
      look (body.filter (fun c => !C.whitespace c)) = none) :
    formatString C look s = s := by
  have key : ∀ t o, Formats C look t o → ¬ HasDoublePercent t →
      (∀ a body b, t = a ++ '%' :: body ++ '%' :: b → '%' ∉ body →
        look (body.filter (fun c => !C.whitespace c)) = none) → o = t := by
    intro t o h
    induction h with
    | plain => intros; rfl
    | unclosed => intros; rfl
    | run pre post o k hp hpost _ ih =>
      intro hd _
      exact absurd ⟨pre, List.replicate k '%' ++ post, by simp [List.replicate_succ]⟩ hd
    | placeholder pre body post o k hp hb hne hpost _ ih =>
      intro hd hl
      have hk : k = 0 := by
        cases k with
        | zero => rfl
        | succ k =>
          exact absurd ⟨pre ++ '%' :: body, List.replicate k '%' ++ post, by simp [List.replicate_succ]⟩ hd
      subst hk
      have h1 := hl pre body post (by simp) hb
      rw [ih ?_ ?_]
      · simp [expandPlaceholder, h1]
      · rintro ⟨a, b, rfl⟩
        exact hd ⟨pre ++ '%' :: body ++ '%' :: a, b, by simp⟩
      · intro a body' b e hb'
        subst e
        exact hl (pre ++ '%' :: body ++ '%' :: a) body' b (by simp) hb'
  exact key s _ (formats_total s.length s (Nat.le_refl _)) hd hlook

example : formatString CharClass.ascii demoLook (S "100% of % c % and 5%") = S "100% of % c % and 5%" := by decide

/-- **C09** (partial: isolated escapes; see `C09_escape_false`). If no two percents are adjacent in the
intended text, writing every percent as `%%` produces that text, whatever the aliases. -/
theorem C09_escape_partial (s : Str) (hd : ¬ HasDoublePercent s) :
    formatString C look (escapePercent s) = s := by
  have key : ∀ n, ∀ s : Str, s.length ≤ n → ¬ HasDoublePercent s →
      formatString C look (escapePercent s) = s := by
    intro n
    induction n with
    | zero =>
      intro s hs _
      have : s = [] := by cases s with | nil => rfl | cons => simp at hs
      subst this; rfl
    | succ n ih =>
      intro s hs hd
      have hpl : ∀ p : Str, '%' ∉ p → escapePercent p = p := by
        intro p hp
        induction p with
        | nil => rfl
        | cons c cs ih =>
          have hc : c ≠ '%' := by intro e; subst e; simp at hp
          have := ih (by intro e; exact hp (List.mem_cons_of_mem _ e))
          unfold escapePercent at this
          simp [escapePercent, hc, this]
      rcases split_percent s with h | ⟨pre, post, rfl, hp⟩
      · rw [hpl s h]; exact formatString_plain s h
      · have hpost : post.head? ≠ some '%' := by
          intro e
          cases post with
          | nil => simp at e
          | cons c cs =>
            simp at e; subst e
            exact hd ⟨pre, cs, rfl⟩
        have he : escapePercent (pre ++ '%' :: post) =
            pre ++ List.replicate 2 '%' ++ escapePercent post := by
          have := hpl pre hp
          unfold escapePercent at this ⊢
          simp [this, List.replicate_succ]
        have hpost' : (escapePercent post).head? ≠ some '%' := by
          cases post with
          | nil => simp [escapePercent]
          | cons c cs =>
            have hc : c ≠ '%' := by simpa using hpost
            simp [escapePercent, hc]
        rw [he, formatString_run pre _ 0 hp hpost', ih post (by simp at hs; omega) ?_]
        · simp
        · rintro ⟨a, b, rfl⟩
          exact hd ⟨pre ++ '%' :: a, b, by simp⟩
  exact key s.length s (Nat.le_refl _) hd

/-- **C09** (exact law for runs): a maximal run of `n + 2` percents yields `n + 1` of them. -/
theorem C09_percent_run_partial (pre post : Str) (n : Nat) (hp : '%' ∉ pre) (hpost : post.head? ≠ some '%') :
    formatString C look (pre ++ List.replicate (n + 2) '%' ++ post) =
      pre ++ List.replicate (n + 1) '%' ++ formatString C look post :=
  formatString_run pre post n hp hpost

/-- **C09 is false in general**: two consecutive escapes give three percents, and an escape directly after a
placeholder (equally: two adjacent placeholders) is misread. -/
theorem C09_escape_false :
    formatString CharClass.ascii demoLook (S "%%%%") = S "%%%" ∧
    formatString CharClass.ascii demoLook (escapePercent (S "%%")) ≠ S "%%" ∧
    formatString CharClass.ascii demoLook (S "%a%%%") = S "Foo%%" ∧
    formatString CharClass.ascii demoLook (S "%a%%b%") = S "Foo%b%" := by
  decide

example : formatString CharClass.ascii demoLook (S "rate: 5%% of %a%") = S "rate: 5% of Foo" := by decide
example : formatString CharClass.ascii demoLook (escapePercent (S "5% of %a%!")) = S "5% of %a%!" := by decide

/-- **C10**: formatting is exactly the relation `Formats` over percent-free pieces and percent runs. -/
theorem C10_format_characterised (s o : Str) :
    Formats C look s o ↔ formatString C look s = o := by
  constructor
  · exact formats_sound
  · rintro rfl; exact formats_total s.length s (Nat.le_refl _)

example : Formats CharClass.ascii demoLook (S "x%a%%y") (S "xFoo%y") :=
  .placeholder (S "x") (S "a") (S "y") (S "y") 1 (by decide) (by decide) (by decide) (by decide)
    (.plain _ (by decide))

end Verif.Props
