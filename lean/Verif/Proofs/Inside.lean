import Verif.Spec.Depth
import Verif.Proofs.ReadCalls
import Verif.Proofs.ParseForms
import Verif.Proofs.FaultPlaces
import Verif.Proofs.Leafmap
/-! # What holds of the text of an input holds of the texts of the expressions in it -/

namespace Verif
open Spec

set_option linter.unusedSectionVars false

/-- The property passes from a text to what follows in it and to what is inside its groups, except for braces. -/
structure Hereditary (H : Toks → Prop) : Prop where
  after : ∀ {a b : Toks}, After a b → H a → H b
  inside : ∀ {ts c r : Toks} {d : Delim}, First ts (.group d c) r → d ≠ .brace → H ts → H c

section
variable {H : Toks → Prop} (hH : Hereditary H)
include hH

theorem commaList_inside {α : Type} {R : Toks → α → Toks → Prop} (hR : ∀ ts a r, R ts a r → After ts r) {ts : Toks} {as : List α} (h : CommaList R ts as)
    (hts : H ts) : ∀ a ∈ as, ∃ ts' r, R ts' a r ∧ H ts' := by
  induction h with
  | nil => simp
  | last _ h => intro a ha; simp only [List.mem_singleton] at ha; subst ha; exact ⟨_, _, h, hts⟩
  | cons _ h _ ih =>
    intro a ha
    rcases List.mem_cons.1 ha with rfl | ha
    · exact ⟨_, _, h, hts⟩
    · exact ih (hH.after (.tail (.refl _)) (hH.after (hR _ _ _ h) hts)) a ha

section
variable {α β : Type} {R : Toks → α → Toks → Prop} (f : α → β) (hR : ∀ ts a r, R ts a r → After ts r)
include hR

omit hH in
theorem readsTup_rest {ts r : Toks} {t : PTup α} (h : ReadsTup R ts t r) : After ts r := by
  cases h with
  | val _ _ h => exact hR _ _ _ h
  | tup _ _ hp _ => exact hp.after.trans (.tail (.refl _))

omit hH in
theorem readsElem_rest {ts r : Toks} {t : PLoopElem α} (h : ReadsElem R ts t r) : After ts r := by
  cases h with
  | tuple _ hp _ => exact hp.after.trans (.tail (.refl _))
  | simple _ h => exact hR _ _ _ h

mutual
theorem readsTup_inside (t : PTup α) {ts rest : Toks} (h : ReadsTup R ts t rest) (hts : H ts) :
    ∀ x ∈ inOrder (t.conv f), ∃ a ts' r, R ts' a r ∧ x = f a ∧ H ts' := by
  match t with
  | .val id a =>
    cases h with
    | val _ _ h => intro x hx; simp only [PTup.conv, inOrder, List.mem_singleton] at hx; exact ⟨a, _, _, h, hx, hts⟩
  | .tup id tid as =>
    cases h with
    | tup _ _ hp h =>
      simp only [PTup.conv, inOrder]
      exact readsTups_inside as fun t ht => commaList_inside hH (fun _ _ _ h => readsTup_rest hR h) h (hH.inside hp (by simp) hts) t ht
theorem readsTups_inside (as : List (PTup α)) (h : ∀ t ∈ as, ∃ ts r, ReadsTup R ts t r ∧ H ts) :
    ∀ x ∈ inOrderL (PTup.convL f as), ∃ a ts r, R ts a r ∧ x = f a ∧ H ts := by
  match as with
  | [] => simp [PTup.convL, inOrderL]
  | t :: as =>
    intro x hx
    simp only [PTup.convL, inOrderL, List.mem_append] at hx
    rcases hx with hx | hx
    · obtain ⟨ts, r, ht, hd⟩ := h t List.mem_cons_self
      exact readsTup_inside t ht hd x hx
    · exact readsTups_inside as (fun t ht => h t (List.mem_cons_of_mem _ ht)) x hx
end

theorem readsElem_inside {e : PLoopElem α} {ts rest : Toks} (h : ReadsElem R ts e rest) (hts : H ts) :
    ∀ x ∈ exprsOfValue (e.value f), ∃ a ts' r, R ts' a r ∧ x = f a ∧ H ts' := by
  cases h with
  | tuple id hp h =>
    exact readsTups_inside hH f hR _ fun t ht => commaList_inside hH (fun _ _ _ h => readsTup_rest hR h) h (hH.inside hp (by simp) hts) t ht
  | simple _ h => intro x hx; simp only [PLoopElem.value, exprsOfValue, List.mem_singleton] at hx; exact ⟨_, _, _, h, hx, hts⟩
end

theorem readsLoops_inside {known : Str → Bool} {Y : Syn} {ts rest : Toks} {ls : List PLoop} (h : ReadsLoops known Y ts ls rest) (hts : H ts) :
    ∀ l ∈ ls, ∃ ts' r, ReadsLoop known Y ts' l r ∧ H ts' := by
  induction h with
  | nil => simp
  | cons h _ ih =>
    intro l hl
    rcases List.mem_cons.1 hl with rfl | hl
    · exact ⟨_, _, h, hts⟩
    · exact ih (hH.after (readsLoop_after h) hts) l hl

theorem readsItems_inside {known : Str → Bool} {Y : Syn} {ts rest : Toks} {is : List PItem} {bs : List Bool} (h : ReadsItems known Y ts is bs rest)
    (hts : H ts) : ∀ i ∈ is, ∃ ts' r, ReadsItem known Y ts' i r ∧ H ts' := by
  induction h with
  | last h => intro i hi; simp only [List.mem_singleton] at hi; subst hi; exact ⟨_, _, h, hts⟩
  | lastSep h => intro i hi; simp only [List.mem_singleton] at hi; subst hi; exact ⟨_, _, h, hts⟩
  | cons h _ _ _ _ ih =>
    intro i hi
    rcases List.mem_cons.1 hi with rfl | hi
    · exact ⟨_, _, h, hts⟩
    · exact ih (hH.after (.tail (.refl _)) (hH.after (readsItem_after h) hts)) i hi

theorem readsHeader_inside {known : Str → Bool} {Y : Syn} {ts rest : Toks} {a : PAst} (h : ReadsHeader known Y ts (a.loops, a.spec) rest) (hts : H ts)
    {ε : Type} (g : Expr → ε) {α : Type} (f : Alias → α) :
    ∀ x ∈ exprsIn (a.conv f g), ∃ e ts' r, ReadsExpr known Y ts' e r ∧ x = g e ∧ H ts' := by
  intro x hx
  obtain ⟨id, ls, s, block⟩ := a
  cases h with
  | @mk mid _ _ _ hl hs =>
    simp only at hl hs
    have hm : H mid := by
      rcases hl with ⟨-, rfl, -⟩ | ⟨id, l, -, -, hl⟩
      · exact hts
      · exact hH.after (readsLoops_after hl) hts
    simp only [exprsIn, PAst.conv, List.mem_append] at hx
    rcases hx with hx | hx
    · rcases hl with ⟨rfl, -, -⟩ | ⟨id, l, rfl, -, hl⟩
      · simp at hx
      · simp only [Option.map_some, Option.getD_some, List.mem_flatMap, List.mem_map] at hx
        obtain ⟨_, ⟨l', hl', rfl⟩, v, hv, hx⟩ := hx
        simp only [List.mem_map] at hv
        obtain ⟨e, he, rfl⟩ := hv
        obtain ⟨_, _, hr, hd⟩ := readsLoops_inside hH hl hts l' hl'
        cases hr with
        | mk _ _ ha hb hv =>
          obtain ⟨_, _, hr, h3⟩ := commaList_inside hH (fun _ _ _ h => readsElem_rest (fun _ _ _ h => readsExpr_after h) h) hv
            (hH.inside hb (by simp) (hH.after (.tail (.refl _)) (hH.after (readsElem_after ha) (hH.after (.tail (.refl _)) hd)))) e he
          exact readsElem_inside hH g (fun _ _ _ h => readsExpr_after h) hr h3 x hx
    · rcases hs with ⟨rfl, -, -⟩ | ⟨s', rfl, -, hs⟩
      · simp at hx
      · cases hs with
        | mk id h hb =>
          simp only [Option.map_some, Option.toList_some, List.flatMap_cons, List.flatMap_nil, List.append_nil, List.mem_map,
            List.map_map] at hx
          obtain ⟨i, hi, rfl⟩ := hx
          obtain ⟨_, _, hr, hd⟩ := readsItems_inside hH h hm i hi
          cases hr with
          | mk _ _ _ ha _ h _ => exact ⟨_, _, _, h, rfl, hH.after (.tail (.tail (.refl _))) (hH.after ha.after hd)⟩

/-- The same for whole inputs. -/
theorem reads_inside {W : World} {inv : Invocation} {a : PAst} (h : Reads W inv a)
    (hts : H (headerToks inv)) :
    ∀ x ∈ exprsIn (tree a), ∃ e ts' r, ReadsExpr isBuiltin W.Y ts' e r ∧ x = e.erase ∧ H ts' := by
  have key : ∀ {ts}, ReadsInput isBuiltin W.Y ts a → H ts → ∀ x ∈ exprsIn (tree a), ∃ e ts' r, ReadsExpr isBuiltin W.Y ts' e r ∧ x = e.erase ∧ H ts' := by
    intro ts h h'
    obtain ⟨id, ls, s, b⟩ := a
    cases h with
    | mk _ h _ _ _ => exact readsHeader_inside hH (a := ⟨id, ls, s, b⟩) h h' Expr.erase (·.2)
  cases inv with
  | compose ts => exact key h hts
  | composeIdents ts => exact key h hts
  | composeItem attr item =>
    have h := h.1
    obtain ⟨id, ls, s, b⟩ := a
    cases h with
    | mk _ h _ => exact readsHeader_inside hH (a := ⟨id, ls, s, b⟩) h hts Expr.erase (·.2)
end

end Verif
