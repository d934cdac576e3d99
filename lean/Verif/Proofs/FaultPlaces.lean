import Verif.Proofs.Diagnose
import Verif.Proofs.ParseContext
/-! # Where the mistakes are -/

namespace Verif
open Spec

theorem After.flat {ts r : Toks} (h : After ts r) : flat r <:+ flat ts := by
  induction h with
  | refl => exact List.suffix_refl _
  | @tail t ts r h ih => exact ih.trans (List.suffix_append _ _)
  | @enter c ts r h ih =>
    rw [flat_append] at ih
    exact ih

theorem First.flat {ts : Toks} {t : Tok} {r : Toks} (h : First ts t r) : flat (t :: r) <:+ flat ts := by
  induction h with
  | here h => exact List.suffix_refl _
  | @inside c t r rest h ih =>
    obtain ⟨p, hp⟩ := ih
    refine ⟨p, ?_⟩
    simp only [Spec.flat, flatTok, flat_append] at hp ⊢
    rw [← hp]
    simp
  | skip hc h ih => exact ih.trans (List.suffix_append _ _)

theorem first_group_flat {ts c r : Toks} {d : Delim} (h : First ts (.group d c) r) : flat c <:+: flat ts :=
  (List.prefix_append (flat c) (flat r)).isInfix.trans (First.flat h).isInfix

theorem isSep_flat {b : Bool} {t : Tok} (h : IsSep b t) (r : Toks) : t ∈ flat (t :: r) := by
  cases h <;> simp [flat, flatTok]

section
variable {known : Str → Bool} {Y : Syn}

theorem elem_after {ts : Toks} {v : PLoopElem Expr} {r : Toks} (h : ReadsElem (ReadsExpr known Y) ts v r) : After ts r := by
  cases h with
  | tuple id h _ => exact h.after_rest
  | simple hn h => exact readsExpr_after h

theorem valuesFault_flat {ts r : Toks} (h : ValuesFault known Y ts r) : flat r <:+ flat ts := by
  induction h with
  | here _ h _ => exact (elem_after h).flat
  | later _ h _ ih => exact ih.trans ((elem_after h).trans .cons).flat

theorem loopFault_flat {ts : Toks} {w : Why} {r : Toks} (h : LoopFault known Y ts w r) : flat r <:+: flat ts := by
  cases h with
  | alias h => cases h <;> exact List.infix_refl _
  | kwIn h _ => exact (readsElem_after h).flat.isInfix
  | brackets h _ => exact ((readsElem_after h).trans .cons).flat.isInfix
  | values h hb hv =>
    exact (valuesFault_flat hv).isInfix.trans ((first_group_flat hb).trans ((readsElem_after h).trans .cons).flat.isInfix)

theorem loopsFault_flat {ts : Toks} {w : Why} {r : Toks} (h : LoopsFault known Y ts w r) : flat r <:+: flat ts := by
  induction h with
  | here h => exact (loopFault_flat h).trans (List.suffix_append _ _).isInfix
  | later h _ ih => exact ih.trans (readsLoop_after h).flat.isInfix

theorem itemFault_flat {ts : Toks} {w : Why} {r : Toks} (h : ItemFault known Y ts w r) : flat r <:+ flat ts := by
  cases h with
  | equals ha _ _ => exact ha.after_rest.flat
  | separator ha _ h _ => exact ((readsExpr_after h).flat).trans ((ha.after_rest.trans .cons).flat)

theorem itemsFault_flat {b : Option Bool} {ts : Toks} {w : Why} {r : Toks} (h : ItemsFault known Y b ts w r) : flat r <:+ flat ts := by
  induction h with
  | here h => exact itemFault_flat h
  | mixed h _ _ => exact ((readsItem_after h).trans .cons).flat
  | later h _ _ _ _ _ ih => exact ih.trans ((readsItem_after h).trans .cons).flat

theorem readsOptLoops_flat {ts : Toks} {ls : Option PLoops} {mid : Toks} (h : ReadsOptLoops Y known ts ls mid) : flat mid <:+ flat ts := by
  rcases h with ⟨_, rfl, _⟩ | ⟨_, _, _, _, h⟩
  · exact List.suffix_refl _
  · exact (readsLoops_after h).flat

theorem headerFault_flat {ts : Toks} {w : Why} {r : Toks} (h : HeaderFault known Y ts w r) : flat r <:+: flat ts := by
  cases h with
  | loops h => exact loopsFault_flat h
  | items hl _ _ h => exact ((itemsFault_flat h).trans (readsOptLoops_flat hl)).isInfix

theorem readsHeader_flat {ts : Toks} {x : Option PLoops × Option PSpec} {r : Toks} (h : ReadsHeader known Y ts x r) : flat r <:+ flat ts := by
  cases h with
  | mk hl hs =>
    refine List.IsSuffix.trans ?_ (readsOptLoops_flat hl)
    rcases hs with ⟨_, rfl, _⟩ | ⟨_, _, _, h⟩
    · exact List.suffix_refl _
    · cases h with
      | mk _ h _ => exact (readsItems_after h).flat

theorem inputFault_flat {ts : Toks} {w : Why} {r : Toks} (h : InputFault known Y ts w r) : flat r <:+: flat ts := by
  cases h with
  | header h => exact headerFault_flat h
  | braces h _ => exact (readsHeader_flat h).isInfix
  | block h hb _ => exact (first_group_flat hb).trans (readsHeader_flat h).isInfix
  | mixed h hb _ _ _ => exact ((hb.after_rest.trans .cons).flat.trans (readsHeader_flat h)).isInfix
  | leftOver h hb _ hr =>
    refine List.IsSuffix.isInfix (List.IsSuffix.trans ?_ (hb.after_rest.flat.trans (readsHeader_flat h)))
    rcases hr with ⟨rfl, _⟩ | ⟨_, _, rfl, _⟩
    · exact List.suffix_refl _
    · exact After.cons.flat

theorem attrFault_flat {ts : Toks} {w : Why} {r : Toks} (h : AttrFault known Y ts w r) : flat r <:+: flat ts := by
  cases h with
  | header h => exact headerFault_flat h
  | loopsSep h _ => exact (readsHeader_flat h).isInfix
  | leftOver h hr =>
    refine List.IsSuffix.isInfix (List.IsSuffix.trans ?_ (readsHeader_flat h))
    rcases hr with ⟨rfl, _⟩ | ⟨rfl, _⟩ | ⟨_, _, rfl, _⟩
    · exact List.suffix_refl _
    · exact List.suffix_refl _
    · exact After.cons.flat

/-! ## Both separators -/

/-- A separator of the given kind is somewhere in the tokens. -/
def SepIn (c : Bool) (ts : Toks) : Prop := ∃ t ∈ flat ts, IsSep c t

theorem SepIn.mono {c : Bool} {r ts : Toks} (h : SepIn c r) (hs : flat r <:+ flat ts) : SepIn c ts := by
  obtain ⟨t, ht, h⟩ := h
  exact ⟨t, hs.subset ht, h⟩

theorem item_sepIn {ts : Toks} {i : PItem} {c : Bool} {t : Tok} {r : Toks} (h : ReadsItem known Y ts i (t :: r)) (hs : IsSep c t) : SepIn c ts :=
  SepIn.mono ⟨t, isSep_flat hs r, hs⟩ (readsItem_after h).flat

theorem itemsFault_mixed {b : Option Bool} {ts : Toks} {w : Why} {r : Toks} (h : ItemsFault known Y b ts w r) (hw : w = .mixed) :
    (∃ c, (b = none ∧ SepIn c ts ∧ SepIn (!c) ts) ∨ (b = some c ∧ SepIn (!c) ts)) := by
  induction h with
  | here h => subst hw; cases h
  | @mixed ts i b c t r h hs hc =>
    refine ⟨b, .inr ⟨rfl, ?_⟩⟩
    have : (!b) = c := by cases b <;> cases c <;> simp_all
    rw [this]
    exact item_sepIn h hs
  | @later b ts i c t mid n r' w r h hs hb hm hn hr ih =>
    obtain ⟨c', ⟨h', _⟩ | ⟨h', h2⟩⟩ := ih hw
    · cases h'
    · cases h'
      have h3 := h2.mono ((readsItem_after h).trans .cons).flat
      rcases hb with rfl | rfl
      · exact ⟨c, .inl ⟨rfl, item_sepIn h hs, h3⟩⟩
      · exact ⟨c, .inr ⟨rfl, h3⟩⟩

theorem items_sepIn {ts : Toks} {is : List PItem} {bs : List Bool} {r : Toks} (h : ReadsItems known Y ts is bs r) : ∀ c ∈ bs, SepIn c ts := by
  induction h with
  | last => simp
  | lastSep h hs _ =>
    simp only [List.mem_singleton, forall_eq]
    exact item_sepIn h hs
  | cons h hs _ _ _ ih =>
    simp only [List.mem_cons, forall_eq_or_imp]
    exact ⟨item_sepIn h hs, fun c hc => (ih c hc).mono ((readsItem_after h).trans .cons).flat⟩

theorem headerFault_mixed {ts : Toks} {r : Toks} (h : HeaderFault known Y ts .mixed r) : SepIn true ts ∧ SepIn false ts := by
  cases h with
  | loops h =>
    exfalso
    generalize hw : Why.mixed = w at h
    induction h with
    | here h =>
      subst hw
      cases h with
      | alias h => cases h
    | later _ _ ih => exact ih hw
  | items hl _ _ h =>
    obtain ⟨c, ⟨_, h1, h2⟩ | ⟨h, _⟩⟩ := itemsFault_mixed h rfl
    · have h1 := h1.mono (readsOptLoops_flat hl)
      have h2 := h2.mono (readsOptLoops_flat hl)
      cases c
      · exact ⟨h2, h1⟩
      · exact ⟨h1, h2⟩
    · cases h

theorem header_sepIn {ts : Toks} {ls : Option PLoops} {s : PSpec} {r : Toks} (h : ReadsHeader known Y ts (ls, some s) r) {c : Bool}
    (hc : s.comma = some c) : SepIn c ts := by
  cases h with
  | mk hl hs =>
    rcases hs with ⟨h, _⟩ | ⟨s', h, _, hs⟩
    · cases h
    · cases h
      cases hs with
      | mk id h hb =>
        exact (items_sepIn h c (List.mem_of_mem_head? hc)).mono (readsOptLoops_flat hl)

theorem inputFault_mixed {ts : Toks} {r : Toks} (h : InputFault known Y ts .mixed r) : SepIn true ts ∧ SepIn false ts := by
  cases h with
  | header h => exact headerFault_mixed h
  | @mixed mid ls s b block c t r hh hb hp ht hc =>
    obtain ⟨c', hc'⟩ := readsHeader_comma Y known (by rintro rfl; cases hb) hh
    have h1 := header_sepIn hh hc'
    have h2 : SepIn c ts := SepIn.mono ⟨t, isSep_flat ht r, ht⟩ (hb.after_rest.flat.trans (readsHeader_flat hh))
    rw [hc'] at hc
    cases c <;> cases c' <;> simp_all

theorem attrFault_mixed {ts : Toks} {r : Toks} (h : AttrFault known Y ts .mixed r) : SepIn true ts ∧ SepIn false ts := by
  cases h with
  | header h => exact headerFault_mixed h

/-! ## Messages nobody sees -/

/-- What a syntax error can say. -/
def Said (w : Why) : Prop := w ≠ .kwFor ∧ w ≠ .value ∧ w ≠ .loopValue ∧ w ≠ .expectedSep ∧ w ≠ .noLoops

theorem itemsFault_said {b : Option Bool} {ts : Toks} {w : Why} {r : Toks} (h : ItemsFault known Y b ts w r) : Said w := by
  induction h with
  | here h => cases h <;> simp [Said]
  | mixed => simp [Said]
  | later _ _ _ _ _ _ ih => exact ih

theorem headerFault_said {ts : Toks} {w : Why} {r : Toks} (h : HeaderFault known Y ts w r) : Said w := by
  cases h with
  | loops h =>
    induction h with
    | here h =>
      cases h with
      | alias h => cases h <;> simp [Said]
      | _ => simp [Said]
    | later _ _ ih => exact ih
  | items _ _ _ h => exact itemsFault_said h

theorem inputFault_said {ts : Toks} {w : Why} {r : Toks} (h : InputFault known Y ts w r) : Said w := by
  cases h with
  | header h => exact headerFault_said h
  | _ => simp [Said]

theorem attrFault_said {ts : Toks} {w : Why} {r : Toks} (h : AttrFault known Y ts w r) : Said w := by
  cases h with
  | header h => exact headerFault_said h
  | _ => simp [Said]

end

end Verif
