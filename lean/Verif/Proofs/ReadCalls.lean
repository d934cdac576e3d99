import Verif.Proofs.Seed
/-! # Where the expressions of a parsed input come from -/

namespace Verif
open Spec

theorem commaList_mem {α : Type} {R : Toks → α → Toks → Prop} {ts : Toks} {as : List α} (h : CommaList R ts as) :
    ∀ a ∈ as, ∃ ts r, R ts a r := by
  induction h with
  | nil => simp
  | last _ h => intro a ha; simp only [List.mem_singleton] at ha; subst ha; exact ⟨_, _, h⟩
  | cons _ h _ ih =>
    intro a ha
    rcases List.mem_cons.1 ha with rfl | ha
    · exact ⟨_, _, h⟩
    · exact ih a ha

section
variable {α β : Type} {R : Toks → α → Toks → Prop} (f : α → β)

mutual
theorem readsTup_mem (t : PTup α) {ts rest : Toks} (h : ReadsTup R ts t rest) : ∀ x ∈ inOrder (t.conv f), ∃ a ts r, R ts a r ∧ x = f a := by
  match t with
  | .val id a =>
    cases h with
    | val _ _ h => intro x hx; simp only [PTup.conv, inOrder, List.mem_singleton] at hx; exact ⟨a, _, _, h, hx⟩
  | .tup id tid as =>
    cases h with
    | tup _ _ _ h =>
      simp only [PTup.conv, inOrder]
      exact readsTups_mem as fun t ht => commaList_mem h t ht
theorem readsTups_mem (as : List (PTup α)) (h : ∀ t ∈ as, ∃ ts r, ReadsTup R ts t r) :
    ∀ x ∈ inOrderL (PTup.convL f as), ∃ a ts r, R ts a r ∧ x = f a := by
  match as with
  | [] => simp [PTup.convL, inOrderL]
  | t :: as =>
    intro x hx
    simp only [PTup.convL, inOrderL, List.mem_append] at hx
    rcases hx with hx | hx
    · obtain ⟨ts, r, ht⟩ := h t List.mem_cons_self
      exact readsTup_mem t ht x hx
    · exact readsTups_mem as (fun t ht => h t (List.mem_cons_of_mem _ ht)) x hx
end

theorem readsElem_mem {e : PLoopElem α} {ts rest : Toks} (h : ReadsElem R ts e rest) :
    ∀ x ∈ exprsOfValue (e.value f), ∃ a ts r, R ts a r ∧ x = f a := by
  cases h with
  | tuple id _ h => exact readsTups_mem f _ fun t ht => commaList_mem h t ht
  | simple _ h => intro x hx; simp only [PLoopElem.value, exprsOfValue, List.mem_singleton] at hx; exact ⟨_, _, _, h, hx⟩
end

theorem readsLoops_mem {known : Str → Bool} {Y : Syn} {ts rest : Toks} {ls : List PLoop} (h : ReadsLoops known Y ts ls rest) :
    ∀ l ∈ ls, ∃ ts r, ReadsLoop known Y ts l r := by
  induction h with
  | nil => simp
  | cons h _ ih =>
    intro l hl
    rcases List.mem_cons.1 hl with rfl | hl
    · exact ⟨_, _, h⟩
    · exact ih l hl

theorem readsItems_mem {known : Str → Bool} {Y : Syn} {ts rest : Toks} {is : List PItem} {bs : List Bool} (h : ReadsItems known Y ts is bs rest) :
    ∀ i ∈ is, ∃ ts r, ReadsItem known Y ts i r := by
  induction h with
  | last h => intro i hi; simp only [List.mem_singleton] at hi; subst hi; exact ⟨_, _, h⟩
  | lastSep h => intro i hi; simp only [List.mem_singleton] at hi; subst hi; exact ⟨_, _, h⟩
  | cons h _ _ _ _ ih =>
    intro i hi
    rcases List.mem_cons.1 hi with rfl | hi
    · exact ⟨_, _, h⟩
    · exact ih i hi

/-- Every expression of an input has been read from some tokens. -/
theorem readsHeader_exprs {known : Str → Bool} {Y : Syn} {ts rest : Toks} {a : PAst} (h : ReadsHeader known Y ts (a.loops, a.spec) rest)
    {ε : Type} (g : Expr → ε) {α : Type} (f : Alias → α) : ∀ x ∈ exprsIn (a.conv f g), ∃ e ts r, ReadsExpr known Y ts e r ∧ x = g e := by
  intro x hx
  obtain ⟨id, ls, s, block⟩ := a
  cases h with
  | mk hl hs =>
    simp only at hl hs
    simp only [exprsIn, PAst.conv, List.mem_append] at hx
    rcases hx with hx | hx
    · rcases hl with ⟨rfl, -, -⟩ | ⟨id, l, rfl, -, hl⟩
      · simp at hx
      · simp only [Option.map_some, Option.getD_some, List.mem_flatMap, List.mem_map] at hx
        obtain ⟨_, ⟨l', hl', rfl⟩, v, hv, hx⟩ := hx
        simp only [List.mem_map] at hv
        obtain ⟨e, he, rfl⟩ := hv
        obtain ⟨_, _, hr⟩ := readsLoops_mem hl l' hl'
        cases hr with
        | mk _ _ _ _ hv =>
          obtain ⟨_, _, hr⟩ := commaList_mem hv e he
          exact readsElem_mem g hr x hx
    · rcases hs with ⟨rfl, -, -⟩ | ⟨s', rfl, -, hs⟩
      · simp at hx
      · cases hs with
        | mk id h hb =>
          simp only [Option.map_some, Option.toList_some, List.flatMap_cons, List.flatMap_nil, List.append_nil, List.mem_map,
            List.map_map] at hx
          obtain ⟨i, hi, rfl⟩ := hx
          obtain ⟨_, _, hr⟩ := readsItems_mem h i hi
          cases hr with
          | mk _ _ _ _ _ h _ => exact ⟨_, _, _, h, rfl⟩

theorem reads_exprs {W : World} {inv : Invocation} {a : PAst} (h : Reads W inv a) {ε : Type} (g : Expr → ε) {α : Type} (f : Alias → α) :
    ∀ x ∈ exprsIn (a.conv f g), ∃ e ts r, ReadsExpr isBuiltin W.Y ts e r ∧ x = g e := by
  have key : ∀ {ts}, ReadsInput isBuiltin W.Y ts a → ∀ x ∈ exprsIn (a.conv f g), ∃ e ts r, ReadsExpr isBuiltin W.Y ts e r ∧ x = g e := by
    intro ts h
    obtain ⟨id, ls, s, b⟩ := a
    cases h with
    | mk _ h _ _ _ => exact readsHeader_exprs (a := ⟨id, ls, s, b⟩) h g f
  cases inv with
  | compose ts => exact key h
  | composeIdents ts => exact key h
  | composeItem attr item =>
    have h := h.1
    obtain ⟨id, ls, s, b⟩ := a
    cases h with
    | mk _ h _ => exact readsHeader_exprs (a := ⟨id, ls, s, b⟩) h g f

mutual
theorem readsExpr_calls {known : Str → Bool} {Y : Syn} {e : Expr} {ts rest : Toks} (h : ReadsExpr known Y ts e rest) : ∀ n ∈ calls e, known n = true := by
  match e with
  | .value id v => simp [calls]
  | .call id n args raw =>
    intro m hm
    simp only [calls, List.mem_cons] at hm
    cases h with
    | call _ rid h ha =>
      rcases hm with rfl | hm
      · cases h; assumption
      · exact readsPieces_calls ha m hm
    | dropped _ rid h _ _ =>
      rcases hm with rfl | hm
      · cases h; assumption
      · cases hm
theorem readsPieces_calls {known : Str → Bool} {Y : Syn} {es : List Expr} {ps : List Toks} (h : ReadsPieces known Y ps es) :
    ∀ n ∈ callsL es, known n = true := by
  match es with
  | [] => simp [callsL]
  | e :: es =>
    cases h with
    | cons h hs =>
      intro n hn
      simp only [callsL, List.mem_append] at hn
      rcases hn with hn | hn
      · exact readsExpr_calls h n hn
      · exact readsPieces_calls hs n hn
end

mutual
theorem calls_erase (e : Expr) : calls e.erase = calls e := by
  match e with
  | .value _ _ => rfl
  | .call _ n args raw => simp only [Expr.erase, calls, callsL_erase args]
theorem callsL_erase (es : List Expr) : callsL (Expr.eraseL es) = callsL es := by
  match es with
  | [] => rfl
  | e :: es => simp only [Expr.eraseL, callsL, calls_erase e, callsL_erase es]
end

/-- Only functions are called. -/
theorem reads_calls {W : World} {inv : Invocation} {a : PAst} (h : Reads W inv a) : ∀ e ∈ exprsIn (tree a), ∀ n ∈ calls e, isBuiltin n = true := by
  intro x hx n hn
  obtain ⟨e, ts, r, hr, rfl⟩ := reads_exprs h _ _ x hx
  rw [calls_erase] at hn
  exact readsExpr_calls hr n hn

end Verif
