import Verif.Proofs.Walker
import Verif.Proofs.FormatString
import Verif.Model.Subst
import Verif.Spec.Subst
/-! # The walker run by the substitution visitor is the structural map -/

namespace Verif
open Ctx

variable (E : Ext) (valid : Toks → Bool) (subs : Subs)

/-- Replacement of a leaf, if any. -/
def leafRepl : Tok → Option Toks
  | .ident n => (subs.get n).map (·.toTokens)
  | .lit (.str _ v) => some [.lit (.str (E.strRepr (fmtStr E subs v)) (fmtStr E subs v))]
  | _ => none

/-- Visitor state after a replacement. -/
def leafState (s : SubstState) : Tok → SubstState
  | .ident n => (subs.get n).elim s (fun v => some (n, E.render v.toTokens))
  | _ => s

/-- Failure of the validity check. -/
def failRes {α} : SubstState → Res α
  | some (n, r) => .err (.substitution n r)
  | none => .panic

/-- Big-step form of one loop iteration on a leaf. -/
def goLeaf (plug : Toks → Toks) (pre : Toks) (rest : Toks) (s : SubstState) (t : Tok) : Res (Toks × SubstState) :=
  match leafRepl E subs t with
  | none => .ok ([t], s)
  | some new =>
    let s' := leafState E subs s t
    if valid (plug (pre ++ new ++ rest)) then .ok (new, s') else failRes s'

mutual
/-- Big-step form of the loop: process the rest `ts` of a group whose tokens so far are `pre`; `plug` rebuilds the whole
stream from the contents of this group. -/
def goTok (plug : Toks → Toks) (pre : Toks) (rest : Toks) (s : SubstState) : Tok → Res (Toks × SubstState)
  | .group d us => (goList (fun x => plug (pre ++ .group d x :: rest)) [] s us).map (fun p => ([.group d p.1], p.2))
  | .ident n => goLeaf E valid subs plug pre rest s (.ident n)
  | .punct c j => goLeaf E valid subs plug pre rest s (.punct c j)
  | .lit l => goLeaf E valid subs plug pre rest s (.lit l)
def goList (plug : Toks → Toks) (pre : Toks) (s : SubstState) : Toks → Res (Toks × SubstState)
  | [] => .ok ([], s)
  | t :: ts => (goTok plug pre ts s t).bind (fun p => (goList plug (pre ++ p.1) p.2 ts).map (fun q => (p.1 ++ q.1, q.2)))
end

/-- What the loop does with the result of a big step. -/
def contWalk (v : Visitor SubstState) (n : Nat) (r : Res (Toks × SubstState)) (k : Toks → Ctx) : Option (Res Toks) :=
  match r with
  | .ok (new, s) => walkN v n s (k new)
  | .err e => some (.err e)
  | .panic => some .panic

theorem walkN_succ {σ} (v : Visitor σ) (n : Nat) (s : σ) (c : Ctx) : walkN v (1 + n) s c =
    match walkStep v s c with
    | .ok (.done ts) => some (.ok ts)
    | .ok (.next s c) => walkN v n s c
    | .err e => some (.err e)
    | .panic => some .panic := by
  rw [Nat.add_comm]; rfl

theorem get_mid (pre : Toks) (t : Tok) (rest : Toks) : (pre ++ t :: rest)[pre.length]? = some t := by simp

variable {E valid subs}

theorem afterReplace_eq {plug : Toks → Toks} {P : Ctx} (hP : ∀ x, foldFrames x P = .ok (plug x)) (s : SubstState) (i : Nat)
    (ts : Toks) : (substVisitor E valid subs).afterReplace s (⟨i, ts⟩ :: P) =
      if valid (plug ts) then .ok s else failRes s := by
  simp only [substVisitor, currentStream, hP, Res.bind_eq, Res.bind_ok, failRes]
  split
  · rfl
  · cases s <;> rfl

theorem visitLeaf_eq (s : SubstState) (c : Ctx) (t : Tok) (ht : ∀ d us, t ≠ .group d us) :
    (substVisitor E valid subs).visitLeaf s c t =
    match leafRepl E subs t with
    | none => .ok (s, .cont)
    | some new => .ok (leafState E subs s t, .replace new) := by
  cases t with
  | ident n =>
    simp only [Visitor.visitLeaf, substVisitor, leafRepl, leafState]
    cases subs.get n <;> rfl
  | punct => rfl
  | lit l => cases l <;> rfl
  | group d us => exact absurd rfl (ht d us)

theorem walkStep_leaf {plug : Toks → Toks} {P : Ctx} (hP : ∀ x, foldFrames x P = .ok (plug x)) (pre rest : Toks)
    (s : SubstState) (t : Tok) (ht : ∀ d us, t ≠ .group d us) :
    walkStep (substVisitor E valid subs) s (⟨pre.length, pre ++ t :: rest⟩ :: P) =
      (goLeaf E valid subs plug pre rest s t).map
        (fun p => .next p.2 (⟨(pre ++ p.1).length, pre ++ p.1 ++ rest⟩ :: P)) := by
  unfold walkStep
  have hlen : ¬ (pre ++ t :: rest).length ≤ pre.length := by simp
  simp only [hlen, if_false]
  split
  · rename_i h; rw [get_mid] at h; simp at h
  · rename_i d us h; rw [get_mid] at h; simp at h; exact absurd h (ht d us)
  · rename_i t' ht' h
    rw [get_mid, Option.some.injEq] at h
    subst h
    rw [visitLeaf_eq _ _ _ ht]
    unfold goLeaf
    cases hr : leafRepl E subs t with
    | none =>
      simp only [Res.bind_eq, Res.bind_ok, Res.map, advance]
      have hm : min (pre ++ t :: rest).length (pre.length + 1) = (pre ++ [t]).length := by
        simp only [List.length_append, List.length_cons, List.length_nil]; omega
      rw [hm]; simp
    | some new =>
      have := replace_rest (ts := pre ++ t :: rest) (new := new) (i := pre.length) (get_mid _ _ _) P
      simp only [Res.bind_eq, Res.bind_ok, this]
      have e1 : (pre ++ t :: rest).take pre.length = pre := by simp
      have e2 : (pre ++ t :: rest).drop (pre.length + 1) = rest := by simp
      rw [e1, e2, afterReplace_eq hP]
      split
      · simp [Res.map]
      · unfold failRes; split <;> rfl

theorem walkN_leaf {plug : Toks → Toks} {P : Ctx} (hP : ∀ x, foldFrames x P = .ok (plug x)) (pre rest : Toks)
    (s : SubstState) (t : Tok) (ht : ∀ d us, t ≠ .group d us) (n : Nat) :
    walkN (substVisitor E valid subs) (1 + n) s (⟨pre.length, pre ++ t :: rest⟩ :: P) =
      contWalk (substVisitor E valid subs) n (goLeaf E valid subs plug pre rest s t)
        (fun new => ⟨(pre ++ new).length, pre ++ new ++ rest⟩ :: P) := by
  rw [walkN_succ, walkStep_leaf hP _ _ _ _ ht]
  cases goLeaf E valid subs plug pre rest s t <;> rfl

theorem walkStep_enter (P : Ctx) (pre rest : Toks) (s : SubstState) (d : Delim) (us : Toks) :
    walkStep (substVisitor E valid subs) s (⟨pre.length, pre ++ .group d us :: rest⟩ :: P) =
      .ok (.next s (⟨0, us⟩ :: ⟨pre.length, pre ++ .group d us :: rest⟩ :: P)) := by
  unfold walkStep
  have hlen : ¬ (pre ++ Tok.group d us :: rest).length ≤ pre.length := by simp
  simp only [hlen, if_false, get_mid]
  rfl

theorem walkStep_exit (P : Ctx) (pre rest : Toks) (s : SubstState) (d : Delim) (us vs : Toks) :
    walkStep (substVisitor E valid subs) s (⟨vs.length, vs⟩ :: ⟨pre.length, pre ++ .group d us :: rest⟩ :: P) =
      .ok (.next s (⟨(pre ++ [Tok.group d vs]).length, pre ++ [Tok.group d vs] ++ rest⟩ :: P)) := by
  unfold walkStep
  simp only [Nat.le_refl, if_true]
  have : foldGroup vs (pre ++ Tok.group d us :: rest) pre.length = .ok (pre ++ Tok.group d vs :: rest) := by
    rw [foldGroup_ok (get_mid _ _ _)]
    simp
  have he : (substVisitor E valid subs).exitGroup s (⟨vs.length, vs⟩ :: ⟨pre.length, pre ++ .group d us :: rest⟩ :: P) vs =
    .ok (s, .cont) := rfl
  simp only [he, popFold, this, Res.bind_eq, Res.bind_ok, advance]
  simp

mutual
theorem walkN_tok (t : Tok) (plug : Toks → Toks) (pre rest : Toks) (s : SubstState) (P : Ctx) (n : Nat)
    (hP : ∀ x, foldFrames x P = .ok (plug x)) :
    walkN (substVisitor E valid subs) (t.weight + n) s (⟨pre.length, pre ++ t :: rest⟩ :: P) =
      contWalk (substVisitor E valid subs) n (goTok E valid subs plug pre rest s t)
        (fun new => ⟨(pre ++ new).length, pre ++ new ++ rest⟩ :: P) := by
  match t with
  | .ident m => exact walkN_leaf hP pre rest s _ (by simp) n
  | .punct c j => exact walkN_leaf hP pre rest s _ (by simp) n
  | .lit l => exact walkN_leaf hP pre rest s _ (by simp) n
  | .group d us =>
    have h1 : (Tok.group d us).weight + n = 1 + (Tok.weightL us + (1 + n)) := by simp [Tok.weight]; omega
    rw [h1, walkN_succ, walkStep_enter]
    simp only
    have := walkN_list us (fun x => plug (pre ++ .group d x :: rest)) [] s
      (⟨pre.length, pre ++ .group d us :: rest⟩ :: P) (1 + n) (by
        intro x
        simp only [foldFrames, foldGroup_ok (get_mid _ _ _), Res.bind_eq, Res.bind_ok]
        rw [← hP]; simp)
    simp only [List.nil_append, List.length_nil] at this
    rw [this]
    simp only [goTok]
    cases goList E valid subs (fun x => plug (pre ++ .group d x :: rest)) [] s us with
    | ok p =>
      obtain ⟨vs, s'⟩ := p
      simp only [contWalk, Res.map]
      rw [walkN_succ, walkStep_exit]
    | err e => rfl
    | panic => rfl
theorem walkN_list (ts : Toks) (plug : Toks → Toks) (pre : Toks) (s : SubstState) (P : Ctx) (n : Nat)
    (hP : ∀ x, foldFrames x P = .ok (plug x)) :
    walkN (substVisitor E valid subs) (Tok.weightL ts + n) s (⟨pre.length, pre ++ ts⟩ :: P) =
      contWalk (substVisitor E valid subs) n (goList E valid subs plug pre s ts)
        (fun new => ⟨(pre ++ new).length, pre ++ new⟩ :: P) := by
  match ts with
  | [] => simp [Tok.weightL, goList, contWalk]
  | t :: ts =>
    simp only [Tok.weightL, Nat.add_assoc]
    rw [walkN_tok t plug pre ts s P _ hP]
    simp only [goList]
    cases goTok E valid subs plug pre ts s t with
    | ok p =>
      obtain ⟨new, s'⟩ := p
      simp only [contWalk, Res.bind_ok]
      rw [walkN_list ts plug (pre ++ new) s' P n hP]
      cases goList E valid subs plug (pre ++ new) s' ts <;> simp [contWalk, Res.map]
    | err e => rfl
    | panic => rfl
end

theorem walk_eq (ts : Toks) :
    walk (substVisitor E valid subs) none ts = (goList E valid subs id [] none ts).map (·.1) := by
  unfold walk
  have := walkN_list (E := E) (valid := valid) (subs := subs) ts id [] none [] 1 (by intro x; rfl)
  simp only [List.nil_append, List.length_nil] at this
  rw [this]
  cases goList E valid subs id [] none ts with
  | ok p =>
    simp only [contWalk, walkN, walkStep, Nat.le_refl, if_true, Res.map]
    rfl
  | err e => rfl
  | panic => rfl

/-! ## The big-step form and the specification -/

/-- Alias lookup as seen by the specification. -/
def lookToks (subs : Subs) (n : Str) : Option Toks := (subs.get n).map (·.toTokens)

/-- The literal replacing a string literal. -/
def strLit (E : Ext) (subs : Subs) (v : Str) : Lit := .str (E.strRepr (fmtStr E subs v)) (fmtStr E subs v)

open Spec

/-- Visitor state after the given occurrences. -/
def stateAfter (E : Ext) (subs : Subs) (s : SubstState) (occ : List Tok) : SubstState := occ.foldl (leafState E subs) s

/-- `r` is what checking the streams `f 1, …, f n` in turn leads to. -/
def Checked {α} (valid : Toks → Bool) (f : Nat → Toks) (st : Nat → SubstState) (n : Nat) (a : α)
    (r : Res (α × SubstState)) : Prop :=
  ((∀ k, 1 ≤ k → k ≤ n → valid (f k) = true) ∧ r = .ok (a, st n)) ∨
  (∃ k, 1 ≤ k ∧ k ≤ n ∧ valid (f k) = false ∧ (∀ j, 1 ≤ j → j < k → valid (f j) = true) ∧ r = failRes (st k))

theorem failRes_map {α β} (s : SubstState) (f : α → β) : (failRes s).map f = failRes s := by
  unfold failRes; split <;> rfl

theorem failRes_bind {α β} (s : SubstState) (f : α → Res β) : (failRes s).bind f = failRes s := by
  unfold failRes; split <;> rfl

mutual
theorem substFirstTok_zero (look : Str → Option Toks) (str : Str → Lit) (t : Tok) : substFirstTok look str 0 t = [t] := by
  match t with
  | .ident n => simp [substFirstTok]
  | .punct c j => simp [substFirstTok]
  | .lit (.str r v) => simp [substFirstTok]
  | .lit (.int r v) => simp [substFirstTok]
  | .lit (.other r) => simp [substFirstTok]
  | .group d ts => simp [substFirstTok, substFirst_zero look str ts]
theorem substFirst_zero (look : Str → Option Toks) (str : Str → Lit) (ts : Toks) : substFirst look str 0 ts = ts := by
  match ts with
  | [] => simp [substFirst]
  | t :: ts => simp [substFirst, substFirstTok_zero look str t, substFirst_zero look str ts]
end

mutual
theorem substFirstTok_all (look : Str → Option Toks) (str : Str → Lit) (t : Tok) (k : Nat) (h : (occTok look t).length ≤ k) :
    substFirstTok look str k t = substTok look str t := by
  match t with
  | .ident n =>
    simp only [substFirstTok, substTok]
    split
    · rename_i hk
      simp only [occTok] at h
      cases hl : look n with
      | none => rfl
      | some v => simp [hl] at h; omega
    · rfl
  | .punct c j => simp [substFirstTok, substTok]
  | .lit (.str r v) =>
    simp [occTok] at h
    simp only [substFirstTok, substTok]
    split
    · omega
    · rfl
  | .lit (.int r v) => simp [substFirstTok, substTok]
  | .lit (.other r) => simp [substFirstTok, substTok]
  | .group d ts => simp only [substFirstTok, substTok, substFirst_all look str ts k (by simpa [occTok] using h)]
theorem substFirst_all (look : Str → Option Toks) (str : Str → Lit) (ts : Toks) (k : Nat) (h : (occAll look ts).length ≤ k) :
    substFirst look str k ts = substAll look str ts := by
  match ts with
  | [] => simp [substFirst, substAll]
  | t :: ts =>
    simp only [occAll, List.length_append] at h
    simp only [substFirst, substAll, substFirstTok_all look str t k (by omega), substFirst_all look str ts (k - (occTok look t).length) (by omega)]
end

theorem goLeaf_checked (plug : Toks → Toks) (pre rest : Toks) (s : SubstState) (t : Tok) (ht : ∀ d us, t ≠ .group d us) :
    Checked valid (fun k => plug (pre ++ substFirstTok (lookToks subs) (strLit E subs) k t ++ rest))
      (fun k => stateAfter E subs s ((occTok (lookToks subs) t).take k)) (occTok (lookToks subs) t).length
      (substTok (lookToks subs) (strLit E subs) t) (goLeaf E valid subs plug pre rest s t) := by
  have one : ∀ new, leafRepl E subs t = some new → occTok (lookToks subs) t = [t] →
      substTok (lookToks subs) (strLit E subs) t = new → Checked valid (fun k => plug (pre ++ substFirstTok (lookToks subs) (strLit E subs) k t ++ rest))
      (fun k => stateAfter E subs s ((occTok (lookToks subs) t).take k)) (occTok (lookToks subs) t).length
      (substTok (lookToks subs) (strLit E subs) t) (goLeaf E valid subs plug pre rest s t) := by
    intro new h1 h2 h3
    have h4 : substFirstTok (lookToks subs) (strLit E subs) 1 t = new := by
      rw [substFirstTok_all _ _ _ _ (by simp [h2]), h3]
    unfold goLeaf
    simp only [h1]
    by_cases hv : valid (plug (pre ++ new ++ rest)) = true
    · refine .inl ⟨?_, ?_⟩
      · intro k hk1 hk2
        rw [h2] at hk2
        have : k = 1 := by simp at hk2; omega
        subst this
        simp only [h4, hv]
      · rw [if_pos hv]; simp [h2, h3, stateAfter]
    · refine .inr ⟨1, Nat.le_refl _, by simp [h2], ?_, ?_, ?_⟩
      · simpa [h4] using hv
      · intro j h5 h6; omega
      · rw [if_neg hv]; simp [h2, stateAfter]
  have zero : leafRepl E subs t = none → occTok (lookToks subs) t = [] →
      substTok (lookToks subs) (strLit E subs) t = [t] → Checked valid (fun k => plug (pre ++ substFirstTok (lookToks subs) (strLit E subs) k t ++ rest))
      (fun k => stateAfter E subs s ((occTok (lookToks subs) t).take k)) (occTok (lookToks subs) t).length
      (substTok (lookToks subs) (strLit E subs) t) (goLeaf E valid subs plug pre rest s t) := by
    intro h1 h2 h3
    refine .inl ⟨?_, ?_⟩
    · intro k hk1 hk2; rw [h2] at hk2; simp at hk2; omega
    · simp [goLeaf, h1, h2, h3, stateAfter]
  match t with
  | .ident n =>
    cases hg : subs.get n with
    | none => exact zero (by simp [leafRepl, hg]) (by simp [occTok, lookToks, hg]) (by simp [substTok, lookToks, hg])
    | some v =>
      exact one v.toTokens (by simp [leafRepl, hg]) (by simp [occTok, lookToks, hg]) (by simp [substTok, lookToks, hg])
  | .punct c j => exact zero rfl rfl rfl
  | .lit (.str r v) => exact one _ rfl rfl rfl
  | .lit (.int r v) => exact zero rfl rfl rfl
  | .lit (.other r) => exact zero rfl rfl rfl
  | .group d us => exact absurd rfl (ht d us)

mutual
theorem goTok_checked (t : Tok) (plug : Toks → Toks) (pre rest : Toks) (s : SubstState) :
    Checked valid (fun k => plug (pre ++ substFirstTok (lookToks subs) (strLit E subs) k t ++ rest))
      (fun k => stateAfter E subs s ((occTok (lookToks subs) t).take k)) (occTok (lookToks subs) t).length
      (substTok (lookToks subs) (strLit E subs) t) (goTok E valid subs plug pre rest s t) := by
  match t with
  | .ident n => exact goLeaf_checked plug pre rest s _ (by simp)
  | .punct c j => exact goLeaf_checked plug pre rest s _ (by simp)
  | .lit l => exact goLeaf_checked plug pre rest s _ (by simp)
  | .group d us =>
    simp only [goTok, occTok, substTok, substFirstTok]
    rcases goList_checked us (fun x => plug (pre ++ .group d x :: rest)) [] s with ⟨h1, h2⟩ | ⟨k, h1, h2, h3, h4, h5⟩
    · refine .inl ⟨?_, ?_⟩
      · intro k hk1 hk2
        have := h1 k hk1 hk2
        simpa using this
      · simp [h2, Res.map]
    · refine .inr ⟨k, h1, h2, ?_, ?_, ?_⟩
      · simpa using h3
      · intro j hj1 hj2; simpa using h4 j hj1 hj2
      · rw [h5, failRes_map]
theorem goList_checked (ts : Toks) (plug : Toks → Toks) (pre : Toks) (s : SubstState) :
    Checked valid (fun k => plug (pre ++ substFirst (lookToks subs) (strLit E subs) k ts))
      (fun k => stateAfter E subs s ((occAll (lookToks subs) ts).take k)) (occAll (lookToks subs) ts).length
      (substAll (lookToks subs) (strLit E subs) ts) (goList E valid subs plug pre s ts) := by
  match ts with
  | [] => exact .inl ⟨by intro k h1 h2; simp [occAll] at h2; omega, by simp [goList, occAll, stateAfter, substAll]⟩
  | t :: ts =>
    have hst : ∀ k, k ≤ (occTok (lookToks subs) t).length →
        stateAfter E subs s ((occAll (lookToks subs) (t :: ts)).take k) = stateAfter E subs s ((occTok (lookToks subs) t).take k) := by
      intro k hk
      simp only [occAll]
      rw [List.take_append_of_le_length hk]
    have hst2 : ∀ k, stateAfter E subs s ((occAll (lookToks subs) (t :: ts)).take ((occTok (lookToks subs) t).length + k)) =
        stateAfter E subs (stateAfter E subs s (occTok (lookToks subs) t)) ((occAll (lookToks subs) ts).take k) := by
      intro k
      simp only [occAll, List.take_length_add_append, stateAfter, List.foldl_append]
    have hf1 : ∀ k, k ≤ (occTok (lookToks subs) t).length → substFirst (lookToks subs) (strLit E subs) k (t :: ts) =
        substFirstTok (lookToks subs) (strLit E subs) k t ++ ts := by
      intro k hk
      simp only [substFirst]
      rw [show k - (occTok (lookToks subs) t).length = 0 by omega, substFirst_zero]
    have hf2 : ∀ k, substFirst (lookToks subs) (strLit E subs) ((occTok (lookToks subs) t).length + k) (t :: ts) =
        substTok (lookToks subs) (strLit E subs) t ++ substFirst (lookToks subs) (strLit E subs) k ts := by
      intro k
      simp only [substFirst]
      rw [substFirstTok_all _ _ _ _ (by omega), Nat.add_sub_cancel_left]
    have hlen : (occAll (lookToks subs) (t :: ts)).length = (occTok (lookToks subs) t).length + (occAll (lookToks subs) ts).length := by
      simp [occAll]
    simp only [goList]
    rcases goTok_checked t plug pre ts s with ⟨h1, h2⟩ | ⟨k, h1, h2, h3, h4, h5⟩
    · rw [h2, Res.bind_ok]
      simp only [List.take_length] 
      rcases goList_checked ts plug (pre ++ substTok (lookToks subs) (strLit E subs) t)
        (stateAfter E subs s (occTok (lookToks subs) t)) with ⟨g1, g2⟩ | ⟨k, g1, g2, g3, g4, g5⟩
      · refine .inl ⟨?_, ?_⟩
        · intro k hk1 hk2
          by_cases hk : k ≤ (occTok (lookToks subs) t).length
          · have := h1 k hk1 hk
            simpa only [hf1 k hk, List.append_assoc] using this
          · obtain ⟨m, rfl⟩ := Nat.le.dest (Nat.le_of_lt (Nat.lt_of_not_le hk))
            have := g1 m (by omega) (by omega)
            simpa only [hf2 m, List.append_assoc] using this
        · rw [g2]
          simp only [Res.map, substAll, List.take_length, hlen, hst2]
      · refine .inr ⟨(occTok (lookToks subs) t).length + k, by omega, by omega, ?_, ?_, ?_⟩
        · simpa only [hf2 k, List.append_assoc] using g3
        · intro j hj1 hj2
          by_cases hk : j ≤ (occTok (lookToks subs) t).length
          · have := h1 j hj1 hk
            simpa only [hf1 j hk, List.append_assoc] using this
          · obtain ⟨m, rfl⟩ := Nat.le.dest (Nat.le_of_lt (Nat.lt_of_not_le hk))
            have := g4 m (by omega) (by omega)
            simpa only [hf2 m, List.append_assoc] using this
        · simp only [g5, failRes_map, hst2]
    · rw [h5, failRes_bind]
      refine .inr ⟨k, h1, by omega, ?_, ?_, ?_⟩
      · simpa only [hf1 k h2, List.append_assoc] using h3
      · intro j hj1 hj2
        have := h4 j hj1 hj2
        simpa only [hf1 j (by omega), List.append_assoc] using this
      · simp only [hst k h2]
end

/-- The error state names the last alias. -/
theorem stateAfter_none (occ : List Tok) (hocc : ∀ t ∈ occ, ∀ n, t = .ident n → (subs.get n).isSome) :
    stateAfter E subs none occ =
      ((occ.filterMap aliasOf).getLast?).map (fun n => (n, E.render ((lookToks subs n).getD []))) := by
  suffices h : ∀ s, stateAfter E subs s occ =
      (((occ.filterMap aliasOf).getLast?).map (fun n => (n, E.render ((lookToks subs n).getD [])))).or s by
    rw [h]; simp
  induction occ with
  | nil => intro s; simp [stateAfter]
  | cons t occ ih =>
    intro s
    have ih := ih (fun u hu => hocc u (List.mem_cons_of_mem _ hu))
    have e : stateAfter E subs s (t :: occ) = stateAfter E subs (leafState E subs s t) occ := rfl
    rw [e, ih]
    cases t with
    | ident n =>
      have := hocc _ List.mem_cons_self n rfl
      obtain ⟨v, hv⟩ := Option.isSome_iff_exists.1 this
      simp only [leafState, hv, Option.elim, aliasOf, List.filterMap_cons, List.getLast?_cons]
      cases (occ.filterMap aliasOf).getLast? <;> simp [lookToks, hv]
    | punct => simp [leafState, aliasOf]
    | lit => simp [leafState, aliasOf]
    | group => simp [leafState, aliasOf]

mutual
theorem occTok_alias (look : Str → Option Toks) (t u : Tok) (h : u ∈ occTok look t) (n : Str) (e : u = .ident n) :
    (look n).isSome := by
  match t with
  | .ident m =>
    simp only [occTok] at h
    split at h
    · simp at h; subst h; cases e; assumption
    · simp at h
  | .punct c j => simp [occTok] at h
  | .lit (.str r v) => simp [occTok] at h; subst h; cases e
  | .lit (.int r v) => simp [occTok] at h
  | .lit (.other r) => simp [occTok] at h
  | .group d ts => exact occAll_alias look ts u (by simpa [occTok] using h) n e
theorem occAll_alias (look : Str → Option Toks) (ts : Toks) (u : Tok) (h : u ∈ occAll look ts) (n : Str) (e : u = .ident n) :
    (look n).isSome := by
  match ts with
  | [] => simp [occAll] at h
  | t :: ts =>
    simp only [occAll, List.mem_append] at h
    rcases h with h | h
    · exact occTok_alias look t u h n e
    · exact occAll_alias look ts u h n e
end

theorem stateAfter_lastAlias (ts : Toks) (k : Nat) :
    stateAfter E subs none ((occAll (lookToks subs) ts).take k) =
      (lastAlias (lookToks subs) ts k).map (fun n => (n, E.render ((lookToks subs n).getD []))) := by
  rw [stateAfter_none]
  · rfl
  · intro t ht n e
    have := occAll_alias _ _ _ (List.mem_of_mem_take ht) n e
    simpa [lookToks] using this

/-- Outcome of a failing replacement, in terms of the last alias. -/
def blame (E : Ext) (look : Str → Option Toks) : Option Str → Res Toks
  | some n => .err (.substitution n (E.render ((look n).getD [])))
  | none => .panic

/-- Complete description of `substituteIdents` on a valid node. -/
theorem substituteIdents_spec (node : Toks) (hnode : valid node = true) :
    ((∀ k, 1 ≤ k → k ≤ (occAll (lookToks subs) node).length →
        valid (substFirst (lookToks subs) (strLit E subs) k node) = true) ∧
      substituteIdents E valid subs node = .ok (substAll (lookToks subs) (strLit E subs) node)) ∨
    (∃ k, 1 ≤ k ∧ k ≤ (occAll (lookToks subs) node).length ∧
      valid (substFirst (lookToks subs) (strLit E subs) k node) = false ∧
      (∀ j, 1 ≤ j → j < k → valid (substFirst (lookToks subs) (strLit E subs) j node) = true) ∧
      substituteIdents E valid subs node = blame E (lookToks subs) (lastAlias (lookToks subs) node k)) := by
  unfold substituteIdents
  rw [walk_eq]
  rcases goList_checked (E := E) (valid := valid) (subs := subs) node id [] none with ⟨h1, h2⟩ | ⟨k, h1, h2, h3, h4, h5⟩
  · refine .inl ⟨fun k hk1 hk2 => by simpa using h1 k hk1 hk2, ?_⟩
    rw [h2]
    have hv : valid (substAll (lookToks subs) (strLit E subs) node) = true := by
      rw [← substFirst_all _ _ node _ (Nat.le_refl _)]
      by_cases h0 : (occAll (lookToks subs) node).length = 0
      · rw [h0, substFirst_zero]; exact hnode
      · simpa using h1 _ (by omega) (Nat.le_refl _)
    simp [Res.map, hv]
  · refine .inr ⟨k, h1, h2, by simpa using h3, fun j hj1 hj2 => by simpa using h4 j hj1 hj2, ?_⟩
    simp only [h5, stateAfter_lastAlias]
    cases lastAlias (lookToks subs) node k <;> rfl

theorem substituteIdents_ok {node out : Toks} (h : substituteIdents E valid subs node = .ok out) :
    out = substAll (lookToks subs) (strLit E subs) node ∧ valid out = true := by
  unfold substituteIdents at h
  rw [walk_eq] at h
  rcases goList_checked (E := E) (valid := valid) (subs := subs) node id [] none with ⟨h1, h2⟩ | ⟨k, h1, h2, h3, h4, h5⟩
  · rw [h2] at h
    simp only [Res.map, Res.bind_eq, Res.bind_ok] at h
    split at h
    · rename_i hv; cases h; exact ⟨rfl, hv⟩
    · cases h
  · simp only [h5, Res.bind_eq, failRes] at h
    split at h <;> cases h

theorem get_eq_lookup (subs : Subs) (n : Str) : subs.get n = List.lookup n subs := by
  induction subs with
  | nil => rfl
  | cons e subs ih =>
    obtain ⟨k, v⟩ := e
    simp only [Subs.get, List.find?_cons, List.lookup_cons] at ih ⊢
    have hc : (k == n) = (n == k) := BEq.comm
    rw [hc]
    cases hk : n == k
    · simpa [Subs.get] using ih
    · rfl

/-! ## Facts about the structural map -/

mutual
theorem substTok_sameGroups (look : Str → Option Toks) (str : Str → Lit) (t : Tok) {ts us : Toks} (h : SameGroups ts us) :
    SameGroups (t :: ts) (substTok look str t ++ us) := by
  match t with
  | .ident n => exact .leaf _ _ _ _ (by simp) h
  | .punct c j => exact .leaf _ _ _ _ (by simp) h
  | .lit l => exact .leaf _ _ _ _ (by simp) h
  | .group d vs => exact .group _ _ _ _ _ (substAll_sameGroups look str vs) h
theorem substAll_sameGroups (look : Str → Option Toks) (str : Str → Lit) (ts : Toks) :
    SameGroups ts (substAll look str ts) := by
  match ts with
  | [] => exact .nil
  | t :: ts => exact substTok_sameGroups look str t (substAll_sameGroups look str ts)
end

theorem substAll_append (look : Str → Option Toks) (str : Str → Lit) (a b : Toks) :
    substAll look str (a ++ b) = substAll look str a ++ substAll look str b := by
  induction a with
  | nil => simp [substAll]
  | cons t a ih => simp [substAll, ih]

/-- The substituted surroundings of a place. -/
def substHole (look : Str → Option Toks) (str : Str → Lit) : Hole → Hole
  | .here pre post => .here (substAll look str pre) (substAll look str post)
  | .inside pre d h post => .inside (substAll look str pre) d (substHole look str h) (substAll look str post)

theorem substAll_fill (look : Str → Option Toks) (str : Str → Lit) (h : Hole) (ts : Toks) :
    substAll look str (h.fill ts) = (substHole look str h).fill (substAll look str ts) := by
  induction h with
  | here pre post => simp [Hole.fill, substHole, substAll_append]
  | inside pre d h post ih => simp [Hole.fill, substHole, substAll_append, substAll, substTok, ih]

mutual
theorem substTok_respell (look : Str → Option Toks) (str : Str → Lit) (t : Tok)
    (hl : ∀ n, (look n).isSome → ¬ mentionsTok n t) (hs : strLitsTok (fun _ v => ∃ r, str v = .str r v) t) :
    ∃ u, substTok look str t = [u] ∧ sameButSpellingTok t u := by
  match t with
  | .ident n =>
    have : look n = none := by
      cases h : look n with
      | none => rfl
      | some v => exact absurd rfl (hl n (by simp [h]))
    exact ⟨.ident n, by simp [substTok, this], rfl⟩
  | .punct c j => exact ⟨_, rfl, rfl⟩
  | .lit (.str r v) =>
    obtain ⟨r', hr⟩ := hs
    exact ⟨.lit (str v), rfl, by rw [hr]; rfl⟩
  | .lit (.int r v) => exact ⟨_, rfl, rfl⟩
  | .lit (.other r) => exact ⟨_, rfl, rfl⟩
  | .group d ts =>
    exact ⟨_, rfl, rfl, substAll_respell look str ts hl hs⟩
theorem substAll_respell (look : Str → Option Toks) (str : Str → Lit) (ts : Toks)
    (hl : ∀ n, (look n).isSome → ¬ mentions n ts) (hs : strLits (fun _ v => ∃ r, str v = .str r v) ts) :
    sameButSpelling ts (substAll look str ts) := by
  match ts with
  | [] => trivial
  | t :: ts =>
    obtain ⟨u, h1, h2⟩ := substTok_respell look str t (fun n hn hm => hl n hn (.inl hm)) hs.1
    simp only [substAll, h1]
    exact ⟨h2, substAll_respell look str ts (fun n hn hm => hl n hn (.inr hm)) hs.2⟩
end

mutual
theorem substTok_same (look : Str → Option Toks) (str : Str → Lit) (t : Tok)
    (hl : ∀ n, (look n).isSome → ¬ mentionsTok n t) (hs : strLitsTok (fun r v => str v = .str r v) t) :
    substTok look str t = [t] := by
  match t with
  | .ident n =>
    have : look n = none := by
      cases h : look n with
      | none => rfl
      | some v => exact absurd rfl (hl n (by simp [h]))
    simp [substTok, this]
  | .punct c j => rfl
  | .lit (.str r v) =>
    have hs : str v = .str r v := hs
    simp [substTok, hs]
  | .lit (.int r v) => rfl
  | .lit (.other r) => rfl
  | .group d ts => simp [substTok, substAll_same look str ts hl hs]
theorem substAll_same (look : Str → Option Toks) (str : Str → Lit) (ts : Toks)
    (hl : ∀ n, (look n).isSome → ¬ mentions n ts) (hs : strLits (fun r v => str v = .str r v) ts) :
    substAll look str ts = ts := by
  match ts with
  | [] => rfl
  | t :: ts =>
    simp only [substAll, substTok_same look str t (fun n hn hm => hl n hn (.inl hm)) hs.1,
      substAll_same look str ts (fun n hn hm => hl n hn (.inr hm)) hs.2, List.singleton_append]
end

mutual
theorem substFirstTok_same (look : Str → Option Toks) (str : Str → Lit) (t : Tok)
    (hl : ∀ n, (look n).isSome → ¬ mentionsTok n t) (hs : strLitsTok (fun r v => str v = .str r v) t) (k : Nat) :
    substFirstTok look str k t = [t] := by
  match t with
  | .ident n =>
    have : look n = none := by
      cases h : look n with
      | none => rfl
      | some v => exact absurd rfl (hl n (by simp [h]))
    simp [substFirstTok, this]
  | .punct c j => rfl
  | .lit (.str r v) =>
    have hs : str v = .str r v := hs
    simp [substFirstTok, hs]
  | .lit (.int r v) => rfl
  | .lit (.other r) => rfl
  | .group d ts => simp [substFirstTok, substFirst_same look str ts hl hs k]
theorem substFirst_same (look : Str → Option Toks) (str : Str → Lit) (ts : Toks)
    (hl : ∀ n, (look n).isSome → ¬ mentions n ts) (hs : strLits (fun r v => str v = .str r v) ts) (k : Nat) :
    substFirst look str k ts = ts := by
  match ts with
  | [] => rfl
  | t :: ts =>
    simp only [substFirst, substFirstTok_same look str t (fun n hn hm => hl n hn (.inl hm)) hs.1,
      substFirst_same look str ts (fun n hn hm => hl n hn (.inr hm)) hs.2, List.singleton_append]
end

mutual
theorem strLitsTok_imp {P Q : Str → Str → Prop} (h : ∀ r v, P r v → Q r v) (t : Tok) (hp : strLitsTok P t) : strLitsTok Q t := by
  match t with
  | .ident n => trivial
  | .punct c j => trivial
  | .lit (.str r v) => exact h _ _ hp
  | .lit (.int r v) => trivial
  | .lit (.other r) => trivial
  | .group d ts => exact strLits_imp h ts hp
theorem strLits_imp {P Q : Str → Str → Prop} (h : ∀ r v, P r v → Q r v) (ts : Toks) (hp : strLits P ts) : strLits Q ts := by
  match ts with
  | [] => trivial
  | t :: ts => exact ⟨strLitsTok_imp h t hp.1, strLits_imp h ts hp.2⟩
end

mutual
theorem occTok_of_same (look : Str → Option Toks) (t : Tok) (hl : ∀ n, (look n).isSome → ¬ mentionsTok n t) :
    (occTok look t).filterMap aliasOf = [] := by
  match t with
  | .ident n =>
    have : look n = none := by
      cases h : look n with
      | none => rfl
      | some v => exact absurd rfl (hl n (by simp [h]))
    simp [occTok, this]
  | .punct c j => rfl
  | .lit (.str r v) => rfl
  | .lit (.int r v) => rfl
  | .lit (.other r) => rfl
  | .group d ts => exact occAll_of_same look ts hl
theorem occAll_of_same (look : Str → Option Toks) (ts : Toks) (hl : ∀ n, (look n).isSome → ¬ mentions n ts) :
    (occAll look ts).filterMap aliasOf = [] := by
  match ts with
  | [] => rfl
  | t :: ts =>
    simp only [occAll, List.filterMap_append, occTok_of_same look t (fun n hn hm => hl n hn (.inl hm)),
      occAll_of_same look ts (fun n hn hm => hl n hn (.inr hm)), List.append_nil]
end

mutual
theorem weight_le_count (t : Tok) : t.weight ≤ 2 * countTok t := by
  match t with
  | .ident n => simp [Tok.weight, countTok]
  | .punct c j => simp [Tok.weight, countTok]
  | .lit l => simp [Tok.weight, countTok]
  | .group d ts => have := weightL_le_count ts; simp only [Tok.weight, countTok]; omega
theorem weightL_le_count (ts : Toks) : Tok.weightL ts ≤ 2 * count ts := by
  match ts with
  | [] => simp [Tok.weightL, count]
  | t :: ts =>
    have := weight_le_count t
    have := weightL_le_count ts
    simp only [Tok.weightL, count]
    omega
end

end Verif
