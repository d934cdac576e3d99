import Verif.Model.Walker
/-! # The walker terminates and never hits an unreachable arm -/

namespace Verif
open Ctx

/-- The current token of every enclosing frame is a group. -/
def ParentsOk : Ctx → Prop
  | [] => True
  | f :: st => (∃ d us, f.toks[f.idx]? = some (.group d us)) ∧ ParentsOk st

/-- Reachable contexts: not empty, and every frame but the innermost stands on a group. -/
def CtxOk : Ctx → Prop
  | [] => False
  | _ :: st => ParentsOk st

def parentsW : Ctx → Nat
  | [] => 0
  | f :: st => Tok.weightL (f.toks.drop (f.idx + 1)) + 1 + parentsW st

/-- Loop iterations left. -/
def ctxW : Ctx → Nat
  | [] => 0
  | f :: st => Tok.weightL (f.toks.drop f.idx) + 1 + parentsW st

theorem weightL_append (ts us : Toks) : Tok.weightL (ts ++ us) = Tok.weightL ts + Tok.weightL us := by
  induction ts with
  | nil => simp [Tok.weightL]
  | cons t ts ih => simp [Tok.weightL, ih]; omega

theorem weight_pos (t : Tok) : 0 < t.weight := by cases t <;> simp [Tok.weight]; omega

theorem drop_eq_cons {ts : Toks} {i : Nat} {t : Tok} (h : ts[i]? = some t) : ts.drop i = t :: ts.drop (i + 1) := by
  obtain ⟨hl, rfl⟩ := List.getElem?_eq_some_iff.1 h
  exact List.drop_eq_getElem_cons hl

theorem weightL_drop {ts : Toks} {i : Nat} {t : Tok} (h : ts[i]? = some t) :
    Tok.weightL (ts.drop i) = t.weight + Tok.weightL (ts.drop (i + 1)) := by
  rw [drop_eq_cons h]; rfl

theorem drop_take_append (a b : Toks) (i : Nat) (h : i ≤ a.length) : (a.take i ++ b).drop i = b := by
  have : (a.take i).length = i := by simp; omega
  rw [← this]
  simp

theorem foldGroup_ok {g p : Toks} {i : Nat} {d us} (h : p[i]? = some (.group d us)) :
    foldGroup g p i = .ok (p.set i (.group d g)) := by simp [foldGroup, h]

theorem drop_set_succ (p : Toks) (i : Nat) (t : Tok) : (p.set i t).drop (i + 1) = p.drop (i + 1) := by
  rw [List.drop_set]; simp

/-- Position and rest after replacing the current token and moving on. -/
theorem replace_rest {ts new : Toks} {i : Nat} {t : Tok} (h : ts[i]? = some t) (st : Ctx) :
    (if new.isEmpty then replaceCurrentToken new (⟨i, ts⟩ :: st) else advance (replaceCurrentToken new (⟨i, ts⟩ :: st)))
      = ⟨i + new.length, ts.take i ++ new ++ ts.drop (i + 1)⟩ :: st := by
  obtain ⟨hl, -⟩ := List.getElem?_eq_some_iff.1 h
  cases new with
  | nil => simp [replaceCurrentToken]; omega
  | cons n new => simp [replaceCurrentToken, advance]; omega

theorem drop_replaced {ts new : Toks} {i : Nat} (h : i ≤ ts.length) (r : Toks) :
    (ts.take i ++ new ++ r).drop (i + new.length) = r := by
  have : (ts.take i ++ new).length = i + new.length := by simp; omega
  rw [← this]; exact List.drop_left

/-- A visitor that never rewrites a group when entering it. -/
def NoEnterReplace {σ} (v : Visitor σ) : Prop := ∀ s c ts s' new, v.enterGroup s c ts ≠ .ok (s', .replace new)

/-- No hook panics on a reachable context. -/
structure HooksDontPanic {σ} (v : Visitor σ) : Prop where
  ident : ∀ s c n, CtxOk c → v.visitIdent s c n ≠ .panic
  punct : ∀ s c ch j, CtxOk c → v.visitPunct s c ch j ≠ .panic
  literal : ∀ s c l, CtxOk c → v.visitLiteral s c l ≠ .panic
  group : ∀ s c d ts, CtxOk c → v.visitGroup s c d ts ≠ .panic
  enter : ∀ s c ts, CtxOk c → v.enterGroup s c ts ≠ .panic
  exit : ∀ s c ts, CtxOk c → v.exitGroup s c ts ≠ .panic
  after : ∀ s c, CtxOk c → v.afterReplace s c ≠ .panic

theorem popRemove_ok {f : Frame} {j : Nat} {us : Toks} {st : Ctx} {d ws}
    (h : us[j]? = some (.group d ws)) :
    popRemove (f :: ⟨j, us⟩ :: st) = .ok (⟨j, us.take j ++ us.drop (j + 1)⟩ :: st) := by
  obtain ⟨hl, -⟩ := List.getElem?_eq_some_iff.1 h
  simp [popRemove, hl]

theorem walkStep_next {σ} (v : Visitor σ) (hne : NoEnterReplace v) (s : σ) (c : Ctx) (hc : CtxOk c)
    (s' : σ) (c' : Ctx) (h : walkStep v s c = .ok (.next s' c')) : CtxOk c' ∧ ctxW c' < ctxW c := by
  match c with
  | [] => exact hc.elim
  | ⟨i, ts⟩ :: parents =>
    have hc' : ParentsOk parents := hc
    unfold walkStep at h
    simp only at h
    split at h
    · -- exhausted
      simp only [Res.bind_eq, Res.bind_eq_ok] at h
      obtain ⟨⟨s1, act⟩, -, h⟩ := h
      match parents with
      | [] =>
        simp only at h
        cases act with
        | cont => simp at h
        | skip => simp at h
        | replace new => simp [Res.bind_eq_ok] at h
      | ⟨j, us⟩ :: st =>
        obtain ⟨d, ws, hj⟩ := hc'.1
        have hst : ParentsOk st := hc'.2
        simp only at hj
        obtain ⟨hl, -⟩ := List.getElem?_eq_some_iff.1 hj
        simp only at h
        cases act with
        | cont =>
          simp only [popFold, foldGroup_ok hj, Res.bind_eq, Res.bind_ok, advance, Res.ok.injEq, StepOut.next.injEq] at h
          obtain ⟨-, rfl⟩ := h
          refine ⟨hst, ?_⟩
          have : min (us.set j (.group d ts)).length (j + 1) = j + 1 := by simp; omega
          rw [this]
          simp only [ctxW, parentsW, drop_set_succ]
          omega
        | skip =>
          simp only [popRemove_ok hj, Res.bind_ok, Res.ok.injEq, StepOut.next.injEq] at h
          obtain ⟨-, rfl⟩ := h
          refine ⟨hst, ?_⟩
          simp only [ctxW, parentsW, drop_take_append _ _ _ (Nat.le_of_lt hl)]
          omega
        | replace new =>
          simp only [replaceCurrentGroup, popFold, foldGroup_ok hj, Res.bind_eq, Res.bind_ok, advance, Res.bind_eq_ok,
            Res.ok.injEq, StepOut.next.injEq] at h
          obtain ⟨s2, -, -, rfl⟩ := h
          refine ⟨hst, ?_⟩
          have : min (us.set j (.group d new)).length (j + 1) = j + 1 := by simp; omega
          rw [this]
          simp only [ctxW, parentsW, drop_set_succ]
          omega
    · rename_i hlt
      have hl : i < ts.length := by omega
      split at h
      · simp at h
      · -- group
        rename_i d us hi
        simp only [Res.bind_eq, Res.bind_eq_ok] at h
        obtain ⟨⟨s1, act⟩, -, h⟩ := h
        have hw := weightL_drop hi
        simp only [Tok.weight] at hw
        cases act with
        | cont =>
          simp only [Res.bind_eq_ok] at h
          obtain ⟨⟨s2, act2⟩, he, h⟩ := h
          cases act2 with
          | cont =>
            simp only [Res.ok.injEq, StepOut.next.injEq] at h
            obtain ⟨-, rfl⟩ := h
            refine ⟨⟨⟨d, us, hi⟩, hc'⟩, ?_⟩
            simp only [ctxW, parentsW, List.drop_zero]
            omega
          | skip =>
            simp only [popRemove_ok hi, Res.bind_ok, Res.ok.injEq, StepOut.next.injEq] at h
            obtain ⟨-, rfl⟩ := h
            refine ⟨hc', ?_⟩
            simp only [ctxW, drop_take_append _ _ _ (Nat.le_of_lt hl)]
            omega
          | replace new => exact absurd he (hne _ _ _ _ _)
        | skip =>
          simp only [removeCurrentToken, hl, if_true, Res.ok.injEq, StepOut.next.injEq] at h
          obtain ⟨-, rfl⟩ := h
          refine ⟨hc', ?_⟩
          simp only [ctxW, drop_take_append _ _ _ (Nat.le_of_lt hl)]
          omega
        | replace new =>
          simp only [replace_rest hi, Res.bind_eq_ok, Res.ok.injEq, StepOut.next.injEq] at h
          obtain ⟨s2, -, -, rfl⟩ := h
          refine ⟨hc', ?_⟩
          simp only [ctxW, drop_replaced (Nat.le_of_lt hl)]
          omega
      · -- other token
        rename_i t ht hi
        have hw := weightL_drop hi
        have hp := weight_pos t
        simp only [Res.bind_eq, Res.bind_eq_ok] at h
        obtain ⟨⟨s1, act⟩, -, h⟩ := h
        cases act with
        | cont =>
          simp only [advance, Res.ok.injEq, StepOut.next.injEq] at h
          obtain ⟨-, rfl⟩ := h
          refine ⟨hc', ?_⟩
          have : min ts.length (i + 1) = i + 1 := by omega
          simp only [ctxW, this]
          omega
        | skip =>
          simp only [removeCurrentToken, hl, if_true, Res.ok.injEq, StepOut.next.injEq] at h
          obtain ⟨-, rfl⟩ := h
          refine ⟨hc', ?_⟩
          simp only [ctxW, drop_take_append _ _ _ (Nat.le_of_lt hl)]
          omega
        | replace new =>
          simp only [replace_rest hi, Res.bind_eq_ok, Res.ok.injEq, StepOut.next.injEq] at h
          obtain ⟨s2, -, -, rfl⟩ := h
          refine ⟨hc', ?_⟩
          simp only [ctxW, drop_replaced (Nat.le_of_lt hl)]
          omega

theorem walkStep_no_panic {σ} (v : Visitor σ) (hv : HooksDontPanic v) (s : σ) (c : Ctx) (hc : CtxOk c) :
    walkStep v s c ≠ .panic := by
  match c with
  | [] => exact hc.elim
  | ⟨i, ts⟩ :: parents =>
    have hc' : ParentsOk parents := hc
    intro h
    unfold walkStep at h
    simp only at h
    split at h
    · simp only [Res.bind_eq, Res.bind_eq_panic] at h
      rcases h with h | ⟨⟨s1, act⟩, -, h⟩
      · exact hv.exit _ _ _ hc h
      match parents with
      | [] =>
        simp only at h
        cases act with
        | cont => simp at h
        | skip => simp at h
        | replace new =>
          simp only [Res.bind_eq_panic] at h
          rcases h with h | ⟨_, -, h⟩
          · exact hv.after _ (replaceCurrentGroup new [⟨i, ts⟩]) trivial h
          · simp at h
      | ⟨j, us⟩ :: st =>
        obtain ⟨d, ws, hj⟩ := hc'.1
        have hst : ParentsOk st := hc'.2
        simp only at hj
        simp only at h
        cases act with
        | cont => simp [popFold, foldGroup_ok hj] at h
        | skip => simp [popRemove_ok hj] at h
        | replace new =>
          simp only [replaceCurrentGroup, popFold, foldGroup_ok hj, Res.bind_eq, Res.bind_ok, advance, Res.bind_eq_panic] at h
          rcases h with h | ⟨_, -, h⟩
          · exact hv.after _ _ (show CtxOk (_ :: _) from hst) h
          · simp at h
    · rename_i hlt
      have hl : i < ts.length := by omega
      split at h
      · rename_i hn
        rw [List.getElem?_eq_none_iff] at hn
        omega
      · rename_i d us hi
        simp only [Res.bind_eq, Res.bind_eq_panic] at h
        rcases h with h | ⟨⟨s1, act⟩, -, h⟩
        · exact hv.group _ _ _ _ hc h
        cases act with
        | cont =>
          simp only [Res.bind_eq_panic] at h
          have hin : CtxOk (⟨0, us⟩ :: ⟨i, ts⟩ :: parents) := ⟨⟨d, us, hi⟩, hc'⟩
          rcases h with h | ⟨⟨s2, act2⟩, he, h⟩
          · exact hv.enter _ _ _ hin h
          cases act2 with
          | cont => simp at h
          | skip => simp [popRemove_ok hi] at h
          | replace new =>
            simp only [Res.bind_eq_panic] at h
            rcases h with h | ⟨_, -, h⟩
            · exact hv.after _ (replaceCurrentGroup new (⟨0, us⟩ :: ⟨i, ts⟩ :: parents)) hin h
            · simp at h
        | skip => simp at h
        | replace new =>
          simp only [replace_rest hi, Res.bind_eq_panic] at h
          rcases h with h | ⟨_, -, h⟩
          · exact hv.after _ _ (show CtxOk (_ :: _) from hc') h
          · simp at h
      · rename_i t ht hi
        simp only [Res.bind_eq, Res.bind_eq_panic] at h
        rcases h with h | ⟨⟨s1, act⟩, -, h⟩
        · cases t with
          | ident n => exact hv.ident _ _ _ hc h
          | punct ch j => exact hv.punct _ _ _ _ hc h
          | lit l => exact hv.literal _ _ _ hc h
          | group d us => exact absurd hi (by intro h; exact ht d us rfl)
        cases act with
        | cont => simp at h
        | skip => simp at h
        | replace new =>
          simp only [replace_rest hi, Res.bind_eq_panic] at h
          rcases h with h | ⟨_, -, h⟩
          · exact hv.after _ _ (show CtxOk (_ :: _) from hc') h
          · simp at h

theorem walkN_total {σ} (v : Visitor σ) (hne : NoEnterReplace v) (n : Nat) (s : σ) (c : Ctx) (hc : CtxOk c)
    (hn : ctxW c ≤ n) : ∃ r, walkN v n s c = some r ∧ (HooksDontPanic v → r ≠ .panic) := by
  induction n generalizing s c with
  | zero =>
    match c with
    | [] => exact hc.elim
    | f :: st => simp [ctxW] at hn
  | succ n ih =>
    unfold walkN
    cases hst : walkStep v s c with
    | ok o =>
      cases o with
      | done ts => exact ⟨_, rfl, fun _ => by simp⟩
      | next s' c' =>
        obtain ⟨h1, h2⟩ := walkStep_next v hne s c hc s' c' hst
        exact ih s' c' h1 (by omega)
    | err e => exact ⟨_, rfl, fun _ => by simp⟩
    | panic => exact ⟨_, rfl, fun hv => absurd hst (walkStep_no_panic v hv s c hc)⟩

/-- More iterations do not change a result that has been reached. -/
theorem walkN_mono {σ} (v : Visitor σ) {n m : Nat} {s : σ} {c : Ctx} {r : Res Toks} (h : walkN v n s c = some r)
    (hm : n ≤ m) : walkN v m s c = some r := by
  induction n generalizing m s c with
  | zero => simp [walkN] at h
  | succ n ih =>
    match m with
    | 0 => omega
    | m + 1 =>
      unfold walkN at h ⊢
      split at h <;> try exact h
      rename_i s' c' hst
      exact ih h (by omega)

end Verif
