import Verif.Model.Parses
import Verif.Spec.Parses
import Verif.Proofs.Subst
/-! # What the substitution parses -/

namespace Verif
open Spec Ctx

/-! ## Without the record it is the same -/

theorem Logged.bind_res {α β} (x : Logged α) (f : α → Logged β) :
    (x >>= f).res = x.res >>= (fun a => (f a).res) := by
  obtain ⟨r, l⟩ := x
  cases r <;> rfl

theorem Logged.lift_bind {α β} (a : α) (f : α → Logged β) : (Logged.lift (.ok a) >>= f) = f a := by
  show Logged.bind _ _ = _
  simp [Logged.bind, Logged.lift]

theorem Logged.bind_ok_parsed {α β} (x : Logged α) (f : α → β) : (x >>= fun a => Logged.ok (f a)).parsed = x.parsed := by
  obtain ⟨r, l⟩ := x
  show (Logged.bind _ _).parsed = _
  cases r <;> simp [Logged.bind, Logged.ok]

theorem walkStepP_res {σ} (v : Visitor σ) (after : σ → Ctx → Logged σ)
    (h : ∀ s c, (after s c).res = v.afterReplace s c) (s : σ) (c : Ctx) :
    (walkStepP v after s c).res = walkStep v s c := by
  rcases c with _ | ⟨⟨i, ts⟩, parents⟩
  · rfl
  unfold walkStepP walkStep
  simp only
  by_cases hi : ts.length ≤ i
  · rw [if_pos hi, if_pos hi, Logged.bind_res]
    refine bind_congr fun a => ?_
    obtain ⟨s, act⟩ := a
    cases parents <;> cases act <;> simp only [Logged.bind_res, h] <;> rfl
  · rw [if_neg hi, if_neg hi]
    rcases ts[i]? with _ | t
    · rfl
    · cases t with
      | group d us =>
        simp only [Logged.bind_res]
        refine bind_congr fun a => ?_
        obtain ⟨s, act⟩ := a
        cases act with
        | cont =>
          simp only [Logged.bind_res]
          refine bind_congr fun a => ?_
          obtain ⟨s, act⟩ := a
          cases act <;> simp only [Logged.bind_res, h] <;> rfl
        | skip => rfl
        | replace new => simp only [Logged.bind_res, h]; rfl
      | ident n =>
        simp only [Logged.bind_res]
        refine bind_congr fun a => ?_
        obtain ⟨s, act⟩ := a
        cases act <;> simp only [Logged.bind_res, h] <;> rfl
      | punct ch j =>
        simp only [Logged.bind_res]
        refine bind_congr fun a => ?_
        obtain ⟨s, act⟩ := a
        cases act <;> simp only [Logged.bind_res, h] <;> rfl
      | lit l =>
        simp only [Logged.bind_res]
        refine bind_congr fun a => ?_
        obtain ⟨s, act⟩ := a
        cases act <;> simp only [Logged.bind_res, h] <;> rfl

theorem walkNP_res {σ} (v : Visitor σ) (after : σ → Ctx → Logged σ)
    (h : ∀ s c, (after s c).res = v.afterReplace s c) (n : Nat) (s : σ) (c : Ctx) :
    (walkNP v after n s c).1 = walkN v n s c := by
  induction n generalizing s c with
  | zero => rfl
  | succ n ih =>
    have hs := walkStepP_res v after h s c
    unfold walkNP walkN
    rw [← hs]
    rcases walkStepP v after s c with ⟨r, l⟩
    cases r with
    | ok o => cases o <;> simp [ih]
    | err e => rfl
    | panic => rfl

variable {E : Ext} {valid : Toks → Bool} {subs : Subs}

theorem afterReplaceP_res (s : SubstState) (c : Ctx) :
    (afterReplaceP E valid subs s c).res = (substVisitor E valid subs).afterReplace s c := by
  unfold afterReplaceP
  split <;> rfl

theorem walkP_res (node : Toks) :
    (walkP (substVisitor E valid subs) (afterReplaceP E valid subs) none node).res =
      walk (substVisitor E valid subs) none node := by
  simp only [walkP, walk, walkNP_res _ _ afterReplaceP_res]

/-- The model with the record does what the model without it does. -/
theorem substituteIdentsP_res (node : Toks) :
    (substituteIdentsP E valid subs node).res = substituteIdents E valid subs node := by
  unfold substituteIdentsP substituteIdents
  rw [show ∀ (x : Logged Toks) (f : Toks → Logged Toks), x.bind f = (x >>= f) from fun _ _ => rfl, Logged.bind_res, walkP_res]

/-! ## The record -/

theorem tried_append {α} (good : α → Bool) (a b : List α) (h : ∀ x ∈ a, good x = true) :
    tried good (a ++ b) = a ++ tried good b := by
  induction a with
  | nil => rfl
  | cons x a ih =>
    simp only [List.cons_append, tried, h x List.mem_cons_self, if_true, ih (fun y hy => h y (List.mem_cons_of_mem _ hy))]

theorem tried_all {α} (good : α → Bool) (a : List α) (h : ∀ x ∈ a, good x = true) : tried good a = a := by
  simpa [tried] using tried_append good a [] h

theorem tried_stop {α} (good : α → Bool) (a b : List α) (h : ∃ x ∈ a, good x = false) :
    tried good (a ++ b) = tried good a := by
  induction a with
  | nil => simp at h
  | cons x a ih =>
    simp only [List.cons_append, tried]
    split
    · next hx =>
      rw [ih]
      obtain ⟨y, hy, hf⟩ := h
      rcases List.mem_cons.1 hy with rfl | hy
      · simp [hx] at hf
      · exact ⟨y, hy, hf⟩
    · rfl

theorem afterReplaceP_eq {plug : Toks → Toks} {P : Ctx} (hP : ∀ x, foldFrames x P = .ok (plug x)) (s : SubstState) (i : Nat)
    (ts : Toks) : afterReplaceP E valid subs s (⟨i, ts⟩ :: P) = ⟨if valid (plug ts) then .ok s else failRes s, [plug ts]⟩ := by
  unfold afterReplaceP
  rw [afterReplace_eq hP]
  simp only [currentStream, hP]

/-- What a leaf adds to the record. -/
def leafLog (E : Ext) (subs : Subs) (plug : Toks → Toks) (pre rest : Toks) (t : Tok) : List Toks :=
  match leafRepl E subs t with
  | none => []
  | some new => [plug (pre ++ new ++ rest)]

theorem walkStepP_leaf {plug : Toks → Toks} {P : Ctx} (hP : ∀ x, foldFrames x P = .ok (plug x)) (pre rest : Toks)
    (s : SubstState) (t : Tok) (ht : ∀ d us, t ≠ .group d us) :
    (walkStepP (substVisitor E valid subs) (afterReplaceP E valid subs) s (⟨pre.length, pre ++ t :: rest⟩ :: P)).parsed =
      leafLog E subs plug pre rest t := by
  unfold walkStepP
  have hlen : ¬ (pre ++ t :: rest).length ≤ pre.length := by simp
  simp only [hlen, if_false]
  split
  · rename_i h; rw [get_mid] at h; simp at h
  · rename_i d us h; rw [get_mid] at h; simp at h; exact absurd h (ht d us)
  · rename_i t' ht' h
    rw [get_mid, Option.some.injEq] at h
    subst h
    rw [visitLeaf_eq _ _ _ ht]
    unfold leafLog
    cases hr : leafRepl E subs t with
    | none => rfl
    | some new =>
      have := replace_rest (ts := pre ++ t :: rest) (new := new) (i := pre.length) (get_mid _ _ _) P
      simp only [Logged.lift_bind, this]
      have e1 : (pre ++ t :: rest).take pre.length = pre := by simp
      have e2 : (pre ++ t :: rest).drop (pre.length + 1) = rest := by simp
      rw [e1, e2, afterReplaceP_eq hP, Logged.bind_ok_parsed]

theorem walkStepP_enter (P : Ctx) (pre rest : Toks) (s : SubstState) (d : Delim) (us : Toks) :
    walkStepP (substVisitor E valid subs) (afterReplaceP E valid subs) s (⟨pre.length, pre ++ .group d us :: rest⟩ :: P) =
      ⟨.ok (.next s (⟨0, us⟩ :: ⟨pre.length, pre ++ .group d us :: rest⟩ :: P)), []⟩ := by
  unfold walkStepP
  have hlen : ¬ (pre ++ Tok.group d us :: rest).length ≤ pre.length := by simp
  simp only [hlen, if_false, get_mid]
  rfl

theorem walkStepP_exit (P : Ctx) (pre rest : Toks) (s : SubstState) (d : Delim) (us vs : Toks) :
    walkStepP (substVisitor E valid subs) (afterReplaceP E valid subs) s
        (⟨vs.length, vs⟩ :: ⟨pre.length, pre ++ .group d us :: rest⟩ :: P) =
      ⟨.ok (.next s (⟨(pre ++ [Tok.group d vs]).length, pre ++ [Tok.group d vs] ++ rest⟩ :: P)), []⟩ := by
  have h := walkStep_exit (E := E) (valid := valid) (subs := subs) P pre rest s d us vs
  rw [← walkStepP_res _ (afterReplaceP E valid subs) afterReplaceP_res] at h
  have hp : (walkStepP (substVisitor E valid subs) (afterReplaceP E valid subs) s
      (⟨vs.length, vs⟩ :: ⟨pre.length, pre ++ .group d us :: rest⟩ :: P)).parsed = [] := by
    unfold walkStepP
    simp only [Nat.le_refl, if_true]
    have he : (substVisitor E valid subs).exitGroup s (⟨vs.length, vs⟩ :: ⟨pre.length, pre ++ .group d us :: rest⟩ :: P) vs =
      .ok (s, .cont) := rfl
    rw [he]
    simp only [Logged.lift_bind, Logged.bind_ok_parsed]
    rfl
  generalize walkStepP (substVisitor E valid subs) (afterReplaceP E valid subs) s
    (⟨vs.length, vs⟩ :: ⟨pre.length, pre ++ .group d us :: rest⟩ :: P) = x at h hp
  obtain ⟨r, l⟩ := x
  simp only at h hp
  rw [h, hp]

theorem walkNP_succ {σ} (v : Visitor σ) (after : σ → Ctx → Logged σ) (n : Nat) (s : σ) (c : Ctx) :
    (walkNP v after (1 + n) s c).2 = (walkStepP v after s c).parsed ++
      match (walkStepP v after s c).res with
      | .ok (.next s c) => (walkNP v after n s c).2
      | _ => [] := by
  rw [Nat.add_comm]
  show (match walkStepP v after s c with
    | ⟨.ok (.done ts), l⟩ => (some (.ok ts), l)
    | ⟨.ok (.next s c), l⟩ => let r := walkNP v after n s c; (r.1, l ++ r.2)
    | ⟨.err e, l⟩ => (some (.err e), l)
    | ⟨.panic, l⟩ => (some .panic, l) : Option (Res Toks) × List Toks).2 = _
  rcases walkStepP v after s c with ⟨r, l⟩
  cases r with
  | ok o => cases o <;> simp
  | err e => simp
  | panic => simp

/-- The streams `f 1, …, f n`. -/
def firsts (f : Nat → Toks) (n : Nat) : List Toks := (List.range n).map (fun k => f (k + 1))

theorem mem_firsts {f : Nat → Toks} {n : Nat} {x : Toks} : x ∈ firsts f n ↔ ∃ k, 1 ≤ k ∧ k ≤ n ∧ f k = x := by
  simp only [firsts, List.mem_map, List.mem_range]
  constructor
  · rintro ⟨k, h1, h2⟩; exact ⟨k + 1, by omega, by omega, h2⟩
  · rintro ⟨k, h1, h2, h3⟩; exact ⟨k - 1, by omega, by rw [show k - 1 + 1 = k by omega, h3]⟩

theorem firsts_add (f : Nat → Toks) (m n : Nat) : firsts f (m + n) = firsts f m ++ firsts (fun k => f (m + k)) n := by
  simp only [firsts, List.range_add, List.map_append, List.map_map]
  rfl

theorem firsts_congr {f g : Nat → Toks} {n : Nat} (h : ∀ k, 1 ≤ k → k ≤ n → f k = g k) : firsts f n = firsts g n := by
  apply List.map_congr_left
  intro k hk
  exact h _ (by omega) (by have := List.mem_range.1 hk; omega)

/-- What the loop parses after the result of a big step. -/
def contLog (E : Ext) (valid : Toks → Bool) (subs : Subs) (n : Nat) (l : List Toks) (r : Res (Toks × SubstState))
    (k : Toks → Ctx) : List Toks :=
  match r with
  | .ok (new, s) => l ++ (walkNP (substVisitor E valid subs) (afterReplaceP E valid subs) n s (k new)).2
  | _ => tried valid l

theorem failRes_ne_ok {α} (s : SubstState) (x : α) : failRes s ≠ .ok x := by
  unfold failRes; split <;> simp

theorem Checked.good {α} {f : Nat → Toks} {st : Nat → SubstState} {n : Nat} {a : α} {x : α × SubstState}
    (h : Checked valid f st n a (.ok x)) : ∀ y ∈ firsts f n, valid y = true := by
  intro y hy
  obtain ⟨k, h1, h2, rfl⟩ := mem_firsts.1 hy
  rcases h with ⟨h, _⟩ | ⟨k, _, _, _, _, h⟩
  · exact h k h1 h2
  · exact absurd h.symm (failRes_ne_ok _ _)

theorem Checked.bad {α} {f : Nat → Toks} {st : Nat → SubstState} {n : Nat} {a : α} {r : Res (α × SubstState)}
    (h : Checked valid f st n a r) (hr : ∀ x, r ≠ .ok x) : ∃ y ∈ firsts f n, valid y = false := by
  rcases h with ⟨_, h⟩ | ⟨k, h1, h2, h3, _, _⟩
  · exact absurd h (hr _)
  · exact ⟨_, mem_firsts.2 ⟨k, h1, h2, rfl⟩, h3⟩

theorem walkNP_leaf {plug : Toks → Toks} {P : Ctx} (hP : ∀ x, foldFrames x P = .ok (plug x)) (pre rest : Toks)
    (s : SubstState) (t : Tok) (ht : ∀ d us, t ≠ .group d us) (n : Nat) :
    (walkNP (substVisitor E valid subs) (afterReplaceP E valid subs) (1 + n) s (⟨pre.length, pre ++ t :: rest⟩ :: P)).2 =
      contLog E valid subs n (leafLog E subs plug pre rest t) (goLeaf E valid subs plug pre rest s t)
        (fun new => ⟨(pre ++ new).length, pre ++ new ++ rest⟩ :: P) := by
  rw [walkNP_succ, walkStepP_res _ _ afterReplaceP_res, walkStep_leaf hP _ _ _ _ ht, walkStepP_leaf hP _ _ _ _ ht]
  unfold leafLog goLeaf
  cases leafRepl E subs t with
  | none => simp [contLog, Res.map]
  | some new =>
    by_cases hv : valid (plug (pre ++ new ++ rest)) = true
    · simp only [if_pos hv, contLog, Res.map]
    · simp only [if_neg hv]
      generalize leafState E subs s t = z
      rcases z with _ | ⟨a, b⟩ <;> simp [failRes, contLog, Res.map, tried]

theorem leafLog_eq (plug : Toks → Toks) (pre rest : Toks) (t : Tok) (ht : ∀ d us, t ≠ .group d us) :
    leafLog E subs plug pre rest t =
      firsts (fun k => plug (pre ++ substFirstTok (lookToks subs) (strLit E subs) k t ++ rest))
        (occTok (lookToks subs) t).length := by
  match t with
  | .ident n =>
    cases hg : subs.get n <;> simp [leafLog, leafRepl, hg, occTok, lookToks, firsts, substFirstTok, List.range_succ]
  | .punct c j => rfl
  | .lit (.str r v) => rfl
  | .lit (.int r v) => rfl
  | .lit (.other r) => rfl
  | .group d us => exact absurd rfl (ht d us)

mutual
theorem walkNP_tok (t : Tok) (plug : Toks → Toks) (pre rest : Toks) (s : SubstState) (P : Ctx) (n : Nat)
    (hP : ∀ x, foldFrames x P = .ok (plug x)) :
    (walkNP (substVisitor E valid subs) (afterReplaceP E valid subs) (t.weight + n) s (⟨pre.length, pre ++ t :: rest⟩ :: P)).2 =
      contLog E valid subs n
        (firsts (fun k => plug (pre ++ substFirstTok (lookToks subs) (strLit E subs) k t ++ rest)) (occTok (lookToks subs) t).length)
        (goTok E valid subs plug pre rest s t)
        (fun new => ⟨(pre ++ new).length, pre ++ new ++ rest⟩ :: P) := by
  match t with
  | .ident m => rw [← leafLog_eq _ _ _ _ (by simp)]; exact walkNP_leaf hP pre rest s _ (by simp) n
  | .punct c j => rw [← leafLog_eq _ _ _ _ (by simp)]; exact walkNP_leaf hP pre rest s _ (by simp) n
  | .lit l => rw [← leafLog_eq _ _ _ _ (by simp)]; exact walkNP_leaf hP pre rest s _ (by simp) n
  | .group d us =>
    have h1 : (Tok.group d us).weight + n = 1 + (Tok.weightL us + (1 + n)) := by simp [Tok.weight]; omega
    rw [h1, walkNP_succ, walkStepP_enter]
    simp only [List.nil_append]
    have := walkNP_list us (fun x => plug (pre ++ .group d x :: rest)) [] s
      (⟨pre.length, pre ++ .group d us :: rest⟩ :: P) (1 + n) (by
        intro x
        simp only [foldFrames, foldGroup_ok (get_mid _ _ _), Res.bind_eq, Res.bind_ok]
        rw [← hP]; simp)
    simp only [List.nil_append, List.length_nil] at this
    rw [this]
    simp only [goTok, occTok, substFirstTok, List.append_assoc, List.cons_append, List.nil_append]
    cases goList E valid subs (fun x => plug (pre ++ .group d x :: rest)) [] s us with
    | ok p =>
      obtain ⟨vs, s'⟩ := p
      simp only [contLog, Res.map]
      rw [walkNP_succ, walkStepP_exit]
      simp
    | err e => rfl
    | panic => rfl
theorem walkNP_list (ts : Toks) (plug : Toks → Toks) (pre : Toks) (s : SubstState) (P : Ctx) (n : Nat)
    (hP : ∀ x, foldFrames x P = .ok (plug x)) :
    (walkNP (substVisitor E valid subs) (afterReplaceP E valid subs) (Tok.weightL ts + n) s (⟨pre.length, pre ++ ts⟩ :: P)).2 =
      contLog E valid subs n
        (firsts (fun k => plug (pre ++ substFirst (lookToks subs) (strLit E subs) k ts)) (occAll (lookToks subs) ts).length)
        (goList E valid subs plug pre s ts)
        (fun new => ⟨(pre ++ new).length, pre ++ new⟩ :: P) := by
  match ts with
  | [] => simp [Tok.weightL, goList, contLog, occAll, firsts]
  | t :: ts =>
    have hf1 : ∀ k, k ≤ (occTok (lookToks subs) t).length → substFirst (lookToks subs) (strLit E subs) k (t :: ts) =
        substFirstTok (lookToks subs) (strLit E subs) k t ++ ts := by
      intro k hk
      simp only [substFirst]
      rw [show k - (occTok (lookToks subs) t).length = 0 by omega, substFirst_zero]
    have hf2 : ∀ k, substFirst (lookToks subs) (strLit E subs) ((occTok (lookToks subs) t).length + k) (t :: ts) =
        substTok (lookToks subs) (strLit E subs) t ++ substFirst (lookToks subs) (strLit E subs) k ts := by
      intro k
      simp only [substFirst]
      rw [substFirstTok_all _ _ _ _ (by omega), Nat.add_sub_cancel_left]
    have hl : firsts (fun k => plug (pre ++ substFirst (lookToks subs) (strLit E subs) k (t :: ts)))
          (occAll (lookToks subs) (t :: ts)).length =
        firsts (fun k => plug (pre ++ substFirstTok (lookToks subs) (strLit E subs) k t ++ ts)) (occTok (lookToks subs) t).length ++
        firsts (fun k => plug (pre ++ substTok (lookToks subs) (strLit E subs) t ++ substFirst (lookToks subs) (strLit E subs) k ts))
          (occAll (lookToks subs) ts).length := by
      simp only [occAll, List.length_append, firsts_add]
      congr 1
      · exact firsts_congr (fun k _ hk => by simp only [hf1 k hk, List.append_assoc])
      · exact firsts_congr (fun k _ hk => by simp only [hf2 k, List.append_assoc])
    simp only [Tok.weightL, Nat.add_assoc]
    rw [walkNP_tok t plug pre ts s P _ hP, hl]
    simp only [goList]
    have hc := goTok_checked (E := E) (valid := valid) (subs := subs) t plug pre ts s
    cases hg : goTok E valid subs plug pre ts s t with
    | ok p =>
      obtain ⟨new, s'⟩ := p
      rw [hg] at hc
      have hgood := hc.good
      have hnew : new = substTok (lookToks subs) (strLit E subs) t := by
        rcases hc with ⟨_, h⟩ | ⟨k, _, _, _, _, h⟩
        · simp only [Res.ok.injEq, Prod.mk.injEq] at h; exact h.1
        · exact absurd h.symm (failRes_ne_ok _ _)
      subst hnew
      simp only [contLog, Res.bind_ok]
      rw [walkNP_list ts plug (pre ++ substTok (lookToks subs) (strLit E subs) t) s' P n hP]
      cases goList E valid subs plug (pre ++ substTok (lookToks subs) (strLit E subs) t) s' ts with
      | ok q => simp [contLog, Res.map]
      | err e => simp only [contLog, Res.map]; rw [tried_append _ _ _ hgood]
      | panic => simp only [contLog, Res.map]; rw [tried_append _ _ _ hgood]
    | err e =>
      rw [hg] at hc
      simp only [contLog, Res.bind]
      rw [tried_stop _ _ _ (hc.bad (by simp))]
    | panic =>
      rw [hg] at hc
      simp only [contLog, Res.bind]
      rw [tried_stop _ _ _ (hc.bad (by simp))]
end

/-- What is parsed: the code after each replacement, up to the first time it is not valid, and at the end the result. -/
theorem substituteIdentsP_parsed (node : Toks) :
    (substituteIdentsP E valid subs node).parsed =
      tried valid (stages (lookToks subs) (strLit E subs) node ++ [substAll (lookToks subs) (strLit E subs) node]) := by
  have hst : stages (lookToks subs) (strLit E subs) node =
      firsts (fun k => substFirst (lookToks subs) (strLit E subs) k node) (occAll (lookToks subs) node).length := rfl
  have hl := walkNP_list (E := E) (valid := valid) (subs := subs) node id [] none [] 1 (by intro x; rfl)
  have hr := walkP_res (E := E) (valid := valid) (subs := subs) node
  rw [walk_eq] at hr
  have hc := goList_checked (E := E) (valid := valid) (subs := subs) node id [] none
  rw [hst]
  simp only [List.nil_append, List.length_nil, id_eq] at hl hc
  unfold substituteIdentsP
  have hp : (walkP (substVisitor E valid subs) (afterReplaceP E valid subs) none node).parsed =
      tried valid (firsts (fun k => substFirst (lookToks subs) (strLit E subs) k node) (occAll (lookToks subs) node).length) := by
    simp only [walkP, hl]
    cases hg : goList E valid subs id [] none node with
    | ok p =>
      rw [hg] at hc
      rw [tried_all _ _ hc.good]
      simp [contLog, walkNP, walkStepP, Logged.lift_bind, Logged.ok, substVisitor, Visitor.default]
    | err e => rfl
    | panic => rfl
  generalize walkP (substVisitor E valid subs) (afterReplaceP E valid subs) none node = x at hp hr
  obtain ⟨r, l⟩ := x
  simp only at hp hr
  subst hp hr
  cases hg : goList E valid subs id [] none node with
  | ok p =>
    rw [hg] at hc
    have hgood := hc.good
    have hnew : p.1 = substAll (lookToks subs) (strLit E subs) node := by
      rcases hc with ⟨_, h⟩ | ⟨k, _, _, _, _, h⟩
      · simp only [Res.ok.injEq] at h; rw [h]
      · exact absurd h.symm (failRes_ne_ok _ _)
    rw [tried_append _ _ _ hgood, tried_all _ _ hgood]
    simp only [Logged.bind, Res.map, hnew, tried]
    split <;> rfl
  | err e =>
    rw [hg] at hc
    rw [tried_stop _ _ _ (hc.bad (by simp))]
    rfl
  | panic =>
    rw [hg] at hc
    rw [tried_stop _ _ _ (hc.bad (by simp))]
    rfl

end Verif
