import Verif.Proofs.Spans
/-! # The walk through a node, with spans -/

namespace Verif
open Spec

variable {σ : Type} (E : Ext) (valid : Toks → Bool) (subs : SubsS σ)

namespace PRes
variable {α β : Type}
@[simp] theorem bind_ok (a : α) (f : α → PRes σ β) : (PRes.ok a : PRes σ α).bind f = f a := rfl
@[simp] theorem bind_err (e : Err) (sp : σ) (f : α → PRes σ β) : (PRes.err e sp : PRes σ α).bind f = .err e sp := rfl
@[simp] theorem bind_panic (f : α → PRes σ β) : (PRes.panic : PRes σ α).bind f = .panic := rfl
end PRes

/-- Failure of the validity check. -/
def failS {α : Type} : SubstStateS σ → PRes σ α
  | some (n, r, sp) => .err (.substitution n r) sp
  | none => .panic

/-- Big-step form of one loop iteration on a leaf. -/
def goLeafS (plug : SToks σ → SToks σ) (pre rest : SToks σ) (s : SubstStateS σ) (t : STok σ) : PRes σ (SToks σ × SubstStateS σ) :=
  match visitLeafS E subs s t with
  | (none, s) => .ok ([t], s)
  | (some new, s) => if valid (STok.eraseL (plug (pre ++ new ++ rest))) then .ok (new, s) else failS s

mutual
/-- Big-step form of the loop. -/
def goTokS (plug : SToks σ → SToks σ) (pre rest : SToks σ) (s : SubstStateS σ) : STok σ → PRes σ (SToks σ × SubstStateS σ)
  | .group d us sp => (goListS (fun x => plug (pre ++ .group d x sp :: rest)) [] s us).map (fun p => ([.group d p.1 sp], p.2))
  | .ident n sp => goLeafS E valid subs plug pre rest s (.ident n sp)
  | .punct c j sp => goLeafS E valid subs plug pre rest s (.punct c j sp)
  | .lit l sp => goLeafS E valid subs plug pre rest s (.lit l sp)
def goListS (plug : SToks σ → SToks σ) (pre : SToks σ) (s : SubstStateS σ) : SToks σ → PRes σ (SToks σ × SubstStateS σ)
  | [] => .ok ([], s)
  | t :: ts => (goTokS plug pre ts s t).bind (fun p => (goListS plug (pre ++ p.1) p.2 ts).map (fun q => (p.1 ++ q.1, q.2)))
end

/-- What the loop does with the result of a big step. -/
def contWalkS (n : Nat) (r : PRes σ (SToks σ × SubstStateS σ)) (k : SToks σ → SCtx σ) : Option (PRes σ (SToks σ)) :=
  match r with
  | .ok (new, s) => walkNS E valid subs n s (k new)
  | .err e sp => some (.err e sp)
  | .panic => some .panic

variable {E valid subs}

theorem walkNS_succ (n : Nat) (s : SubstStateS σ) (c : SCtx σ) : walkNS E valid subs (1 + n) s c =
    match walkStepS E valid subs s c with
    | .ok (.done ts) => some (.ok ts)
    | .ok (.next s c) => walkNS E valid subs n s c
    | .err e sp => some (.err e sp)
    | .panic => some .panic := by
  rw [Nat.add_comm]; rfl

theorem get_midS (pre : SToks σ) (t : STok σ) (rest : SToks σ) : (pre ++ t :: rest)[pre.length]? = some t := by simp

theorem foldGroupS_mid (pre rest vs us : SToks σ) (d : Delim) (sp : σ) :
    SCtx.foldGroup vs (pre ++ .group d us sp :: rest) pre.length = .ok (pre ++ .group d vs sp :: rest) := by
  unfold SCtx.foldGroup
  rw [get_midS]
  simp

theorem walkStepS_leaf {plug : SToks σ → SToks σ} {P : SCtx σ} (hP : ∀ x, SCtx.foldFrames x P = .ok (plug x)) (pre rest : SToks σ)
    (s : SubstStateS σ) (t : STok σ) (ht : ∀ d us sp, t ≠ .group d us sp) :
    walkStepS E valid subs s (⟨pre.length, pre ++ t :: rest⟩ :: P) =
      (goLeafS E valid subs plug pre rest s t).map (fun p => .next p.2 (⟨(pre ++ p.1).length, pre ++ p.1 ++ rest⟩ :: P)) := by
  unfold walkStepS
  have hlen : ¬ (pre ++ t :: rest).length ≤ pre.length := by simp
  simp only [hlen, if_false]
  split
  · rename_i h; rw [get_midS] at h; simp at h
  · rename_i h; rw [get_midS] at h; simp at h; exact absurd h (ht _ _ _)
  · rename_i t' ht' h
    rw [get_midS, Option.some.injEq] at h
    subst h
    split
    · rename_i s' hv
      simp only [goLeafS, hv, PRes.map]
      have hm : min (pre ++ t :: rest).length (pre.length + 1) = (pre ++ [t]).length := by
        simp only [List.length_append, List.length_cons, List.length_nil]; omega
      rw [hm]; simp
    · rename_i new s' hv
      have e1 : (pre ++ t :: rest).take pre.length = pre := by simp
      have e2 : (pre ++ t :: rest).drop (pre.length + 1) = rest := by simp
      simp only [goLeafS, hv, e1, e2, afterReplaceS, hP, PRes.bind_ok]
      split
      · simp [PRes.map]
      · unfold failS; split <;> rfl

theorem walkNS_leaf {plug : SToks σ → SToks σ} {P : SCtx σ} (hP : ∀ x, SCtx.foldFrames x P = .ok (plug x)) (pre rest : SToks σ)
    (s : SubstStateS σ) (t : STok σ) (ht : ∀ d us sp, t ≠ .group d us sp) (n : Nat) :
    walkNS E valid subs (1 + n) s (⟨pre.length, pre ++ t :: rest⟩ :: P) =
      contWalkS E valid subs n (goLeafS E valid subs plug pre rest s t) (fun new => ⟨(pre ++ new).length, pre ++ new ++ rest⟩ :: P) := by
  rw [walkNS_succ, walkStepS_leaf hP _ _ _ _ ht]
  cases goLeafS E valid subs plug pre rest s t <;> rfl

theorem walkStepS_enter (P : SCtx σ) (pre rest : SToks σ) (s : SubstStateS σ) (d : Delim) (us : SToks σ) (sp : σ) :
    walkStepS E valid subs s (⟨pre.length, pre ++ .group d us sp :: rest⟩ :: P) =
      .ok (.next s (⟨0, us⟩ :: ⟨pre.length, pre ++ .group d us sp :: rest⟩ :: P)) := by
  unfold walkStepS
  have hlen : ¬ (pre ++ STok.group d us sp :: rest).length ≤ pre.length := by simp
  simp only [hlen, if_false, get_midS]

theorem walkStepS_exit (P : SCtx σ) (pre rest : SToks σ) (s : SubstStateS σ) (d : Delim) (us vs : SToks σ) (sp : σ) :
    walkStepS E valid subs s (⟨vs.length, vs⟩ :: ⟨pre.length, pre ++ .group d us sp :: rest⟩ :: P) =
      .ok (.next s (⟨(pre ++ [STok.group d vs sp]).length, pre ++ [STok.group d vs sp] ++ rest⟩ :: P)) := by
  unfold walkStepS
  simp only [Nat.le_refl, if_true, foldGroupS_mid, PRes.bind_ok]
  simp

mutual
theorem walkNS_tok (t : STok σ) (plug : SToks σ → SToks σ) (pre rest : SToks σ) (s : SubstStateS σ) (P : SCtx σ) (n : Nat)
    (hP : ∀ x, SCtx.foldFrames x P = .ok (plug x)) :
    walkNS E valid subs (t.erase.weight + n) s (⟨pre.length, pre ++ t :: rest⟩ :: P) =
      contWalkS E valid subs n (goTokS E valid subs plug pre rest s t) (fun new => ⟨(pre ++ new).length, pre ++ new ++ rest⟩ :: P) := by
  match t with
  | .ident m sp => rw [erase_ident]; exact walkNS_leaf hP pre rest s _ (by simp) n
  | .punct c j sp => rw [erase_punct]; exact walkNS_leaf hP pre rest s _ (by simp) n
  | .lit l sp => rw [erase_lit]; exact walkNS_leaf hP pre rest s _ (by simp) n
  | .group d us sp =>
    have h1 : (STok.group d us sp).erase.weight + n = 1 + (Tok.weightL (STok.eraseL us) + (1 + n)) := by simp [Tok.weight]; omega
    rw [h1, walkNS_succ, walkStepS_enter]
    simp only
    have := walkNS_list us (fun x => plug (pre ++ .group d x sp :: rest)) [] s
      (⟨pre.length, pre ++ .group d us sp :: rest⟩ :: P) (1 + n) (by
        intro x
        simp only [SCtx.foldFrames, foldGroupS_mid, PRes.bind_ok, hP])
    simp only [List.nil_append, List.length_nil] at this
    rw [this]
    simp only [goTokS]
    cases goListS E valid subs (fun x => plug (pre ++ .group d x sp :: rest)) [] s us with
    | ok p =>
      obtain ⟨vs, s'⟩ := p
      simp only [contWalkS, PRes.map]
      rw [walkNS_succ, walkStepS_exit]
    | err e => rfl
    | panic => rfl
theorem walkNS_list (ts : SToks σ) (plug : SToks σ → SToks σ) (pre : SToks σ) (s : SubstStateS σ) (P : SCtx σ) (n : Nat)
    (hP : ∀ x, SCtx.foldFrames x P = .ok (plug x)) :
    walkNS E valid subs (Tok.weightL (STok.eraseL ts) + n) s (⟨pre.length, pre ++ ts⟩ :: P) =
      contWalkS E valid subs n (goListS E valid subs plug pre s ts) (fun new => ⟨(pre ++ new).length, pre ++ new⟩ :: P) := by
  match ts with
  | [] => simp [Tok.weightL, goListS, contWalkS]
  | t :: ts =>
    simp only [eraseL_cons, Tok.weightL, Nat.add_assoc]
    rw [walkNS_tok t plug pre ts s P _ hP]
    simp only [goListS]
    cases goTokS E valid subs plug pre ts s t with
    | ok p =>
      obtain ⟨new, s'⟩ := p
      simp only [contWalkS, PRes.bind_ok]
      rw [walkNS_list ts plug (pre ++ new) s' P n hP]
      cases goListS E valid subs plug (pre ++ new) s' ts <;> simp [contWalkS, PRes.map]
    | err e => rfl
    | panic => rfl
end

theorem walkS_eq (ts : SToks σ) : walkS E valid subs ts = (goListS E valid subs id [] none ts).map (·.1) := by
  unfold walkS
  have := walkNS_list (E := E) (valid := valid) (subs := subs) ts id [] none [] 1 (by intro x; rfl)
  simp only [List.nil_append, List.length_nil] at this
  rw [this]
  cases goListS E valid subs id [] none ts with
  | ok p =>
    simp only [contWalkS, walkNS, walkStepS, Nat.le_refl, if_true, PRes.map]
    rfl
  | err e => rfl
  | panic => rfl

/-! ## Without spans -/

theorem SubsS.get_erase (subs : SubsS σ) (n : Str) : subs.erase.get n = (subs.get n).map SVal.erase := by
  induction subs with
  | nil => rfl
  | cons e subs ih =>
    simp only [SubsS.erase, Subs.get, SubsS.get, List.map_cons, List.find?_cons] at ih ⊢
    split
    · rfl
    · exact ih

/-- The state without the span. -/
def SubstStateS.erase (s : SubstStateS σ) : SubstState := s.map fun p => (p.1, p.2.1)

theorem failS_forget {α : Type} (s : SubstStateS σ) : (failS s : PRes σ α).forget = failRes s.erase := by
  cases s <;> rfl

theorem forget_map {α β : Type} (f : α → β) (r : PRes σ α) : (r.map f).forget = r.forget.map f := by cases r <;> rfl

theorem forget_bindS {α β : Type} (f : α → PRes σ β) (r : PRes σ α) : (r.bind f).forget = r.forget.bind (fun a => (f a).forget) := by cases r <;> rfl

theorem visitLeafS_erase (s : SubstStateS σ) (t : STok σ) :
    (visitLeafS E subs s t).1.map STok.eraseL = leafRepl E subs.erase t.erase ∧ (visitLeafS E subs s t).2.erase = leafState E subs.erase s.erase t.erase := by
  match t with
  | .ident n sp =>
    simp only [visitLeafS, erase_ident, leafRepl, leafState, SubsS.get_erase]
    cases subs.get n with
    | none => exact ⟨rfl, rfl⟩
    | some v => simp [erase_toTokens, SubstStateS.erase]
  | .punct c j sp => simp [visitLeafS, leafRepl, leafState]
  | .lit (.str r v) sp => simp [visitLeafS, leafRepl, leafState]
  | .lit (.int r v) sp => simp [visitLeafS, leafRepl, leafState]
  | .lit (.other r) sp => simp [visitLeafS, leafRepl, leafState]
  | .group d us sp => simp [visitLeafS, leafRepl, leafState]

/-- Tokens and state without spans. -/
def eraseP (p : SToks σ × SubstStateS σ) : Toks × SubstState := (STok.eraseL p.1, p.2.erase)

theorem goLeafS_erase {plug : SToks σ → SToks σ} {plug' : Toks → Toks} (hp : ∀ x, STok.eraseL (plug x) = plug' (STok.eraseL x)) (pre rest : SToks σ)
    (s : SubstStateS σ) (t : STok σ) :
    (goLeafS E valid subs plug pre rest s t).forget.map eraseP = goLeaf E valid subs.erase plug' (STok.eraseL pre) (STok.eraseL rest) s.erase t.erase := by
  obtain ⟨h1, h2⟩ := visitLeafS_erase (E := E) (subs := subs) s t
  unfold goLeafS goLeaf
  rw [← h1, ← h2]
  cases hv : visitLeafS E subs s t with
  | mk a s' =>
    have hs : a = none → s'.erase = s.erase := by
      intro ha
      subst ha
      rw [hv] at h1 h2
      simp only [Option.map_none] at h1
      rw [show s'.erase = _ from h2]
      cases ht : t.erase with
      | ident n =>
        rw [ht] at h1
        simp only [leafRepl] at h1
        simp only [leafState]
        cases hg : subs.erase.get n with
        | none => rfl
        | some v => rw [hg] at h1; cases h1
      | _ => rfl
    cases a with
    | none => simp [PRes.forget, Res.map, eraseP, hs rfl]
    | some new =>
      simp only [Option.map_some]
      rw [hp]
      simp only [eraseL_append]
      split
      · rfl
      · rw [failS_forget, failRes_map]

mutual
theorem goTokS_erase (t : STok σ) {plug : SToks σ → SToks σ} {plug' : Toks → Toks} (hp : ∀ x, STok.eraseL (plug x) = plug' (STok.eraseL x))
    (pre rest : SToks σ) (s : SubstStateS σ) :
    (goTokS E valid subs plug pre rest s t).forget.map eraseP = goTok E valid subs.erase plug' (STok.eraseL pre) (STok.eraseL rest) s.erase t.erase := by
  match t with
  | .ident n sp => rw [goTokS, goLeafS_erase hp, erase_ident, goTok]
  | .punct c j sp => rw [goTokS, goLeafS_erase hp, erase_punct, goTok]
  | .lit l sp => rw [goTokS, goLeafS_erase hp, erase_lit, goTok]
  | .group d us sp =>
    have ih := goListS_erase us (plug := fun x => plug (pre ++ .group d x sp :: rest)) (plug' := fun x => plug' (STok.eraseL pre ++ .group d x :: STok.eraseL rest))
      (by intro x; rw [hp]; simp) [] s
    rw [goTokS, erase_group, goTok, ← eraseL_nil (σ := σ), ← ih, forget_map, map_map, map_map]
    congr 1
theorem goListS_erase (ts : SToks σ) {plug : SToks σ → SToks σ} {plug' : Toks → Toks} (hp : ∀ x, STok.eraseL (plug x) = plug' (STok.eraseL x))
    (pre : SToks σ) (s : SubstStateS σ) :
    (goListS E valid subs plug pre s ts).forget.map eraseP = goList E valid subs.erase plug' (STok.eraseL pre) s.erase (STok.eraseL ts) := by
  match ts with
  | [] => simp [goListS, goList, PRes.forget, Res.map, eraseP]
  | t :: ts =>
    have ih1 := goTokS_erase t hp pre ts s
    rw [goListS, eraseL_cons, goList, ← ih1, forget_bindS]
    cases hr : goTokS E valid subs plug pre ts s t with
    | err e sp => rfl
    | panic => rfl
    | ok p =>
      have ih2 := goListS_erase ts hp (pre ++ p.1) p.2
      simp only [PRes.forget, Res.map, Res.bind_ok, eraseP] at ih2 ⊢
      rw [eraseL_append] at ih2
      rw [← ih2]
      cases goListS E valid subs plug (pre ++ p.1) p.2 ts <;> simp [PRes.map, Res.map]
end

theorem substituteIdentsS_erase (node : SToks σ) :
    (substituteIdentsS E valid subs node).forget.map STok.eraseL = substituteIdents E valid subs.erase (STok.eraseL node) := by
  unfold substituteIdentsS substituteIdents
  have h := goListS_erase (E := E) (valid := valid) (subs := subs) node (plug := id) (plug' := id) (by intro x; rfl) [] none
  rw [eraseL_nil] at h
  rw [walkS_eq, walk_eq, Res.bind_eq]
  have he : SubstStateS.erase (none : SubstStateS σ) = none := rfl
  rw [he] at h
  rw [← h]
  cases goListS E valid subs id [] none node with
  | err e sp => rfl
  | panic => rfl
  | ok p =>
    simp only [PRes.map, PRes.bind_ok, PRes.forget, Res.map, eraseP, Res.bind_ok]
    by_cases hv : valid (STok.eraseL p.1) = true
    · simp only [hv, if_true]
    · simp only [hv]; rfl

/-! ## With spans -/

/-- Alias lookup as seen by the specification. -/
def lookS (subs : SubsS σ) (n : Str) : Option (SToks σ) := (subs.get n).map (·.toTokens)

/-- Visitor state after the given occurrences. -/
def stateAfterS (E : Ext) (subs : SubsS σ) (s : SubstStateS σ) (occ : SToks σ) : SubstStateS σ := occ.foldl (fun s t => (visitLeafS E subs s t).2) s

/-- `r` is what checking the streams `f 1, …, f n` in turn leads to. -/
def CheckedS {α : Type} (valid : Toks → Bool) (f : Nat → SToks σ) (st : Nat → SubstStateS σ) (n : Nat) (a : α)
    (r : PRes σ (α × SubstStateS σ)) : Prop :=
  ((∀ k, 1 ≤ k → k ≤ n → valid (STok.eraseL (f k)) = true) ∧ r = .ok (a, st n)) ∨
  (∃ k, 1 ≤ k ∧ k ≤ n ∧ valid (STok.eraseL (f k)) = false ∧ (∀ j, 1 ≤ j → j < k → valid (STok.eraseL (f j)) = true) ∧ r = failS (st k))

theorem failS_map {α β : Type} (s : SubstStateS σ) (f : α → β) : (failS s).map f = failS s := by
  unfold failS; split <;> rfl

theorem failS_bind {α β : Type} (s : SubstStateS σ) (f : α → PRes σ β) : (failS s).bind f = failS s := by
  unfold failS; split <;> rfl

mutual
theorem substFirstTokS_zero (look : Str → Option (SToks σ)) (str : Str → Lit) (t : STok σ) : substFirstTokS look str 0 t = [t] := by
  match t with
  | .ident n sp => simp [substFirstTokS]
  | .punct c j sp => simp [substFirstTokS]
  | .lit (.str r v) sp => simp [substFirstTokS]
  | .lit (.int r v) sp => simp [substFirstTokS]
  | .lit (.other r) sp => simp [substFirstTokS]
  | .group d ts sp => simp [substFirstTokS, substFirstS_zero look str ts]
theorem substFirstS_zero (look : Str → Option (SToks σ)) (str : Str → Lit) (ts : SToks σ) : substFirstS look str 0 ts = ts := by
  match ts with
  | [] => simp [substFirstS]
  | t :: ts => simp [substFirstS, substFirstTokS_zero look str t, substFirstS_zero look str ts]
end

mutual
theorem substFirstTokS_all (look : Str → Option (SToks σ)) (str : Str → Lit) (t : STok σ) (k : Nat) (h : (occTokS look t).length ≤ k) :
    substFirstTokS look str k t = substTokS look str t := by
  match t with
  | .ident n sp =>
    simp only [substFirstTokS, substTokS]
    split
    · rename_i hk
      simp only [occTokS] at h
      cases hl : look n with
      | none => rfl
      | some v => simp [hl] at h; omega
    · rfl
  | .punct c j sp => simp [substFirstTokS, substTokS]
  | .lit (.str r v) sp =>
    simp [occTokS] at h
    simp only [substFirstTokS, substTokS]
    split
    · omega
    · rfl
  | .lit (.int r v) sp => simp [substFirstTokS, substTokS]
  | .lit (.other r) sp => simp [substFirstTokS, substTokS]
  | .group d ts sp => simp only [substFirstTokS, substTokS, substFirstS_all look str ts k (by simpa [occTokS] using h)]
theorem substFirstS_all (look : Str → Option (SToks σ)) (str : Str → Lit) (ts : SToks σ) (k : Nat) (h : (occAllS look ts).length ≤ k) :
    substFirstS look str k ts = substAllS look str ts := by
  match ts with
  | [] => simp [substFirstS, substAllS]
  | t :: ts =>
    simp only [occAllS, List.length_append] at h
    simp only [substFirstS, substAllS, substFirstTokS_all look str t k (by omega), substFirstS_all look str ts (k - (occTokS look t).length) (by omega)]
end

theorem goLeafS_checked (plug : SToks σ → SToks σ) (pre rest : SToks σ) (s : SubstStateS σ) (t : STok σ) (ht : ∀ d us sp, t ≠ .group d us sp) :
    CheckedS valid (fun k => plug (pre ++ substFirstTokS (lookS subs) (strLit E subs.erase) k t ++ rest))
      (fun k => stateAfterS E subs s ((occTokS (lookS subs) t).take k)) (occTokS (lookS subs) t).length
      (substTokS (lookS subs) (strLit E subs.erase) t) (goLeafS E valid subs plug pre rest s t) := by
  have one : ∀ new, (visitLeafS E subs s t).1 = some new → occTokS (lookS subs) t = [t] →
      substTokS (lookS subs) (strLit E subs.erase) t = new → CheckedS valid (fun k => plug (pre ++ substFirstTokS (lookS subs) (strLit E subs.erase) k t ++ rest))
      (fun k => stateAfterS E subs s ((occTokS (lookS subs) t).take k)) (occTokS (lookS subs) t).length
      (substTokS (lookS subs) (strLit E subs.erase) t) (goLeafS E valid subs plug pre rest s t) := by
    intro new h1 h2 h3
    have h4 : substFirstTokS (lookS subs) (strLit E subs.erase) 1 t = new := by
      rw [substFirstTokS_all _ _ _ _ (by simp [h2]), h3]
    unfold goLeafS
    have hv : visitLeafS E subs s t = (some new, (visitLeafS E subs s t).2) := by rw [← h1]
    rw [hv]
    simp only
    by_cases hv : valid (STok.eraseL (plug (pre ++ new ++ rest))) = true
    · refine .inl ⟨?_, ?_⟩
      · intro k hk1 hk2
        rw [h2] at hk2
        have : k = 1 := by simp at hk2; omega
        subst this
        simp only [h4, hv]
      · rw [if_pos hv]; simp [h2, h3, stateAfterS]
    · refine .inr ⟨1, Nat.le_refl _, by simp [h2], ?_, ?_, ?_⟩
      · simpa [h4] using hv
      · intro j h5 h6; omega
      · rw [if_neg hv]; simp [h2, stateAfterS]
  have zero : visitLeafS E subs s t = (none, s) → occTokS (lookS subs) t = [] →
      substTokS (lookS subs) (strLit E subs.erase) t = [t] → CheckedS valid (fun k => plug (pre ++ substFirstTokS (lookS subs) (strLit E subs.erase) k t ++ rest))
      (fun k => stateAfterS E subs s ((occTokS (lookS subs) t).take k)) (occTokS (lookS subs) t).length
      (substTokS (lookS subs) (strLit E subs.erase) t) (goLeafS E valid subs plug pre rest s t) := by
    intro h1 h2 h3
    refine .inl ⟨?_, ?_⟩
    · intro k hk1 hk2; rw [h2] at hk2; simp at hk2; omega
    · simp [goLeafS, h1, h2, h3, stateAfterS]
  match t with
  | .ident n sp =>
    cases hg : subs.get n with
    | none => exact zero (by simp [visitLeafS, hg]) (by simp [occTokS, lookS, hg]) (by simp [substTokS, lookS, hg])
    | some v =>
      exact one v.toTokens (by simp [visitLeafS, hg]) (by simp [occTokS, lookS, hg]) (by simp [substTokS, lookS, hg])
  | .punct c j sp => exact zero rfl (by simp [occTokS]) (by simp [substTokS])
  | .lit (.str r v) sp => exact one _ rfl (by simp [occTokS]) (by simp [substTokS]; rfl)
  | .lit (.int r v) sp => exact zero rfl (by simp [occTokS]) (by simp [substTokS])
  | .lit (.other r) sp => exact zero rfl (by simp [occTokS]) (by simp [substTokS])
  | .group d us sp => exact absurd rfl (ht d us sp)

mutual
theorem goTokS_checked (t : STok σ) (plug : SToks σ → SToks σ) (pre rest : SToks σ) (s : SubstStateS σ) :
    CheckedS valid (fun k => plug (pre ++ substFirstTokS (lookS subs) (strLit E subs.erase) k t ++ rest))
      (fun k => stateAfterS E subs s ((occTokS (lookS subs) t).take k)) (occTokS (lookS subs) t).length
      (substTokS (lookS subs) (strLit E subs.erase) t) (goTokS E valid subs plug pre rest s t) := by
  match t with
  | .ident n sp => rw [goTokS]; exact goLeafS_checked plug pre rest s _ (by simp)
  | .punct c j sp => rw [goTokS]; exact goLeafS_checked plug pre rest s _ (by simp)
  | .lit l sp => rw [goTokS]; exact goLeafS_checked plug pre rest s _ (by simp)
  | .group d us sp =>
    simp only [goTokS, occTokS, substTokS, substFirstTokS]
    rcases goListS_checked us (fun x => plug (pre ++ .group d x sp :: rest)) [] s with ⟨h1, h2⟩ | ⟨k, h1, h2, h3, h4, h5⟩
    · refine .inl ⟨?_, ?_⟩
      · intro k hk1 hk2
        have := h1 k hk1 hk2
        simpa using this
      · simp [h2, PRes.map]
    · refine .inr ⟨k, h1, h2, ?_, ?_, ?_⟩
      · simpa using h3
      · intro j hj1 hj2; simpa using h4 j hj1 hj2
      · rw [h5, failS_map]
theorem goListS_checked (ts : SToks σ) (plug : SToks σ → SToks σ) (pre : SToks σ) (s : SubstStateS σ) :
    CheckedS valid (fun k => plug (pre ++ substFirstS (lookS subs) (strLit E subs.erase) k ts))
      (fun k => stateAfterS E subs s ((occAllS (lookS subs) ts).take k)) (occAllS (lookS subs) ts).length
      (substAllS (lookS subs) (strLit E subs.erase) ts) (goListS E valid subs plug pre s ts) := by
  match ts with
  | [] => exact .inl ⟨by intro k h1 h2; simp [occAllS] at h2; omega, by simp [goListS, occAllS, stateAfterS, substAllS]⟩
  | t :: ts =>
    have hst : ∀ k, k ≤ (occTokS (lookS subs) t).length →
        stateAfterS E subs s ((occAllS (lookS subs) (t :: ts)).take k) = stateAfterS E subs s ((occTokS (lookS subs) t).take k) := by
      intro k hk
      simp only [occAllS]
      rw [List.take_append_of_le_length hk]
    have hst2 : ∀ k, stateAfterS E subs s ((occAllS (lookS subs) (t :: ts)).take ((occTokS (lookS subs) t).length + k)) =
        stateAfterS E subs (stateAfterS E subs s (occTokS (lookS subs) t)) ((occAllS (lookS subs) ts).take k) := by
      intro k
      simp only [occAllS, List.take_length_add_append, stateAfterS, List.foldl_append]
    have hf1 : ∀ k, k ≤ (occTokS (lookS subs) t).length → substFirstS (lookS subs) (strLit E subs.erase) k (t :: ts) =
        substFirstTokS (lookS subs) (strLit E subs.erase) k t ++ ts := by
      intro k hk
      simp only [substFirstS]
      rw [show k - (occTokS (lookS subs) t).length = 0 by omega, substFirstS_zero]
    have hf2 : ∀ k, substFirstS (lookS subs) (strLit E subs.erase) ((occTokS (lookS subs) t).length + k) (t :: ts) =
        substTokS (lookS subs) (strLit E subs.erase) t ++ substFirstS (lookS subs) (strLit E subs.erase) k ts := by
      intro k
      simp only [substFirstS]
      rw [substFirstTokS_all _ _ _ _ (by omega), Nat.add_sub_cancel_left]
    have hlen : (occAllS (lookS subs) (t :: ts)).length = (occTokS (lookS subs) t).length + (occAllS (lookS subs) ts).length := by
      simp [occAllS]
    simp only [goListS]
    rcases goTokS_checked t plug pre ts s with ⟨h1, h2⟩ | ⟨k, h1, h2, h3, h4, h5⟩
    · rw [h2, PRes.bind_ok]
      simp only [List.take_length]
      rcases goListS_checked ts plug (pre ++ substTokS (lookS subs) (strLit E subs.erase) t)
        (stateAfterS E subs s (occTokS (lookS subs) t)) with ⟨g1, g2⟩ | ⟨k, g1, g2, g3, g4, g5⟩
      · refine .inl ⟨?_, ?_⟩
        · intro k hk1 hk2
          by_cases hk : k ≤ (occTokS (lookS subs) t).length
          · have := h1 k hk1 hk
            simpa only [hf1 k hk, List.append_assoc] using this
          · obtain ⟨m, rfl⟩ := Nat.le.dest (Nat.le_of_lt (Nat.lt_of_not_le hk))
            have := g1 m (by omega) (by omega)
            simpa only [hf2 m, List.append_assoc] using this
        · rw [g2]
          simp only [PRes.map, substAllS, List.take_length, hlen, hst2]
      · refine .inr ⟨(occTokS (lookS subs) t).length + k, by omega, by omega, ?_, ?_, ?_⟩
        · simpa only [hf2 k, List.append_assoc] using g3
        · intro j hj1 hj2
          by_cases hk : j ≤ (occTokS (lookS subs) t).length
          · have := h1 j hj1 hk
            simpa only [hf1 j hk, List.append_assoc] using this
          · obtain ⟨m, rfl⟩ := Nat.le.dest (Nat.le_of_lt (Nat.lt_of_not_le hk))
            have := g4 m (by omega) (by omega)
            simpa only [hf2 m, List.append_assoc] using this
        · simp only [g5, failS_map, hst2]
    · rw [h5, failS_bind]
      refine .inr ⟨k, h1, by omega, ?_, ?_, ?_⟩
      · simpa only [hf1 k h2, List.append_assoc] using h3
      · intro j hj1 hj2
        have := h4 j hj1 hj2
        simpa only [hf1 j (by omega), List.append_assoc] using this
      · simp only [hst k h2]
end

/-- The error state names the last alias and where it is. -/
theorem stateAfterS_none (occ : SToks σ) (hocc : ∀ t ∈ occ, ∀ n sp, t = .ident n sp → (subs.get n).isSome) :
    stateAfterS E subs none occ =
      ((occ.filterMap aliasAt).getLast?).map (fun p => (p.1, E.render (STok.eraseL ((lookS subs p.1).getD [])), p.2)) := by
  suffices h : ∀ s, stateAfterS E subs s occ =
      (((occ.filterMap aliasAt).getLast?).map (fun p => (p.1, E.render (STok.eraseL ((lookS subs p.1).getD [])), p.2))).or s by
    rw [h]; simp
  induction occ with
  | nil => intro s; simp [stateAfterS]
  | cons t occ ih =>
    intro s
    have ih := ih (fun u hu => hocc u (List.mem_cons_of_mem _ hu))
    have e : stateAfterS E subs s (t :: occ) = stateAfterS E subs (visitLeafS E subs s t).2 occ := rfl
    rw [e, ih]
    match t with
    | .ident n sp =>
      have := hocc _ List.mem_cons_self n sp rfl
      obtain ⟨v, hv⟩ := Option.isSome_iff_exists.1 this
      simp only [visitLeafS, hv, aliasAt, List.filterMap_cons, List.getLast?_cons]
      cases (occ.filterMap aliasAt).getLast? <;> simp [lookS, hv]
    | .punct c j sp => simp [visitLeafS, aliasAt]
    | .lit (.str r v) sp => simp [visitLeafS, aliasAt]
    | .lit (.int r v) sp => simp [visitLeafS, aliasAt]
    | .lit (.other r) sp => simp [visitLeafS, aliasAt]
    | .group d us sp => simp [visitLeafS, aliasAt]

mutual
theorem occTokS_alias (look : Str → Option (SToks σ)) (t u : STok σ) (h : u ∈ occTokS look t) (n : Str) (sp : σ) (e : u = .ident n sp) :
    (look n).isSome := by
  match t with
  | .ident m sq =>
    simp only [occTokS] at h
    split at h
    · simp at h; subst h; cases e; assumption
    · simp at h
  | .punct c j sq => simp [occTokS] at h
  | .lit (.str r v) sq => simp [occTokS] at h; subst h; cases e
  | .lit (.int r v) sq => simp [occTokS] at h
  | .lit (.other r) sq => simp [occTokS] at h
  | .group d ts sq => exact occAllS_alias look ts u (by simpa [occTokS] using h) n sp e
theorem occAllS_alias (look : Str → Option (SToks σ)) (ts : SToks σ) (u : STok σ) (h : u ∈ occAllS look ts) (n : Str) (sp : σ) (e : u = .ident n sp) :
    (look n).isSome := by
  match ts with
  | [] => simp [occAllS] at h
  | t :: ts =>
    simp only [occAllS, List.mem_append] at h
    rcases h with h | h
    · exact occTokS_alias look t u h n sp e
    · exact occAllS_alias look ts u h n sp e
end

theorem stateAfterS_lastAlias (ts : SToks σ) (k : Nat) :
    stateAfterS E subs none ((occAllS (lookS subs) ts).take k) =
      (lastAliasS (lookS subs) ts k).map (fun p => (p.1, E.render (STok.eraseL ((lookS subs p.1).getD [])), p.2)) := by
  rw [stateAfterS_none]
  · rfl
  · intro t ht n sp e
    have := occAllS_alias _ _ _ (List.mem_of_mem_take ht) n sp e
    simpa [lookS] using this

/-- The outcome of the substitution in a node. -/
theorem substituteIdentsS_spec' (node : SToks σ) (hn : valid (STok.eraseL node) = true) :
    ((∀ k, k ≤ (occAllS (lookS subs) node).length → valid (STok.eraseL (substFirstS (lookS subs) (strLit E subs.erase) k node)) = true) ∧
      substituteIdentsS E valid subs node = .ok (substAllS (lookS subs) (strLit E subs.erase) node)) ∨
    ∃ k, 1 ≤ k ∧ k ≤ (occAllS (lookS subs) node).length ∧
      valid (STok.eraseL (substFirstS (lookS subs) (strLit E subs.erase) k node)) = false ∧
      (∀ j, j < k → valid (STok.eraseL (substFirstS (lookS subs) (strLit E subs.erase) j node)) = true) ∧
      substituteIdentsS E valid subs node = match lastAliasS (lookS subs) node k with
        | some (n, sp) => .err (.substitution n (E.render (STok.eraseL ((lookS subs n).getD [])))) sp
        | none => .panic := by
  unfold substituteIdentsS
  rw [walkS_eq]
  rcases goListS_checked (E := E) (valid := valid) (subs := subs) node id [] none with ⟨h1, h2⟩ | ⟨k, h1, h2, h3, h4, h5⟩
  · left
    have hall : ∀ k, k ≤ (occAllS (lookS subs) node).length → valid (STok.eraseL (substFirstS (lookS subs) (strLit E subs.erase) k node)) = true := by
      intro k hk
      by_cases h0 : k = 0
      · rw [h0, substFirstS_zero]; exact hn
      · simpa using h1 k (by omega) hk
    refine ⟨hall, ?_⟩
    rw [h2]
    simp only [PRes.map, PRes.bind_ok]
    have hv := hall _ (Nat.le_refl _)
    rw [substFirstS_all _ _ _ _ (Nat.le_refl _)] at hv
    rw [if_pos hv]
  · right
    refine ⟨k, h1, h2, by simpa using h3, fun j hj => ?_, ?_⟩
    · by_cases h0 : j = 0
      · rw [h0, substFirstS_zero]; exact hn
      · simpa using h4 j (by omega) hj
    · rw [h5, failS_map, failS_bind]
      simp only [stateAfterS_lastAlias]
      cases lastAliasS (lookS subs) node k <;> rfl

theorem substituteIdentsS_spec (node : SToks σ) (hn : valid (STok.eraseL node) = true) :
    (substituteIdentsS E valid subs node = .ok (substAllS (lookS subs) (strLit E subs.erase) node)) ∨
    ∃ k, 1 ≤ k ∧ k ≤ (occAllS (lookS subs) node).length ∧
      valid (STok.eraseL (substFirstS (lookS subs) (strLit E subs.erase) k node)) = false ∧
      (∀ j, j < k → valid (STok.eraseL (substFirstS (lookS subs) (strLit E subs.erase) j node)) = true) ∧
      substituteIdentsS E valid subs node = match lastAliasS (lookS subs) node k with
        | some (n, sp) => .err (.substitution n (E.render (STok.eraseL ((lookS subs n).getD [])))) sp
        | none => .panic :=
  (substituteIdentsS_spec' node hn).imp_left And.right

/-- The tokens without spans. -/
theorem lookS_erase (subs : SubsS σ) (n : Str) : (lookS subs n).map STok.eraseL = lookToks subs.erase n := by
  simp only [lookS, lookToks, SubsS.get_erase, Option.map_map]
  cases subs.get n <;> simp [erase_toTokens]

mutual
theorem occTokS_erase (t : STok σ) : (occTokS (lookS subs) t).map STok.erase = occTok (lookToks subs.erase) t.erase := by
  match t with
  | .ident n sp =>
    simp only [occTokS, erase_ident, occTok, ← lookS_erase]
    cases lookS subs n <;> simp
  | .punct c j sp => simp [occTokS, occTok]
  | .lit (.str r v) sp => simp [occTokS, occTok]
  | .lit (.int r v) sp => simp [occTokS, occTok]
  | .lit (.other r) sp => simp [occTokS, occTok]
  | .group d ts sp => simpa only [occTokS, erase_group, occTok] using occAllS_erase ts
theorem occAllS_erase (ts : SToks σ) : (occAllS (lookS subs) ts).map STok.erase = occAll (lookToks subs.erase) (STok.eraseL ts) := by
  match ts with
  | [] => simp [occAllS, occAll]
  | t :: ts => simp only [occAllS, List.map_append, eraseL_cons, occAll, occTokS_erase t, occAllS_erase ts]
end

mutual
theorem substFirstTokS_erase (str : Str → Lit) (k : Nat) (t : STok σ) :
    STok.eraseL (substFirstTokS (lookS subs) str k t) = substFirstTok (lookToks subs.erase) str k t.erase := by
  match t with
  | .ident n sp =>
    simp only [substFirstTokS, erase_ident, substFirstTok, ← lookS_erase]
    split
    · simp
    · cases lookS subs n <;> simp
  | .punct c j sp => simp [substFirstTokS, substFirstTok]
  | .lit (.str r v) sp => simp only [substFirstTokS, erase_lit, substFirstTok]; split <;> simp
  | .lit (.int r v) sp => simp [substFirstTokS, substFirstTok]
  | .lit (.other r) sp => simp [substFirstTokS, substFirstTok]
  | .group d ts sp => simp [substFirstTokS, substFirstTok, substFirstS_erase str k ts]
theorem substFirstS_erase (str : Str → Lit) (k : Nat) (ts : SToks σ) :
    STok.eraseL (substFirstS (lookS subs) str k ts) = substFirst (lookToks subs.erase) str k (STok.eraseL ts) := by
  match ts with
  | [] => simp [substFirstS, substFirst]
  | t :: ts =>
    have h := congrArg List.length (occTokS_erase (subs := subs) t)
    rw [List.length_map] at h
    simp only [substFirstS, eraseL_append, eraseL_cons, substFirst, substFirstTokS_erase str k t, substFirstS_erase str _ ts, h]
end

mutual
theorem mem_spansTok_subst (str : Str → Lit) {t : STok σ} {sp : σ} (h : sp ∈ spans (substTokS (lookS subs) str t)) :
    sp ∈ spansTok t ∨ ∃ n v, subs.get n = some v ∧ sp ∈ spans v.toTokens := by
  match t with
  | .ident n sq =>
    simp only [substTokS, lookS] at h
    cases hg : subs.get n with
    | none => rw [hg] at h; left; simpa [spans, spansTok] using h
    | some v => rw [hg] at h; right; exact ⟨n, v, hg, h⟩
  | .punct c j sq => left; simpa [substTokS, spans] using h
  | .lit (.str r v) sq => left; simpa [substTokS, spans, spansTok] using h
  | .lit (.int r v) sq => left; simpa [substTokS, spans] using h
  | .lit (.other r) sq => left; simpa [substTokS, spans] using h
  | .group d ts sq =>
    simp only [substTokS, spans, spansTok, List.append_nil, List.mem_cons] at h ⊢
    rcases h with h | h
    · exact .inl (.inl h)
    · rcases mem_spans_subst str h with h | h
      · exact .inl (.inr h)
      · exact .inr h
theorem mem_spans_subst (str : Str → Lit) {ts : SToks σ} {sp : σ} (h : sp ∈ spans (substAllS (lookS subs) str ts)) :
    sp ∈ spans ts ∨ ∃ n v, subs.get n = some v ∧ sp ∈ spans v.toTokens := by
  match ts with
  | [] => simp [substAllS, spans] at h
  | t :: ts =>
    simp only [substAllS, spans_append, List.mem_append] at h
    simp only [spans, List.mem_append]
    rcases h with h | h
    · rcases mem_spansTok_subst str h with h | h
      · exact .inl (.inl h)
      · exact .inr h
    · rcases mem_spans_subst str h with h | h
      · exact .inl (.inr h)
      · exact .inr h
end

end Verif
