import Verif.Proofs.ParseForms
import Verif.Spec.Faults
/-! # The parser finds exactly the mistakes of `Verif.Spec.Faults` -/

namespace Verif
open Spec

namespace D
variable {α β : Type}

/-- The parser which does not say why it fails. -/
def forget (x : D α) : P α := fun ts k =>
  match x ts k with
  | (.ok a r, k') => (.ok (a, r), k')
  | (.err _ _, k') => (.err .parse, k')
  | (.panic, k') => (.panic, k')

@[simp] theorem forget_bind (x : D α) (f : α → D β) : (x >>= f).forget = x.forget >>= fun a => (f a).forget := by
  funext ts k
  show D.forget (D.bind x f) ts k = P.bind x.forget _ ts k
  unfold P.bind
  simp only [forget, D.bind]
  rcases x ts k with ⟨⟨a, r⟩ | _ | _, k'⟩ <;> rfl

@[simp] theorem forget_pure (a : α) : (pure a : D α).forget = pure a := rfl
@[simp] theorem forget_fail (w : Why) : (D.fail w : D α).forget = P.fail .parse := rfl
@[simp] theorem forget_panic : (D.panic : D α).forget = P.panic := rfl
@[simp] theorem forget_look : D.look.forget = P.look := rfl
@[simp] theorem forget_fresh (ids : Nat → Nat) : (D.fresh ids).forget = P.fresh ids := rfl
@[simp] theorem forget_ite (c : Prop) [Decidable c] (x y : D α) : (if c then x else y).forget = if c then x.forget else y.forget := by
  split <;> rfl

@[simp] theorem forget_within (c : Toks) (x : D α) : (D.within c x).forget = P.within c x.forget := by
  funext ts k
  unfold forget D.within P.within
  simp only
  rcases x c k with ⟨⟨a, _ | _⟩ | _ | _, k'⟩ <;> rfl

/-- The only error is a parse error. -/
def OnlyParse (x : P α) : Prop := ∀ ts k e k', x ts k = (.err e, k') → e = .parse

theorem forget_of {w : Toks → Why} {x : P α} (h : OnlyParse x) : (D.of w x).forget = x := by
  funext ts k
  unfold forget D.of
  rcases hx : x ts k with ⟨⟨a, r⟩ | e | _, k'⟩ <;> simp
  exact (h _ _ _ _ hx).symm

theorem onlyParse_of_exact {τ : Type} {ids : Nat → Nat} {R : Toks → α → Toks → Prop} {er : α → τ} {f} {x : P α}
    (h : ∀ d, Exact ids d R er f x) : OnlyParse x :=
  fun ts k _ _ hx => ((h (nestL ts) ts k (Nat.le_refl _)).of_err hx).parse

theorem onlyParse_punct (c : Char) : OnlyParse (parsePunct c) := by
  intro ts k e k' h
  unfold parsePunct at h
  split at h
  · split at h <;> simp_all
  · simp_all

theorem onlyParse_kw (s : Str) : OnlyParse (parseKw s) := by
  intro ts k e k' h
  unfold parseKw at h
  split at h
  · split at h <;> simp_all
  · simp_all

theorem onlyParse_group (d : Delim) : OnlyParse (parseGroup d) := by
  intro ts k e k' h
  unfold parseGroup at h
  split at h
  · split at h <;> simp_all
  · simp_all

theorem onlyParse_sep : OnlyParse parseSep := by
  intro ts k e k' h
  unfold parseSep at h
  split at h
  · split at h
    · simp_all
    · split at h <;> simp_all
  · simp_all

/-- `x` fails with `w` at `r`. -/
def Faults (x : D α) (ts : Toks) (k : Nat) (w : Why) (r : Toks) : Prop := ∃ k', x ts k = (.err w r, k')

variable {ts : Toks} {k : Nat} {w : Why} {r : Toks}

@[simp] theorem faults_bind {x : D α} {f : α → D β} : (x >>= f).Faults ts k w r ↔
    x.Faults ts k w r ∨ ∃ a r' k', x ts k = (.ok a r', k') ∧ (f a).Faults r' k' w r := by
  show D.Faults (D.bind x f) ts k w r ↔ _
  unfold Faults D.bind
  rcases x ts k with ⟨⟨a, r'⟩ | ⟨w', r'⟩ | _, k'⟩
  · simp only [Prod.mk.injEq, reduceCtorEq, false_and, exists_false, false_or, DRes.ok.injEq]
    constructor
    · intro h; exact ⟨a, r', k', ⟨⟨rfl, rfl⟩, rfl⟩, h⟩
    · rintro ⟨_, _, _, ⟨⟨rfl, rfl⟩, rfl⟩, h⟩; exact h
  · simp
  · simp

@[simp] theorem faults_pure {a : α} : (pure a : D α).Faults ts k w r ↔ False := by
  constructor
  · rintro ⟨k', h⟩; cases h
  · exact False.elim
@[simp] theorem faults_fail {v : Why} : (D.fail v : D α).Faults ts k w r ↔ w = v ∧ r = ts := by
  unfold Faults D.fail
  simp [eq_comm]
@[simp] theorem faults_look : D.look.Faults ts k w r ↔ False := by simp [Faults, D.look]
@[simp] theorem faults_fresh {ids : Nat → Nat} : (D.fresh ids).Faults ts k w r ↔ False := by simp [Faults, D.fresh]
@[simp] theorem faults_panic : (D.panic : D α).Faults ts k w r ↔ False := by simp [Faults, D.panic]
@[simp] theorem faults_ite {c : Prop} [Decidable c] {x y : D α} : (if c then x else y).Faults ts k w r ↔
    (c ∧ x.Faults ts k w r) ∨ (¬ c ∧ y.Faults ts k w r) := by
  split <;> simp [*]
theorem ok_bind {x : D α} {f : α → D β} {b : β} {k' : Nat} : (x >>= f) ts k = (.ok b r, k') ↔
    ∃ a r1 k1, x ts k = (.ok a r1, k1) ∧ f a r1 k1 = (.ok b r, k') := by
  show D.bind x f ts k = _ ↔ _
  unfold D.bind
  rcases x ts k with ⟨⟨a, r'⟩ | ⟨w', r'⟩ | _, k1⟩
  · simp only [Prod.mk.injEq, DRes.ok.injEq]
    constructor
    · intro h; exact ⟨a, r', k1, ⟨⟨rfl, rfl⟩, rfl⟩, h⟩
    · rintro ⟨_, _, _, ⟨⟨rfl, rfl⟩, rfl⟩, h⟩; exact h
  · simp
  · simp

theorem look_bind {f : Toks → D β} : (D.look >>= f).Faults ts k w r ↔ (f ts).Faults ts k w r := Iff.rfl
theorem fresh_bind {ids : Nat → Nat} {f : Nat → D β} : (D.fresh ids >>= f).Faults ts k w r ↔ (f (ids k)).Faults ts (k + 1) w r := Iff.rfl
@[simp] theorem ok_look {a r'} {k' : Nat} : D.look ts k = (.ok a r', k') ↔ a = ts ∧ r' = ts ∧ k' = k := by
  simp [D.look, eq_comm, and_assoc]
@[simp] theorem ok_fresh {ids : Nat → Nat} {a r'} {k' : Nat} : D.fresh ids ts k = (.ok a r', k') ↔ a = ids k ∧ r' = ts ∧ k' = k + 1 := by
  simp [D.fresh, eq_comm, and_assoc]
@[simp] theorem ok_pure {a b : α} {r'} {k' : Nat} : (pure a : D α) ts k = (.ok b r', k') ↔ b = a ∧ r' = ts ∧ k' = k := by
  show ((DRes.ok a ts, k) = (DRes.ok b r', k')) ↔ _
  simp [eq_comm, and_assoc]
@[simp] theorem ok_fail {v : Why} {b : α} {r'} {k' : Nat} : (D.fail v : D α) ts k = (.ok b r', k') ↔ False := by
  simp [D.fail]

theorem faults_of {v : Toks → Why} {x : P α} : (D.of v x).Faults ts k w r ↔ (∃ e k', x ts k = (.err e, k')) ∧ w = v ts ∧ r = ts := by
  unfold Faults D.of
  rcases x ts k with ⟨⟨a, r'⟩ | e | _, k'⟩ <;> simp [eq_comm]

@[simp] theorem ok_of {v : Toks → Why} {x : P α} {a r'} {k' : Nat} : D.of v x ts k = (.ok a r', k') ↔ x ts k = (.ok (a, r'), k') := by
  unfold D.of
  rcases x ts k with ⟨⟨a, r'⟩ | e | _, k'⟩ <;> simp

theorem ok_forget {x : D α} {a r'} {k' : Nat} : x ts k = (.ok a r', k') ↔ x.forget ts k = (.ok (a, r'), k') := by
  unfold forget
  rcases x ts k with ⟨⟨a, r'⟩ | e | _, k'⟩ <;> simp

/-- A parser that succeeds on exactly the readings, for what follows. -/
theorem oks_iff {τ : Type} {ids : Nat → Nat} {d : Nat} {R : Toks → α → Toks → Prop} {er : α → τ} {f} {y : P α} (he : Exact ids d R er f y)
    (hd : nestL ts ≤ d) {Φ : α → Toks → Nat → Prop} {Ψ : α → Toks → Prop}
    (h : ∀ a r k', After ts r → R ts a r → (Φ a r k' ↔ Ψ a r)) (hΨ : ∀ a a' r, er a = er a' → Ψ a r → Ψ a' r) :
    (∃ a r k', y ts k = (.ok (a, r), k') ∧ Φ a r k') ↔ ∃ a r, R ts a r ∧ Ψ a r := by
  constructor
  · rintro ⟨a, r, k', hx, h1⟩
    have g := (he ts k hd).of_ok hx
    exact ⟨a, r, g.reads, (h _ _ _ g.suf g.reads).mp h1⟩
  · rintro ⟨a, r, h1, h2⟩
    rcases (he ts k hd).cases with ⟨a', r', k', hx, g⟩ | ⟨e, k', hx, b⟩
    · obtain ⟨rfl, h3⟩ := g.uniq _ _ h1
      exact ⟨a', r, k', hx, (h _ _ _ g.suf g.reads).mpr (hΨ _ _ _ h3 h2)⟩
    · exact (b.none _ _ h1).elim

/-- A parser that fails if there is no reading. -/
theorem errs_iff {τ : Type} {ids : Nat → Nat} {d : Nat} {R : Toks → α → Toks → Prop} {er : α → τ} {f} {y : P α} (he : Exact ids d R er f y)
    (hd : nestL ts ≤ d) : (∃ e k', y ts k = (.err e, k')) ↔ ∀ a r, ¬ R ts a r := by
  rcases (he ts k hd).cases with ⟨a', r', k', hx, g⟩ | ⟨e, k', hx, b⟩
  · simp only [hx]
    constructor
    · rintro ⟨e, k', h⟩; cases h
    · intro h; exact (h _ _ g.reads).elim
  · simp only [hx]
    exact ⟨fun _ => b.none, fun _ => ⟨_, _, rfl⟩⟩

theorem faults_within {c : Toks} {x : D α} : (D.within c x).Faults ts k w r ↔ x.Faults c k w r ∨
    ∃ a t r' k', x c k = (.ok a (t :: r'), k') ∧ w = .leftOver ∧ r = t :: r' := by
  unfold Faults D.within
  rcases x c k with ⟨⟨a, _ | _⟩ | e | _, k'⟩ <;> simp
  · constructor
    · rintro ⟨rfl, rfl⟩; exact ⟨a, _, _, ⟨rfl, rfl, rfl⟩, rfl, rfl⟩
    · rintro ⟨_, _, _, ⟨rfl, rfl, rfl⟩, rfl, rfl⟩; exact ⟨rfl, rfl⟩

theorem ok_punct {c : Char} {u : Unit} {r'} {k' : Nat} : parsePunct c ts k = (.ok (u, r'), k') ↔ (∃ j, ts = .punct c j :: r') ∧ k' = k := by
  unfold parsePunct
  rcases ts with _ | ⟨n | ⟨d, j⟩ | _ | _, ts⟩ <;> simp
  by_cases h : d = c <;> simp [h, eq_comm]

theorem err_punct {c : Char} : (∃ e k', parsePunct c ts k = (.err e, k')) ↔ ∀ j r, ts ≠ .punct c j :: r := by
  unfold parsePunct
  rcases ts with _ | ⟨n | ⟨d, j⟩ | _ | _, ts⟩ <;> simp
  by_cases h : d = c <;> simp [h]

theorem ok_kw {s : Str} {u : Unit} {r'} {k' : Nat} : parseKw s ts k = (.ok (u, r'), k') ↔ ts = .ident s :: r' ∧ k' = k := by
  unfold parseKw
  rcases ts with _ | ⟨n | ⟨d, j⟩ | _ | _, ts⟩ <;> simp
  by_cases h : n = s <;> simp [h, eq_comm]

theorem err_kw {s : Str} : (∃ e k', parseKw s ts k = (.err e, k')) ↔ ∀ r, ts ≠ .ident s :: r := by
  unfold parseKw
  rcases ts with _ | ⟨n | ⟨d, j⟩ | _ | _, ts⟩ <;> simp
  by_cases h : n = s <;> simp [h]

theorem ok_group {d : Delim} {c r'} {k' : Nat} : parseGroup d ts k = (.ok (c, r'), k') ↔ First ts (.group d c) r' ∧ k' = k := by
  rw [first_iff]
  unfold parseGroup
  split
  · rename_i d' c' ts' h
    rw [h]
    by_cases hd : d' = d
    · simp [hd, eq_comm, and_assoc]
    · have : ¬ d = d' := fun e => hd e.symm
      simp [hd]
  · rename_i h
    constructor
    · intro h'; simp at h'
    · rintro ⟨h', -⟩; exact (h _ _ _ h').elim

theorem err_group {d : Delim} : (∃ e k', parseGroup d ts k = (.err e, k')) ↔ ∀ c r, ¬ First ts (.group d c) r := by
  simp only [first_iff]
  unfold parseGroup
  split
  · rename_i d' c' ts' h
    rw [h]
    by_cases hd : d' = d <;> simp [hd]
  · rename_i h
    simp only [Prod.mk.injEq, Res.err.injEq]
    refine ⟨fun _ c r h' => (h _ _ _ h').elim, fun _ => ⟨_, _, rfl, rfl⟩⟩

end D

open D

/-! ## Both versions of the parser agree -/

theorem forget_terminatedLoop {α : Type} {x : D α} {y : P α} (h : x.forget = y) (n : Nat) :
    (dTerminatedLoop x n).forget = parseTerminatedLoop y n := by
  induction n with
  | zero => rfl
  | succ n ih => simp [dTerminatedLoop, parseTerminatedLoop, h, ih, forget_of (onlyParse_punct ',')]

theorem forget_terminated {α : Type} {x : D α} {y : P α} (h : x.forget = y) : (dTerminated x).forget = parseTerminated y := by
  funext ts k
  exact congrFun (congrFun (forget_terminatedLoop h (tokCount ts + 1)) ts) k

section
variable (Y : Syn) (known : Str → Bool) (ids : Nat → Nat)

theorem onlyParse_alias : OnlyParse (parseAlias ids) := onlyParse_of_exact (parseAlias_exact ids)
theorem onlyParse_E : OnlyParse (parseE Y known ids) := onlyParse_of_exact (parseE_exact Y known ids)
theorem onlyParse_loopAlias : OnlyParse (parseLoopElem ids (parseAlias ids)) :=
  onlyParse_of_exact (parseLoopElem_exact fun d => parseAlias_exact ids d)
theorem onlyParse_loopValue : OnlyParse (parseLoopElem ids (parseE Y known ids)) :=
  onlyParse_of_exact (parseLoopElem_exact fun d => parseE_exact Y known ids d)

theorem forget_item : (dItem Y known ids).forget = parseItem Y known ids := by
  simp [dItem, parseItem, dAliasValue, parseAliasValue, forget_of (onlyParse_punct '='), forget_of (onlyParse_alias ids),
    forget_of (onlyParse_E Y known ids)]

theorem forget_items (n : Nat) : ∀ used, (dItems Y known ids n used).forget = parseItems Y known ids n used := by
  induction n with
  | zero => intro _; rfl
  | succ n ih =>
    intro used
    simp [dItems, parseItems, forget_item, ih, forget_of onlyParse_sep]

theorem forget_spec : (dSpec Y known ids).forget = parseSpec Y known ids := by
  simp [dSpec, parseSpec, forget_items]

theorem forget_loop : (dLoop Y known ids).forget = parseLoop Y known ids := by
  simp [dLoop, parseLoop, forget_of (onlyParse_kw _), forget_of (onlyParse_loopAlias ids), forget_of (onlyParse_group _),
    forget_terminated (forget_of (onlyParse_loopValue Y known ids))]

theorem forget_loopList (n : Nat) : (dLoopList Y known ids n).forget = parseLoopList Y known ids n := by
  induction n with
  | zero => rfl
  | succ n ih => simp [dLoopList, parseLoopList, forget_loop, ih]

theorem forget_loops : (dLoops Y known ids).forget = parseLoops Y known ids := by
  simp [dLoops, parseLoops, forget_loopList]

theorem forget_optLoops : (dOptLoops Y known ids).forget = parseOptLoops Y known ids := by
  simp [dOptLoops, parseOptLoops, forget_loops]

theorem forget_optSpec : (dOptSpec Y known ids).forget = parseOptSpec Y known ids := by
  simp [dOptSpec, parseOptSpec, forget_spec]

theorem forget_header : (dHeader Y known ids).forget = parseHeader Y known ids := by
  simp [dHeader, parseHeader, forget_optLoops, forget_optSpec]

/-! ## Mistakes in definitions -/

theorem readsExpr_exists (ts : Toks) : ∃ e r, ReadsExpr known Y ts e r := by
  rcases (parseE_ok Y known (fun k => k) ts 0).cases with ⟨e, r, k', -, g⟩ | ⟨_, _, _, h⟩
  · exact ⟨e, r, g.reads⟩
  · exact h.elim

theorem faults_aliasValue {mid : Toks} {k : Nat} {w : Why} {r : Toks} : (dAliasValue Y known ids).Faults mid k w r ↔
    ∃ e t r2, ReadsExpr known Y mid e (t :: r2) ∧ (∀ b, ¬ IsSep b t) ∧ w = .separator ∧ r = t :: r2 := by
  have e2 : ¬ ∃ e k2, parseE Y known ids mid k = (.err e, k2) := by
    rintro ⟨e, k2, h⟩
    exact (parseE_ok Y known ids mid k).of_err h
  rw [dAliasValue, faults_bind, faults_of]
  simp only [ok_of, e2, false_and, false_or]
  rw [oks_iff (parseE_exact Y known ids (nestL mid)) (Nat.le_refl _)
    (Ψ := fun _ r2 => (∃ t r3, r2 = t :: r3 ∧ ∀ b, ¬ IsSep b t) ∧ w = .separator ∧ r = r2) ?_ (fun _ _ _ _ h => h)]
  · constructor
    · rintro ⟨e, _, h1, ⟨t, r3, rfl, h2⟩, h3, h4⟩; exact ⟨e, t, r3, h1, h2, h3, h4⟩
    · rintro ⟨e, t, r3, h1, h2, h3, h4⟩; exact ⟨e, _, h1, ⟨t, r3, rfl, h2⟩, h3, h4⟩
  · intro e rest k2 _ _
    have hsep : (¬ (rest.isEmpty || peekPunct ',' rest || peekPunct ';' rest) = true) ↔ ∃ t r3, rest = t :: r3 ∧ ∀ b, ¬ IsSep b t := by
      rw [sepNext_iff]
      cases rest with
      | nil => simp
      | cons t r3 => simp
    rw [look_bind, ← hsep]
    simp

theorem faults_item {ts : Toks} {k : Nat} (hf : ∃ n r, First ts (.ident n) r ∧ n ∉ keywords) {w : Why} {r : Toks} :
    (dItem Y known ids).Faults ts k w r ↔ ItemFault known Y ts w r := by
  obtain ⟨n, r1, hf, hn⟩ := hf
  have e1 : ¬ ∃ e k', parseAlias ids ts k = (.err e, k') := by
    rw [errs_iff (parseAlias_exact ids (nestL ts)) (Nat.le_refl _)]
    intro h
    exact h _ _ (.mk 0 hf hn)
  simp only [dItem, faults_bind, faults_of, ok_of, e1, false_and, false_or]
  rw [oks_iff (parseAlias_exact ids (nestL ts)) (Nat.le_refl _) (Ψ := fun _ r' => r' = r1 ∧ ItemFault known Y ts w r) ?_ (fun _ _ _ _ h => h)]
  · constructor
    · rintro ⟨_, _, _, _, h⟩; exact h
    · intro h; exact ⟨_, _, .mk 0 hf hn, rfl, h⟩
  · rintro ⟨aid, n'⟩ r2 k1 hs hr
    cases hr with
    | mk _ hf' hn' =>
      obtain ⟨e, rfl⟩ := hf.unique hf'
      cases e
      simp only [err_punct, true_and, ok_punct, faults_fresh, faults_pure, or_false, and_false, exists_false]
      constructor
      · rintro (⟨h, rfl, rfl⟩ | ⟨_, mid, _, ⟨⟨j, rfl⟩, rfl⟩, h⟩)
        · exact .equals hf hn h
        · obtain ⟨e, t, r2, h1, h2, rfl, rfl⟩ := (faults_aliasValue Y known ids).mp h
          exact .separator hf hn h1 h2
      · intro h
        cases h with
        | equals ha _ he =>
          obtain ⟨-, rfl⟩ := hf.unique ha
          exact .inl ⟨he, rfl, rfl⟩
        | separator ha _ h1 ht =>
          obtain ⟨-, rfl⟩ := hf.unique ha
          exact .inr ⟨(), _, _, ⟨⟨_, rfl⟩, rfl⟩, (faults_aliasValue Y known ids).mpr ⟨_, _, _, h1, ht, rfl, rfl⟩⟩

theorem ok_sep {ts : Toks} {k : Nat} {b : Bool} {r : Toks} {k' : Nat} : parseSep ts k = (.ok (b, r), k') ↔ (∃ t, ts = t :: r ∧ IsSep b t) ∧ k' = k := by
  constructor
  · intro h
    have := (wp_parseSep (ts := ts) (k := k) (Q := fun b r k' => (∃ t, ts = t :: r ∧ IsSep b t) ∧ k' = k) (E := fun _ _ => True)
      (fun b t r e hs => ⟨⟨t, e, hs⟩, rfl⟩) (fun _ => trivial)).of_ok h
    exact this
  · rintro ⟨⟨t, rfl, h⟩, rfl⟩
    cases h <;> rfl

theorem err_sep {ts : Toks} {k : Nat} : (∃ e k', parseSep ts k = (.err e, k')) ↔ ∀ b t r, ts = t :: r → ¬ IsSep b t := by
  constructor
  · rintro ⟨e, k', h⟩
    rintro b t r rfl hs
    rw [ok_sep.mpr ⟨⟨t, rfl, hs⟩, rfl⟩] at h
    cases h
  · intro h
    rcases (wp_parseSep (ts := ts) (k := k) (Q := fun _ _ _ => False) (E := fun _ _ => True)
      (fun b t r e hs => h b t r e hs) (fun _ => trivial)).cases with ⟨_, _, _, _, h⟩ | ⟨e, k', h, _⟩
    · exact h.elim
    · exact ⟨e, k', h⟩

theorem mixes_iff {b : Option Bool} {c : Bool} : mixes b c = true ↔ ∃ b', b = some b' ∧ c ≠ b' := by
  cases b with
  | none => simp [mixes]
  | some b' => cases b' <;> cases c <;> simp [mixes]

theorem item_shorter {ts i r} (h : ReadsItem known Y ts i r) : tokCount r < tokCount ts := by
  cases h with
  | mk _ _ _ ha _ h _ =>
    have h2 := (readsExpr_after h).count
    have h3 := ha.after_rest.count
    have h4 := Nat.le_trans tokCount_cons h3
    omega

theorem faults_items (n : Nat) : ∀ used ts k, tokCount ts < n → (∃ n r, First ts (.ident n) r ∧ n ∉ keywords) → ∀ {w : Why} {r : Toks},
    (dItems Y known ids n used).Faults ts k w r ↔ ItemsFault known Y used ts w r := by
  induction n with
  | zero => intro _ _ _ h; omega
  | succ n ih =>
    intro used ts k hn hf w r
    rw [dItems, faults_bind, faults_item Y known ids hf]
    simp only [ok_forget, forget_item]
    rw [oks_iff (parseItem_exact Y known ids (nestL ts)) (Nat.le_refl _)
      (Ψ := fun _ rest => ∃ t r1 c, rest = t :: r1 ∧ IsSep c t ∧
        ((∃ b, used = some b ∧ c ≠ b ∧ w = .mixed ∧ r = r1) ∨
          ((used = none ∨ used = some c) ∧ (∃ n r', First r1 (.ident n) r' ∧ n ∉ keywords) ∧ ItemsFault known Y (some c) r1 w r)))
      ?_ (fun _ _ _ _ h => h)]
    · constructor
      · rintro (h | ⟨i, _, hi, t, r1, c, rfl, hs, (⟨b, rfl, hc, rfl, rfl⟩ | ⟨hb, ⟨m, r', hm, hm'⟩, hr⟩)⟩)
        · exact .here h
        · exact .mixed hi hs hc
        · exact .later hi hs hb hm hm' hr
      · intro h
        cases h with
        | here h => exact .inl h
        | mixed h hs hc => exact .inr ⟨_, _, h, _, _, _, rfl, hs, .inl ⟨_, rfl, hc, rfl, rfl⟩⟩
        | later h hs hb hm hm' hr => exact .inr ⟨_, _, h, _, _, _, rfl, hs, .inr ⟨hb, ⟨_, _, hm, hm'⟩, hr⟩⟩
    · intro i rest k1 _ hi
      have hlen := item_shorter Y known hi
      rw [look_bind]
      cases rest with
      | nil => simp
      | cons t r1 =>
        simp only [List.isEmpty_cons, Bool.false_eq_true, if_false]
        rw [faults_bind, faults_of, err_sep]
        simp only [ok_of, ok_sep]
        obtain ⟨c, hs⟩ : ∃ c, IsSep c t := by
          cases hi with
          | mk _ _ _ _ _ _ he =>
            rcases he with he | ⟨b, t', r', he, hs⟩
            · cases he
            · cases he; exact ⟨b, hs⟩
        have tail : (if mixes used c = true then do
                D.fail Why.mixed
                let __do_lift ← look
                if (!peekIdent __do_lift) = true then pure ([i], some (used.getD c))
                  else do
                    let __x ← dItems Y known ids n (some (used.getD c))
                    pure (i :: __x.fst, __x.snd)
              else do
                let __do_lift ← look
                if (!peekIdent __do_lift) = true then pure ([i], some (used.getD c))
                  else do
                    let __x ← dItems Y known ids n (some (used.getD c))
                    pure (i :: __x.fst, __x.snd)).Faults r1 k1 w r ↔
            ((∃ b, used = some b ∧ c ≠ b ∧ w = Why.mixed ∧ r = r1) ∨ (used = none ∨ used = some c) ∧
              (∃ n r', First r1 (Tok.ident n) r' ∧ ¬n ∈ keywords) ∧ ItemsFault known Y (some c) r1 w r) := by
          cases hm : mixes used c with
          | true =>
            obtain ⟨b, rfl, hb⟩ := mixes_iff.mp hm
            simp only [if_true, faults_bind, faults_fail, ok_fail, false_and, exists_false, or_false]
            constructor
            · rintro ⟨rfl, rfl⟩; exact .inl ⟨b, rfl, hb, rfl, rfl⟩
            · rintro (⟨_, _, _, h1, h2⟩ | ⟨h | h, _⟩)
              · exact ⟨h1, h2⟩
              · cases h
              · cases h; exact (hb rfl).elim
          | false =>
            have hu : used = none ∨ used = some c := by
              cases used with
              | none => exact .inl rfl
              | some b => cases b <;> cases c <;> simp_all [mixes]
            have hg : used.getD c = c := by rcases hu with rfl | rfl <;> rfl
            simp only [Bool.false_eq_true, if_false, hg]
            rw [look_bind]
            cases hp : peekIdent r1 with
            | false =>
              simp only [Bool.not_false, if_true, faults_pure, false_iff]
              rintro (⟨b, rfl, hc, _⟩ | ⟨_, h, _⟩)
              · rcases hu with h | h
                · cases h
                · cases h; exact hc rfl
              · rw [peekIdent_iff.mpr h] at hp; cases hp
            | true =>
              have hf' := peekIdent_iff.mp hp
              simp only [Bool.not_true, Bool.false_eq_true, if_false]
              have h5 : tokCount r1 + 1 ≤ tokCount (t :: r1) := tokCount_cons
              rw [faults_bind, ih (some c) r1 k1 (by omega) hf']
              simp only [faults_pure, and_false, exists_false, or_false]
              constructor
              · intro h; exact .inr ⟨hu, hf', h⟩
              · rintro (⟨b, rfl, hc, _⟩ | ⟨_, _, h⟩)
                · rcases hu with h | h
                  · cases h
                  · cases h; exact (hc rfl).elim
                · exact h
        constructor
        · rintro (⟨h, _⟩ | ⟨a, r', k', ⟨⟨t', he, hs'⟩, rfl⟩, h⟩)
          · exact (h _ _ _ rfl hs).elim
          · cases he
            cases sep_unique hs hs'
            exact ⟨_, _, _, rfl, hs, tail.mp h⟩
        · rintro ⟨t', r', c', he, hs', h⟩
          cases he
          cases sep_unique hs hs'
          exact .inr ⟨_, _, _, ⟨⟨_, rfl, hs⟩, rfl⟩, tail.mpr h⟩

theorem faults_spec {ts : Toks} {k : Nat} (hf : ∃ n r, First ts (.ident n) r ∧ n ∉ keywords) {w : Why} {r : Toks} :
    (dSpec Y known ids).Faults ts k w r ↔ ItemsFault known Y none ts w r := by
  rw [dSpec, look_bind, faults_bind, faults_items Y known ids _ _ _ _ (Nat.lt_succ_self _) hf]
  simp

theorem faults_optSpec {ts : Toks} {k : Nat} {w : Why} {r : Toks} : (dOptSpec Y known ids).Faults ts k w r ↔
    (∃ n r, First ts (.ident n) r ∧ n ∉ keywords) ∧ ItemsFault known Y none ts w r := by
  rw [dOptSpec, look_bind]
  cases hp : peekIdent ts with
  | true =>
    have hf := peekIdent_iff.mp hp
    simp only [if_true]
    rw [faults_bind, faults_spec Y known ids hf]
    simp only [faults_pure, and_false, exists_false, or_false]
    exact ⟨fun h => ⟨hf, h⟩, fun h => h.2⟩
  | false =>
    have hf : ¬ ∃ n r, First ts (.ident n) r ∧ n ∉ keywords := fun h => by
      rw [peekIdent_iff.mpr h] at hp; cases hp
    simp only [Bool.false_eq_true, if_false, faults_pure, hf, false_and]

/-! ## Mistakes in loops -/

theorem faults_loopAlias {ts : Toks} {k : Nat} {w : Why} {r : Toks} :
    (D.of aliasWhy (parseLoopElem ids (parseAlias ids))).Faults ts k w r ↔ AliasFault ts w r := by
  rw [faults_of, errs_iff (parseLoopElem_exact (fun d => parseAlias_exact ids d) (nestL ts)) (Nat.le_refl _)]
  constructor
  · rintro ⟨h, rfl, rfl⟩
    unfold aliasWhy
    cases hp : peekParen r with
    | true =>
      obtain ⟨c, r', hf⟩ := peekParen_iff.mp hp
      exact .tuple hf fun as ha => h _ _ (.tuple 0 hf ha)
    | false =>
      have hnp : ∀ c r', ¬ First r (.group .paren c) r' := fun c r' hf => by
        rw [peekParen_iff.mpr ⟨c, r', hf⟩] at hp; cases hp
      refine .name hnp fun n r' hf => ?_
      by_cases hn : n ∈ keywords
      · exact hn
      · exact (h _ _ (.simple (fun c r _ hf _ => hnp c r hf) (.mk 0 hf hn))).elim
  · intro h
    cases h with
    | name hp hn =>
      have : peekParen ts = false := by
        cases h : peekParen ts
        · rfl
        · obtain ⟨c, r', hf⟩ := peekParen_iff.mp h; exact (hp _ _ hf).elim
      refine ⟨fun a r' h => ?_, by simp [aliasWhy, this], rfl⟩
      cases h with
      | tuple _ hf => exact hp _ _ hf
      | simple _ h => cases h with | mk _ hf hk => exact hk (hn _ _ hf)
    | tuple hp hn =>
      refine ⟨fun a r' h => ?_, by simp [aliasWhy, peekParen_iff.mpr ⟨_, _, hp⟩], rfl⟩
      cases h with
      | tuple _ hf h => obtain ⟨e, -⟩ := hp.unique hf; cases e; exact hn _ h
      | simple _ h =>
        cases h with
        | mk _ hf _ => obtain ⟨e, -⟩ := hp.unique hf; cases e

theorem readsElem_exists (ts : Toks) : ∃ v r, ReadsElem (ReadsExpr known Y) ts v r := by
  by_cases h : ∃ c r as, First ts (.group .paren c) r ∧ CommaList (ReadsTup (ReadsExpr known Y)) c as
  · obtain ⟨c, r, as, h1, h2⟩ := h
    exact ⟨_, _, .tuple 0 h1 h2⟩
  · obtain ⟨e, r, he⟩ := readsExpr_exists Y known ts
    exact ⟨_, _, .simple (fun c r as h1 h2 => h ⟨c, r, as, h1, h2⟩) he⟩

theorem loopValue_exact (d : Nat) : Exact ids d (ReadsElem (ReadsExpr known Y)) (elemErase Expr.erase) (elemIds Spec.ids)
    (parseLoopElem ids (parseE Y known ids)) := parseLoopElem_exact (fun d => parseE_exact Y known ids d) d

theorem faults_values (n : Nat) : ∀ ts k, tokCount ts < n → ∀ {w : Why} {r : Toks},
    (dTerminatedLoop (D.of valueWhy (parseLoopElem ids (parseE Y known ids))) n).Faults ts k w r ↔ w = .comma ∧ ValuesFault known Y ts r := by
  induction n with
  | zero => intro _ _ h; omega
  | succ n ih =>
    intro ts k hn w r
    rw [dTerminatedLoop, look_bind]
    by_cases hne : ts = []
    · subst hne
      simp only [List.isEmpty_nil, if_true, faults_pure, false_iff]
      rintro ⟨-, h⟩
      cases h with
      | here h => exact h rfl
      | later h => exact h rfl
    · have : ts.isEmpty = false := by cases ts <;> simp_all
      have e1 : ¬ ∃ e k', parseLoopElem ids (parseE Y known ids) ts k = (.err e, k') := by
        rw [errs_iff (loopValue_exact Y known ids (nestL ts)) (Nat.le_refl _)]
        intro h
        obtain ⟨v, r, hv⟩ := readsElem_exists Y known ts
        exact h _ _ hv
      simp only [this, Bool.false_eq_true, if_false]
      rw [faults_bind, faults_of]
      simp only [e1, false_and, false_or, ok_of]
      rw [oks_iff (loopValue_exact Y known ids (nestL ts)) (Nat.le_refl _)
        (Ψ := fun _ rest => w = .comma ∧ ∃ t r1, rest = t :: r1 ∧ (((∀ j, t ≠ .punct ',' j) ∧ r = rest) ∨
          ∃ j, t = .punct ',' j ∧ ValuesFault known Y r1 r)) ?_ (fun _ _ _ _ h => h)]
      · constructor
        · rintro ⟨v, _, hv, rfl, t, r1, rfl, (⟨h1, rfl⟩ | ⟨j, rfl, h1⟩)⟩
          · exact ⟨rfl, .here hne hv h1⟩
          · exact ⟨rfl, .later hne hv h1⟩
        · rintro ⟨rfl, h⟩
          cases h with
          | here _ hv ht => exact ⟨_, _, hv, rfl, _, _, rfl, .inl ⟨ht, rfl⟩⟩
          | later _ hv hs => exact ⟨_, _, hv, rfl, _, _, rfl, .inr ⟨_, rfl, hs⟩⟩
      · intro v rest k1 ha hv
        rw [look_bind]
        cases rest with
        | nil => simp
        | cons t r1 =>
          have hc := ha.count
          have h5 : tokCount r1 + 1 ≤ tokCount (t :: r1) := tokCount_cons
          simp only [List.isEmpty_cons, Bool.false_eq_true, if_false]
          rw [faults_bind, faults_of, err_punct]
          simp only [ok_of, ok_punct]
          constructor
          · rintro (⟨h, rfl, rfl⟩ | ⟨u, r', k', ⟨⟨j, he⟩, rfl⟩, h⟩)
            · exact ⟨rfl, _, _, rfl, .inl ⟨fun j e => h j r1 (by rw [e]), rfl⟩⟩
            · cases he
              rw [faults_bind, ih _ _ (by omega)] at h
              simp only [faults_pure, and_false, exists_false, or_false] at h
              exact ⟨h.1, _, _, rfl, .inr ⟨j, rfl, h.2⟩⟩
          · rintro ⟨rfl, t', r', he, (⟨h1, rfl⟩ | ⟨j, rfl, h1⟩)⟩
            · cases he
              exact .inl ⟨fun j r e => h1 j (by cases e; rfl), rfl, rfl⟩
            · cases he
              refine .inr ⟨(), _, _, ⟨⟨j, rfl⟩, rfl⟩, ?_⟩
              rw [faults_bind, ih _ _ (by omega)]
              exact .inl ⟨rfl, h1⟩

theorem values_end {ts : Toks} {k : Nat} {vs : List (PLoopElem Expr)} {r : Toks} {k' : Nat}
    (h : dTerminated (D.of valueWhy (parseLoopElem ids (parseE Y known ids))) ts k = (.ok vs r, k')) : r = [] := by
  rw [ok_forget, forget_terminated (forget_of (onlyParse_loopValue Y known ids))] at h
  exact ((parseTerminated_exact (loopValue_exact Y known ids (nestL ts)) ts k (Nat.le_refl _)).of_ok h).reads.1

theorem faults_loop {ts : Toks} {k : Nat} {w : Why} {r : Toks} :
    (dLoop Y known ids).Faults (.ident (S "for") :: ts) k w r ↔ LoopFault known Y ts w r := by
  have h0 : (dLoop Y known ids).Faults (.ident (S "for") :: ts) k w r ↔ (do
      let alias ← D.of aliasWhy (parseLoopElem ids (parseAlias ids))
      D.of (fun _ => .kwIn) (parseKw (S "in"))
      let content ← D.of (fun _ => .brackets) (parseGroup .bracket)
      let values ← D.within content (dTerminated (D.of valueWhy (parseLoopElem ids (parseE Y known ids))))
      let listId ← D.fresh ids
      let id ← D.fresh ids
      return (⟨id, alias, listId, values⟩ : PLoop)).Faults ts k w r := by
    rw [dLoop, faults_bind, faults_of, err_kw]
    simp only [ok_of, ok_kw]
    constructor
    · rintro (⟨h, -⟩ | ⟨_, _, _, ⟨he, rfl⟩, h⟩)
      · exact (h _ rfl).elim
      · cases he; exact h
    · intro h; exact .inr ⟨(), _, _, ⟨rfl, rfl⟩, h⟩
  rw [h0, faults_bind, faults_loopAlias]
  simp only [ok_of]
  rw [oks_iff (parseLoopElem_exact (fun d => parseAlias_exact ids d) (nestL ts)) (Nat.le_refl _)
    (Ψ := fun _ r1 => ((∀ mid, r1 ≠ .ident (S "in") :: mid) ∧ w = .kwIn ∧ r = r1) ∨ ∃ mid, r1 = .ident (S "in") :: mid ∧
      (((∀ c r', ¬ First mid (.group .bracket c) r') ∧ w = .brackets ∧ r = mid) ∨
        ∃ c r', First mid (.group .bracket c) r' ∧ w = .comma ∧ ValuesFault known Y c r)) ?_ (fun _ _ _ _ h => h)]
  · constructor
    · rintro (h | ⟨a, r1, ha, (⟨h, rfl, rfl⟩ | ⟨mid, rfl, (⟨h, rfl, rfl⟩ | ⟨c, r', h1, rfl, h2⟩)⟩)⟩)
      · exact .alias h
      · exact .kwIn ha h
      · exact .brackets ha h
      · exact .values ha h1 h2
    · intro h
      cases h with
      | alias h => exact .inl h
      | kwIn ha h => exact .inr ⟨_, _, ha, .inl ⟨h, rfl, rfl⟩⟩
      | brackets ha h => exact .inr ⟨_, _, ha, .inr ⟨_, rfl, .inl ⟨h, rfl, rfl⟩⟩⟩
      | values ha h1 h2 => exact .inr ⟨_, _, ha, .inr ⟨_, rfl, .inr ⟨_, _, h1, rfl, h2⟩⟩⟩
  · intro a r1 k1 _ ha
    have vals : ∀ c r' k', (D.within c (dTerminated (D.of valueWhy (parseLoopElem ids (parseE Y known ids)))) >>= fun values => do
        let listId ← D.fresh ids
        let id ← D.fresh ids
        return (⟨id, a, listId, values⟩ : PLoop)).Faults r' k' w r ↔ w = .comma ∧ ValuesFault known Y c r := by
      intro c r' k'
      rw [faults_bind, faults_within]
      have h1 : (dTerminated (D.of valueWhy (parseLoopElem ids (parseE Y known ids)))).Faults c k' w r ↔ w = .comma ∧ ValuesFault known Y c r :=
        faults_values Y known ids (tokCount c + 1) c k' (Nat.lt_succ_self _)
      rw [h1]
      constructor
      · rintro ((h | ⟨_, _, _, _, h, -⟩) | ⟨_, _, _, _, h⟩)
        · exact h
        · cases values_end Y known ids h
        · rw [fresh_bind, fresh_bind] at h
          simp at h
      · intro h; exact .inl (.inl h)
    rw [faults_bind, faults_of, err_kw]
    simp only [ok_of, ok_kw]
    refine or_congr_right ?_
    constructor
    · rintro ⟨_, mid, _, ⟨rfl, rfl⟩, h⟩
      refine ⟨mid, rfl, ?_⟩
      rw [faults_bind, faults_of, err_group] at h
      simp only [ok_of, ok_group] at h
      rcases h with h | ⟨c, r', _, ⟨h, rfl⟩, h'⟩
      · exact .inl h
      · exact .inr ⟨c, r', h, (vals _ _ _).mp h'⟩
    · rintro ⟨mid, rfl, h⟩
      refine ⟨(), mid, k1, ⟨rfl, rfl⟩, ?_⟩
      rw [faults_bind, faults_of, err_group]
      simp only [ok_of, ok_group]
      rcases h with h | ⟨c, r', h, h'⟩
      · exact .inl h
      · exact .inr ⟨c, r', _, ⟨h, rfl⟩, (vals _ _ _).mpr h'⟩

theorem loop_shorter {ts l r} (h : ReadsLoop known Y ts l r) : tokCount r < tokCount ts := by
  cases h with
  | @mk ts _ _ _ _ _ _ _ ha hb _ =>
    rcases (parseLoopElem_exact (fun d => parseAlias_exact (fun k => k) d) (nestL ts) ts 0 (Nat.le_refl _)).cases with ⟨a', r', k', _, g'⟩ | ⟨e, k', _, b⟩
    · have h3 := g'.suf
      rw [← (g'.uniq _ _ ha).1] at h3
      have h4 := (h3.trans (.tail hb.after_rest)).count
      have := @tokCount_cons (.ident (S "for")) ts
      omega
    · exact (b.none _ _ ha).elim

theorem faults_loopList (n : Nat) : ∀ ts k, tokCount ts < n → ∀ {w : Why} {r : Toks},
    (dLoopList Y known ids n).Faults ts k w r ↔ LoopsFault known Y ts w r := by
  induction n with
  | zero => intro _ _ h; omega
  | succ n ih =>
    intro ts k hn w r
    rw [dLoopList, look_bind]
    cases hp : peekKw (S "for") ts with
    | false =>
      have hnf : ∀ r, ts ≠ .ident (S "for") :: r := fun r e => by
        rw [peekKw_iff.mpr ⟨r, e⟩] at hp; cases hp
      simp only [Bool.false_eq_true, if_false, faults_pure, false_iff]
      intro h
      cases h with
      | here h => exact hnf _ rfl
      | later h _ => obtain ⟨t, rfl⟩ := readsElem_shorter h; exact hnf _ rfl
    | true =>
      obtain ⟨ts, rfl⟩ := peekKw_iff.mp hp
      simp only [if_true]
      rw [faults_bind, faults_loop]
      simp only [ok_forget, forget_loop]
      rw [oks_iff (parseLoop_exact Y known ids _) (Nat.le_refl _) (Ψ := fun _ mid => LoopsFault known Y mid w r) ?_ (fun _ _ _ _ h => h)]
      · constructor
        · rintro (h | ⟨l, mid, hl, h⟩)
          · exact .here h
          · exact .later hl h
        · intro h
          cases h with
          | here h => exact .inl h
          | later hl h => exact .inr ⟨_, _, hl, h⟩
      · intro l mid k1 _ hl
        have := loop_shorter Y known hl
        rw [faults_bind, ih _ _ (by omega)]
        simp

theorem faults_optLoops {ts : Toks} {k : Nat} {w : Why} {r : Toks} : (dOptLoops Y known ids).Faults ts k w r ↔ LoopsFault known Y ts w r := by
  rw [dOptLoops, look_bind]
  cases hp : peekKw (S "for") ts with
  | false =>
    have hnf : ∀ r, ts ≠ .ident (S "for") :: r := fun r e => by
      rw [peekKw_iff.mpr ⟨r, e⟩] at hp; cases hp
    simp only [Bool.false_eq_true, if_false, faults_pure, false_iff]
    intro h
    cases h with
    | here h => exact hnf _ rfl
    | later h _ => obtain ⟨t, rfl⟩ := readsElem_shorter h; exact hnf _ rfl
  | true =>
    simp only [if_true]
    rw [faults_bind, dLoops, look_bind, faults_bind, faults_loopList Y known ids _ _ _ (Nat.lt_succ_self _)]
    simp only [faults_pure, and_false, exists_false, or_false]
    constructor
    · rintro (h | ⟨ls, r', k', h, h'⟩)
      · exact h
      · exfalso
        rw [ok_forget, forget_loopList] at h
        have g := (parseLoopList_exact Y known ids (tokCount ts + 1) ts k (by omega)).of_ok h
        have hne : ls.isEmpty = false := by
          cases ls with
          | nil =>
            have := g.reads
            cases this with
            | nil hn => obtain ⟨r, rfl⟩ := peekKw_iff.mp hp; exact (hn _ rfl).elim
          | cons => rfl
        simp only [hne, Bool.false_eq_true, if_false] at h'
        rw [fresh_bind] at h'
        simp at h'
    · intro h; exact .inl h

theorem faults_header {ts : Toks} {k : Nat} {w : Why} {r : Toks} : (dHeader Y known ids).Faults ts k w r ↔ HeaderFault known Y ts w r := by
  rw [dHeader, faults_bind, faults_optLoops]
  simp only [ok_forget, forget_optLoops]
  rw [oks_iff (optLoops_exact Y known ids (nestL ts)) (Nat.le_refl _)
    (Ψ := fun _ mid => (∃ n r, First mid (.ident n) r ∧ n ∉ keywords) ∧ ItemsFault known Y none mid w r) ?_ (fun _ _ _ _ h => h)]
  · constructor
    · rintro (h | ⟨ls, mid, hl, ⟨n, r', h1, h2⟩, h⟩)
      · exact .loops h
      · exact .items hl h1 h2 h
    · intro h
      cases h with
      | loops h => exact .inl h
      | items hl h1 h2 h => exact .inr ⟨_, _, hl, ⟨_, _, h1, h2⟩, h⟩
  · intro ls mid k1 _ _
    rw [faults_bind, faults_optSpec]
    simp

/-! ## Whole inputs -/

theorem faults_blockTok {ts : Toks} {k : Nat} {w : Why} {r : Toks} : (dBlockTok Y).Faults ts k w r ↔
    ((∀ b r', ¬ First ts (.group .brace b) r') ∧ w = .braces ∧ r = ts) ∨
      ∃ b r', First ts (.group .brace b) r' ∧ Y.parseBlock b = none ∧ w = .block ∧ r = b := by
  rw [dBlockTok, faults_bind, faults_of, err_group]
  simp only [ok_of, ok_group]
  refine or_congr_right ?_
  constructor
  · rintro ⟨b, r', _, ⟨h, rfl⟩, h'⟩
    cases hb : Y.parseBlock b with
    | none =>
      rw [hb] at h'
      simp only [faults_within, faults_fail, ok_fail, false_and, exists_false, or_false] at h'
      exact ⟨b, r', h, hb, h'⟩
    | some _ => rw [hb] at h'; simp at h'
  · rintro ⟨b, r', h, hb, h'⟩
    refine ⟨b, r', _, ⟨h, rfl⟩, ?_⟩
    rw [hb]
    simp only [faults_within, faults_fail, ok_fail, false_and, exists_false, or_false]
    exact h'

theorem ok_blockTok {ts : Toks} {k : Nat} {bl : List Stmt} {r : Toks} {k' : Nat} : dBlockTok Y ts k = (.ok bl r, k') ↔
    (∃ b, First ts (.group .brace b) r ∧ Y.parseBlock b = some bl) ∧ k' = k := by
  rw [dBlockTok, ok_bind]
  simp only [ok_of, ok_group]
  constructor
  · rintro ⟨b, r1, _, ⟨h, rfl⟩, h'⟩
    cases hb : Y.parseBlock b with
    | none => rw [hb] at h'; cases h'
    | some _ => rw [hb] at h'; cases h'; exact ⟨⟨b, h, hb⟩, rfl⟩
  · rintro ⟨⟨b, h, hb⟩, rfl⟩
    refine ⟨b, r, _, ⟨h, rfl⟩, ?_⟩
    rw [hb]
    rfl

theorem faults_end {ts : Toks} {k : Nat} {w : Why} {r : Toks} : dEnd.Faults ts k w r ↔ ts ≠ [] ∧ w = .leftOver ∧ r = ts := by
  rw [dEnd, look_bind]
  cases ts <;> simp

theorem optSep_eq {ts : Toks} {k : Nat} {s : Option Bool} {r : Toks} (h : ReadsTail ts s r) : parseOptSep ts k = (.ok (s, r), k) := by
  have h1 := wp_parseOptSep (ts := ts) (k := k) (Q := fun s' r' k' => s' = s ∧ r' = r ∧ k' = k) (E := fun _ _ => False) ?_
  · rcases h1.cases with ⟨s', r', k', h, rfl, rfl, rfl⟩ | ⟨_, _, _, h⟩
    · exact h
    · exact h.elim
  · intro s' r' h'
    obtain ⟨h1, h2⟩ := readsTail_unique h h'
    exact ⟨h1, h2, rfl⟩

/-- What is wrong after the block. -/
def TailFault (s : Option PSpec) (tail : Toks) (w : Why) (r : Toks) : Prop :=
  (∃ s' c t, s = some s' ∧ tail = t :: r ∧ IsSep c t ∧ s'.comma ≠ some c ∧ w = .mixed) ∨
    (∃ t r0, r = t :: r0 ∧ w = .leftOver ∧ ((tail = t :: r0 ∧ ∀ c, ¬ IsSep c t) ∨
      ∃ c u, tail = u :: t :: r0 ∧ IsSep c u ∧ ∀ s', s = some s' → s'.comma = some c))

theorem faults_tail {ls s bl} {tail : Toks} {k : Nat} {w : Why} {r : Toks} (hs : ∀ s', s = some s' → ∃ c, s'.comma = some c) :
    (dTail ids ls s bl >>= fun a => dEnd >>= fun _ => (pure a : D PAst)).Faults tail k w r ↔ TailFault s tail w r := by
  obtain ⟨sep, rest, ht⟩ := readsTail_exists tail
  have hsep : parseOptSep tail k = (.ok (sep, rest), k) := optSep_eq ht
  have hstep : (dTail ids ls s bl >>= fun a => dEnd >>= fun _ => (pure a : D PAst)).Faults tail k w r ↔
      (mixesTail sep s = true ∧ w = .mixed ∧ r = rest) ∨ (mixesTail sep s = false ∧ rest ≠ [] ∧ w = .leftOver ∧ r = rest) := by
    have h1 : (dTail ids ls s bl).Faults tail k w r ↔ mixesTail sep s = true ∧ w = .mixed ∧ r = rest := by
      rw [dTail, faults_bind, faults_of]
      simp only [ok_of, hsep, Prod.mk.injEq, reduceCtorEq, false_and, exists_false, false_or, Res.ok.injEq]
      constructor
      · rintro ⟨_, _, _, ⟨⟨rfl, rfl⟩, rfl⟩, h⟩
        simpa [fresh_bind] using h
      · intro h
        refine ⟨_, _, _, ⟨⟨rfl, rfl⟩, rfl⟩, ?_⟩
        simpa [fresh_bind] using h
    have h2 : ∀ {a r1 k1}, dTail ids ls s bl tail k = (.ok a r1, k1) ↔ mixesTail sep s = false ∧ a = ⟨ids k, ls, s, bl⟩ ∧ r1 = rest ∧ k1 = k + 1 := by
      intro a r1 k1
      rw [dTail, ok_bind]
      simp only [ok_of, hsep, Prod.mk.injEq, Res.ok.injEq]
      constructor
      · rintro ⟨_, _, _, ⟨⟨rfl, rfl⟩, rfl⟩, h⟩
        cases hx : mixesTail sep s with
        | true => rw [hx] at h; cases h
        | false => rw [hx] at h; cases h; exact ⟨rfl, rfl, rfl, rfl⟩
      · rintro ⟨hx, rfl, rfl, rfl⟩
        refine ⟨_, _, _, ⟨⟨rfl, rfl⟩, rfl⟩, ?_⟩
        rw [hx]
        rfl
    rw [faults_bind, h1]
    refine or_congr_right ?_
    constructor
    · rintro ⟨_, _, _, h, h'⟩
      obtain ⟨hx, rfl, rfl, rfl⟩ := h2.mp h
      rw [faults_bind, faults_end] at h'
      simp only [faults_pure, and_false, exists_false, or_false] at h'
      exact ⟨hx, h'⟩
    · rintro ⟨hx, h⟩
      refine ⟨_, _, _, h2.mpr ⟨hx, rfl, rfl, rfl⟩, ?_⟩
      rw [faults_bind, faults_end]
      exact .inl h
  rw [hstep]
  unfold TailFault
  cases ht with
  | none hno =>
    have : mixesTail none s = false := by cases s <;> rfl
    simp only [this, Bool.false_eq_true, false_and, false_or, true_and]
    constructor
    · rintro ⟨hne, rfl, rfl⟩
      cases r with
      | nil => exact (hne rfl).elim
      | cons t r0 => exact .inr ⟨t, r0, rfl, rfl, .inl ⟨rfl, fun c => hno _ _ _ rfl⟩⟩
    · rintro (⟨s', c, t, _, rfl, h, _⟩ | ⟨t, r0, rfl, rfl, (⟨rfl, _⟩ | ⟨c, u, rfl, h, _⟩)⟩)
      · exact (hno _ _ _ rfl h).elim
      · exact ⟨by simp, rfl, rfl⟩
      · exact (hno _ _ _ rfl h).elim
  | @some t rest b hb =>
    have hmix : mixesTail (some b) s = true ↔ ∃ s', s = some s' ∧ s'.comma ≠ some b := by
      cases s with
      | none => simp [mixesTail]
      | some s' =>
        obtain ⟨c, hc⟩ := hs s' rfl
        simp only [mixesTail, hc, Option.some.injEq, exists_eq_left']
        cases b <;> cases c <;> simp
    constructor
    · rintro (⟨hx, rfl, rfl⟩ | ⟨hx, hne, rfl, rfl⟩)
      · obtain ⟨s', rfl, h⟩ := hmix.mp hx
        exact .inl ⟨s', b, t, rfl, rfl, hb, h, rfl⟩
      · cases r with
        | nil => exact (hne rfl).elim
        | cons t' r0 =>
          refine .inr ⟨t', r0, rfl, rfl, .inr ⟨b, t, rfl, hb, ?_⟩⟩
          intro s' hs'
          by_cases h : s'.comma = some b
          · exact h
          · rw [hmix.mpr ⟨s', hs', h⟩] at hx; cases hx
    · rintro (⟨s', c, t', rfl, he, h, hc, rfl⟩ | ⟨t', r0, rfl, rfl, (⟨he, h⟩ | ⟨c, u, he, h, hc⟩)⟩)
      · cases he
        cases sep_unique hb h
        exact .inl ⟨hmix.mpr ⟨s', rfl, hc⟩, rfl, rfl⟩
      · cases he
        exact (h _ hb).elim
      · cases he
        cases sep_unique hb h
        refine .inr ⟨?_, by simp, rfl, rfl⟩
        cases hx : mixesTail (some b) s
        · rfl
        · obtain ⟨s', rfl, h'⟩ := hmix.mp hx
          exact (h' (hc _ rfl)).elim

theorem faults_rawAst {ts : Toks} {k : Nat} {w : Why} {r : Toks} : (dRawAst Y known ids).Faults ts k w r ↔ InputFault known Y ts w r := by
  rw [dRawAst, faults_bind, faults_header]
  simp only [ok_forget, forget_header]
  rw [oks_iff (parseHeader_exact Y known ids (nestL ts)) (Nat.le_refl _)
    (Ψ := fun h mid => ((∀ b r', ¬ First mid (.group .brace b) r') ∧ w = .braces ∧ r = mid) ∨
      (∃ b r', First mid (.group .brace b) r' ∧ Y.parseBlock b = none ∧ w = .block ∧ r = b) ∨
      ∃ b tail bl, First mid (.group .brace b) tail ∧ Y.parseBlock b = some bl ∧ TailFault h.2 tail w r) ?_ ?_]
  · constructor
    · rintro (h | ⟨⟨ls, s⟩, mid, hh, (⟨h, rfl, rfl⟩ | ⟨b, r', hb, h, rfl, rfl⟩ | ⟨b, tail, bl, hb, hp, h⟩)⟩)
      · exact .header h
      · exact .braces hh h
      · exact .block hh hb h
      · rcases h with ⟨s', c, t, rfl, rfl, h1, h2, rfl⟩ | ⟨t, r0, rfl, rfl, h⟩
        · exact .mixed hh hb hp h1 h2
        · exact .leftOver hh hb hp h
    · intro h
      cases h with
      | header h => exact .inl h
      | braces hh h => exact .inr ⟨_, _, hh, .inl ⟨h, rfl, rfl⟩⟩
      | block hh hb h => exact .inr ⟨_, _, hh, .inr (.inl ⟨_, _, hb, h, rfl, rfl⟩)⟩
      | mixed hh hb hp h1 h2 => exact .inr ⟨_, _, hh, .inr (.inr ⟨_, _, _, hb, hp, .inl ⟨_, _, _, rfl, rfl, h1, h2, rfl⟩⟩)⟩
      | leftOver hh hb hp h => exact .inr ⟨_, _, hh, .inr (.inr ⟨_, _, _, hb, hp, .inr ⟨_, _, rfl, rfl, h⟩⟩)⟩
  · rintro ⟨ls, s⟩ mid k1 _ hh
    rw [faults_bind, faults_blockTok, or_assoc]
    refine or_congr_right (or_congr_right ?_)
    simp only [ok_blockTok]
    constructor
    · rintro ⟨bl, tail, _, ⟨⟨b, hb, hp⟩, rfl⟩, h⟩
      refine ⟨b, tail, bl, hb, hp, (faults_tail ids ?_).mp h⟩
      rintro s' rfl
      exact readsHeader_comma Y known (by rintro rfl; cases hb) hh
    · rintro ⟨b, tail, bl, hb, hp, h⟩
      refine ⟨bl, tail, _, ⟨⟨b, hb, hp⟩, rfl⟩, (faults_tail ids ?_).mpr h⟩
      rintro s' rfl
      exact readsHeader_comma Y known (by rintro rfl; cases hb) hh
  · rintro ⟨ls, s⟩ ⟨ls', s'⟩ mid he (h | h | ⟨b, tail, bl, hb, hp, h⟩)
    · exact .inl h
    · exact .inr (.inl h)
    · refine .inr (.inr ⟨b, tail, bl, hb, hp, ?_⟩)
      have hs : s.map specErase = s'.map specErase := congrArg Prod.snd he
      rcases h with ⟨s1, c, t, rfl, h1, h2, h3, h4⟩ | ⟨t, r0, h1, h2, h⟩
      · cases s' with
        | none => simp at hs
        | some s2 =>
          simp only [Option.map_some, Option.some.injEq] at hs
          have h5 : s1.comma = s2.comma := congrArg Prod.snd hs
          exact .inl ⟨s2, c, t, rfl, h1, h2, h5 ▸ h3, h4⟩
      · refine .inr ⟨t, r0, h1, h2, ?_⟩
        rcases h with h | ⟨c, u, h3, h4, h5⟩
        · exact .inl h
        · refine .inr ⟨c, u, h3, h4, ?_⟩
          rintro s2 rfl
          cases s with
          | none => simp at hs
          | some s1 =>
            simp only [Option.map_some, Option.some.injEq] at hs
            have h6 : s1.comma = s2.comma := congrArg Prod.snd hs
            rw [← h6]
            exact h5 _ rfl

/-- What is wrong after the definitions of an attribute. -/
def AttrTailFault (ls : Option PLoops) (s : Option PSpec) (tail : Toks) (w : Why) (r : Toks) : Prop :=
  (∃ c t r0, ls.isSome ∧ s = none ∧ tail = t :: r0 ∧ IsSep c t ∧ w = .loopsSep ∧ r = tail) ∨
    ∃ t r0, r = t :: r0 ∧ w = .leftOver ∧ ((tail = t :: r0 ∧ ∀ c, ¬ IsSep c t) ∨ (tail = t :: r0 ∧ ls = none ∧ s = none) ∨
      ∃ c u, tail = u :: t :: r0 ∧ IsSep c u ∧ s.isSome)

theorem faults_attrTail {ls s} {tail : Toks} {k : Nat} {w : Why} {r : Toks} :
    (dAttrTail ids ls s >>= fun a => dEnd >>= fun _ => (pure a : D PAst)).Faults tail k w r ↔ AttrTailFault ls s tail w r := by
  obtain ⟨o, ho, heq⟩ := parseAttrSep_eq (ls := ls) (s := s) (ts := tail) (k := k)
  have hstep : (dAttrTail ids ls s >>= fun a => dEnd >>= fun _ => (pure a : D PAst)).Faults tail k w r ↔
      (o = none ∧ w = .loopsSep ∧ r = tail) ∨ (∃ rest, o = some rest ∧ rest ≠ [] ∧ w = .leftOver ∧ r = rest) := by
    have h1 : (dAttrTail ids ls s).Faults tail k w r ↔ o = none ∧ w = .loopsSep ∧ r = tail := by
      rw [dAttrTail, faults_bind, faults_of, heq]
      cases o with
      | none => simp [heq]
      | some rest => simp
    have h2 : ∀ {a r1 k1}, dAttrTail ids ls s tail k = (.ok a r1, k1) ↔ a = ⟨ids k, ls, s, []⟩ ∧ o = some r1 ∧ k1 = k + 1 := by
      intro a r1 k1
      rw [dAttrTail, ok_bind]
      simp only [ok_of, heq]
      constructor
      · rintro ⟨_, r2, _, h, h'⟩
        cases o with
        | none => cases h
        | some rest => cases h; cases h'; exact ⟨rfl, rfl, rfl⟩
      · rintro ⟨rfl, rfl, rfl⟩
        exact ⟨(), r1, k, rfl, rfl⟩
    rw [faults_bind, h1]
    refine or_congr_right ?_
    constructor
    · rintro ⟨_, _, _, h, h'⟩
      obtain ⟨rfl, h3, rfl⟩ := h2.mp h
      rw [faults_bind, faults_end] at h'
      simp only [faults_pure, and_false, exists_false, or_false] at h'
      exact ⟨_, h3, h'⟩
    · rintro ⟨rest, rfl, h⟩
      refine ⟨_, _, _, h2.mpr ⟨rfl, rfl, rfl⟩, ?_⟩
      rw [faults_bind, faults_end]
      exact .inl h
  rw [hstep]
  unfold AttrTailFault
  cases ho with
  | @used t rest b hb hs =>
    constructor
    · rintro (⟨h, _⟩ | ⟨rest', he, hne, rfl, rfl⟩)
      · cases h
      · cases he
        cases r with
        | nil => exact (hne rfl).elim
        | cons t' r0 => exact .inr ⟨t', r0, rfl, rfl, .inr (.inr ⟨b, t, rfl, hb, hs⟩)⟩
    · rintro (⟨c, t', r0, _, rfl, _⟩ | ⟨t', r0, rfl, rfl, (⟨he, h⟩ | ⟨_, _, rfl⟩ | ⟨c, u, he, h, _⟩)⟩)
      · cases hs
      · cases he; exact (h _ hb).elim
      · cases hs
      · cases he; exact .inr ⟨_, rfl, by simp, rfl, rfl⟩
  | @error t rest b hb hs hl =>
    subst hs
    constructor
    · rintro (⟨_, rfl, rfl⟩ | ⟨rest', he, _⟩)
      · exact .inl ⟨b, t, rest, hl, rfl, rfl, hb, rfl, rfl⟩
      · cases he
    · rintro (⟨c, t', r0, _, _, _, _, h1, h2⟩ | ⟨t', r0, rfl, rfl, (⟨he, h⟩ | ⟨_, rfl, _⟩ | ⟨c, u, he, h, h'⟩)⟩)
      · exact .inl ⟨rfl, h1, h2⟩
      · cases he; exact (h _ hb).elim
      · cases hl
      · cases h'
  | left h =>
    constructor
    · rintro (⟨h, _⟩ | ⟨rest', he, hne, rfl, rfl⟩)
      · cases h
      · cases he
        cases tail with
        | nil => exact (hne rfl).elim
        | cons t' r0 =>
          refine .inr ⟨t', r0, rfl, rfl, ?_⟩
          rcases h with h | ⟨h1, h2⟩
          · exact .inl ⟨rfl, fun c => h _ _ _ rfl⟩
          · exact .inr (.inl ⟨rfl, h2, h1⟩)
    · rintro (⟨c, t', r0, hl, rfl, rfl, hs, _⟩ | ⟨t', r0, rfl, rfl, (⟨rfl, _⟩ | ⟨rfl, _⟩ | ⟨c, u, rfl, hs, h'⟩)⟩)
      · rcases h with h | ⟨_, rfl⟩
        · exact (h _ _ _ rfl hs).elim
        · cases hl
      · exact .inr ⟨_, rfl, by simp, rfl, rfl⟩
      · exact .inr ⟨_, rfl, by simp, rfl, rfl⟩
      · rcases h with h | ⟨rfl, _⟩
        · exact (h _ _ _ rfl hs).elim
        · cases h'

theorem faults_attr {ts : Toks} {k : Nat} {w : Why} {r : Toks} : (dAttr Y known ids).Faults ts k w r ↔ AttrFault known Y ts w r := by
  rw [dAttr, faults_bind, faults_header]
  simp only [ok_forget, forget_header]
  rw [oks_iff (parseHeader_exact Y known ids (nestL ts)) (Nat.le_refl _)
    (Ψ := fun h tail => AttrTailFault h.1 h.2 tail w r) (fun h tail k1 _ _ => faults_attrTail ids) ?_]
  · constructor
    · rintro (h | ⟨⟨ls, s⟩, mid, hh, (⟨c, t, r0, hl, hs, rfl, ht, rfl, rfl⟩ | ⟨t, r0, rfl, rfl, h⟩)⟩)
      · exact .header h
      · cases ls with
        | none => cases hl
        | some ls => cases hs; exact .loopsSep hh ht
      · exact .leftOver hh h
    · intro h
      cases h with
      | header h => exact .inl h
      | loopsSep hh ht => exact .inr ⟨_, _, hh, .inl ⟨_, _, _, rfl, rfl, rfl, ht, rfl, rfl⟩⟩
      | leftOver hh h => exact .inr ⟨_, _, hh, .inr ⟨_, _, rfl, rfl, h⟩⟩
  · rintro ⟨ls, s⟩ ⟨ls', s'⟩ tail he h
    have hs : s.map specErase = s'.map specErase := congrArg Prod.snd he
    have hl : ls.map (fun l => l.loops.map loopErase) = ls'.map (fun l => l.loops.map loopErase) := congrArg Prod.fst he
    have hs1 : s = none ↔ s' = none := by cases s <;> cases s' <;> simp_all
    have hs2 : s.isSome = s'.isSome := by cases s <;> cases s' <;> simp_all
    have hl1 : ls = none ↔ ls' = none := by cases ls <;> cases ls' <;> simp_all
    have hl2 : ls.isSome = ls'.isSome := by cases ls <;> cases ls' <;> simp_all
    simp only [AttrTailFault, hs1, hs2, hl1, hl2] at h ⊢
    exact h

/-! ## Agreement -/

theorem forget_attrTail (ls : Option PLoops) (s : Option PSpec) : (dAttrTail ids ls s).forget = parseAttrTail ids ls s := by
  have : OnlyParse (parseAttrSep ls s) := by
    intro ts k e k' h
    obtain ⟨o, -, heq⟩ := parseAttrSep_eq (ls := ls) (s := s) (ts := ts) (k := k)
    rw [heq] at h
    cases o <;> simp_all
  simp [dAttrTail, parseAttrTail, forget_of this]

theorem forget_tail (ls : Option PLoops) (s : Option PSpec) (bl : List Stmt) : (dTail ids ls s bl).forget = parseTail ids ls s bl := by
  have : OnlyParse parseOptSep := by
    intro ts k e k' h
    obtain ⟨sep, rest, ht⟩ := readsTail_exists ts
    rw [optSep_eq ht] at h
    cases h
  simp [dTail, parseTail, forget_of this]

theorem forget_blockTok : (dBlockTok Y).forget = parseBlockTok Y := by
  simp only [dBlockTok, parseBlockTok, forget_bind, forget_of (onlyParse_group _)]
  congr 1
  funext b
  cases Y.parseBlock b <;> simp
  rfl

theorem end_bind (a : PAst) (ts : Toks) (k : Nat) :
    (dEnd.forget >>= fun _ => (pure a : P PAst)) ts k = match ts with | [] => (.ok (a, []), k) | _ :: _ => (.err .parse, k) := by
  cases ts <;> rfl

/-- What the parser says about a whole input. -/
def told : DRes PAst → Res PAst
  | .ok a _ => .ok a
  | .err _ _ => .err .parse
  | .panic => .panic

/-- The result without what is left. -/
def dropRest : Res (PAst × Toks) → Res PAst
  | .ok (a, _) => .ok a
  | .err _ => .err .parse
  | .panic => .panic

theorem told_eq (x : D PAst) (ts : Toks) (k : Nat) : told (x ts k).1 = dropRest (x.forget ts k).1 := by
  unfold D.forget
  rcases x ts k with ⟨_ | _ | _, _⟩ <;> rfl

theorem bind_apply {α β : Type} (x : P α) (f : α → P β) (ts : Toks) (k : Nat) : (x >>= f) ts k =
    match x ts k with
    | (.ok (a, r), k') => f a r k'
    | (.err e, k') => (.err e, k')
    | (.panic, k') => (.panic, k') := rfl

theorem rawAst_told {ts : Toks} {k : Nat} {sv : Service} (hb : 1 ≤ sv.borrowed) :
    (parseRawAst Y known ids ts k (some sv)).1 = told (dRawAst Y known ids ts k).1 := by
  have h : (dRawAst Y known ids).forget = parseFront Y known ids >>= fun x => parseTail ids x.1.1 x.1.2 x.2 >>= fun a =>
      dEnd.forget >>= fun _ => (pure a : P PAst) := by
    have h1 : (dRawAst Y known ids).forget = parseHeader Y known ids >>= fun x => parseBlockTok Y >>= fun b => parseTail ids x.1 x.2 b >>= fun a =>
        dEnd.forget >>= fun _ => (pure a : P PAst) := by
      simp [dRawAst, forget_header, forget_blockTok, forget_tail]
    rw [h1, parseFront]
    funext ts k
    simp only [bind_apply]
    rcases parseHeader Y known ids ts k with ⟨⟨h, r⟩ | e | _, k1⟩
    · simp only
      rcases parseBlockTok Y r k1 with ⟨⟨b, r2⟩ | e | _, k2⟩ <;> rfl
    · rfl
    · rfl
  rw [told_eq, h, parseRawAst]
  rw [bind_apply]
  rcases (parseFront_exact Y known ids (nestL ts) ts k (Nat.le_refl _)).cases with ⟨⟨⟨ls, s⟩, block⟩, r, k1, h1, g⟩ | ⟨e, k1, h1, b⟩
  · rw [h1]
    simp only
    rw [withWarning_eq hb]
    rw [bind_apply]
    obtain ⟨sep, r', ht⟩ := readsTail_exists r
    rw [parseTail_eq ids ht]
    split
    · rfl
    · simp only [end_bind]
      cases r' <;> rfl
  · rw [h1, b.parse]
    rfl

theorem attr_told {ts : Toks} {k : Nat} {sv : Service} (hb : 1 ≤ sv.borrowed) :
    (parseAttr Y known ids ts k (some sv)).1 = told (dAttr Y known ids ts k).1 := by
  have h : (dAttr Y known ids).forget = parseHeader Y known ids >>= fun x => parseAttrTail ids x.1 x.2 >>= fun a =>
      dEnd.forget >>= fun _ => (pure a : P PAst) := by
    simp [dAttr, forget_attrTail, forget_header]
  rw [told_eq, h, parseAttr]
  rw [bind_apply]
  rcases (parseHeader_exact Y known ids (nestL ts) ts k (Nat.le_refl _)).cases with ⟨⟨ls, s⟩, r, k1, h1, g⟩ | ⟨e, k1, h1, b⟩
  · rw [h1]
    simp only
    rw [withWarning_eq hb]
    rw [bind_apply]
    obtain ⟨o, ho, heq⟩ := parseAttrSep_eq (ls := ls) (s := s) (ts := r) (k := k1)
    cases o with
    | none =>
      have htail : parseAttrTail ids ls s r k1 = (.err .parse, k1) := by
        rw [parseAttrTail, bind_apply, heq]
      rw [htail]
      rfl
    | some r' =>
      have htail : parseAttrTail ids ls s r k1 = (.ok (⟨ids k1, ls, s, []⟩, r'), k1 + 1) := by
        rw [parseAttrTail, bind_apply, heq]
        rfl
      rw [htail]
      simp only [end_bind]
      cases r' <;> rfl
  · rw [h1, b.parse]
    rfl

/-- An input is read, or there is exactly one mistake. -/
theorem input_cases (ts : Toks) : (∃ a, ReadsInput known Y ts a ∧ ∀ w r, ¬ InputFault known Y ts w r) ∨
    ∃ w r, InputFault known Y ts w r ∧ (∀ a, ¬ ReadsInput known Y ts a) ∧ ∀ w' r', InputFault known Y ts w' r' → w' = w ∧ r' = r := by
  have ho := parseRawAst_outcome Y known (fun k => k) ts 0 ⟨[], 1, []⟩ (Nat.le_refl _)
  have ht := rawAst_told Y known (fun k => k) (ts := ts) (k := 0) (sv := ⟨[], 1, []⟩) (Nat.le_refl _)
  have hf := fun w r => faults_rawAst Y known (fun k => k) (ts := ts) (k := 0) (w := w) (r := r)
  unfold D.Faults at hf
  generalize parseRawAst Y known (fun k => k) ts 0 (some ⟨[], 1, []⟩) = x at ho ht
  rcases hd : dRawAst Y known (fun k => k) ts 0 with ⟨⟨a, r⟩ | ⟨w, r⟩ | _, k'⟩ <;> rw [hd] at ht hf
  · cases ho with
    | ok a k' h => exact .inl ⟨a, h, fun w r h => by simpa using (hf w r).mpr h⟩
    | err => cases ht
  · cases ho with
    | ok a k' h => cases ht
    | err k' w' h =>
      exact .inr ⟨w, r, (hf w r).mp ⟨_, rfl⟩, h, fun w' r' h => by have := (hf w' r').mpr h; simp at this; exact ⟨this.1.symm, this.2.symm⟩⟩
  · cases ho <;> cases ht

theorem attr_cases (ts : Toks) : (∃ a, ReadsAttr known Y ts a ∧ ∀ w r, ¬ AttrFault known Y ts w r) ∨
    ∃ w r, AttrFault known Y ts w r ∧ (∀ a, ¬ ReadsAttr known Y ts a) ∧ ∀ w' r', AttrFault known Y ts w' r' → w' = w ∧ r' = r := by
  have ho := parseAttr_outcome Y known (fun k => k) ts 0 ⟨[], 1, []⟩ (Nat.le_refl _)
  have ht := attr_told Y known (fun k => k) (ts := ts) (k := 0) (sv := ⟨[], 1, []⟩) (Nat.le_refl _)
  have hf := fun w r => faults_attr Y known (fun k => k) (ts := ts) (k := 0) (w := w) (r := r)
  unfold D.Faults at hf
  generalize parseAttr Y known (fun k => k) ts 0 (some ⟨[], 1, []⟩) = x at ho ht
  rcases hd : dAttr Y known (fun k => k) ts 0 with ⟨⟨a, r⟩ | ⟨w, r⟩ | _, k'⟩ <;> rw [hd] at ht hf
  · cases ho with
    | ok a k' h => exact .inl ⟨a, h, fun w r h => by simpa using (hf w r).mpr h⟩
    | err => cases ht
  · cases ho with
    | ok a k' h => cases ht
    | err k' w' h =>
      exact .inr ⟨w, r, (hf w r).mp ⟨_, rfl⟩, h, fun w' r' h => by have := (hf w' r').mpr h; simp at this; exact ⟨this.1.symm, this.2.symm⟩⟩
  · cases ho <;> cases ht

end

theorem syntax_cases (W : World) (inv : Invocation) : (∃ a, Reads W inv a ∧ ∀ w r, ¬ SyntaxFault W inv w r) ∨
    ∃ w r, SyntaxFault W inv w r ∧ (∀ a, ¬ Reads W inv a) ∧ ∀ w' r', SyntaxFault W inv w' r' → w' = w ∧ r' = r := by
  cases inv with
  | compose ts =>
    rcases input_cases W.Y isBuiltin ts with ⟨a, h, hn⟩ | ⟨w, r, h, hn, hu⟩
    · exact .inl ⟨a, h, fun w r h => by cases h with | compose h => exact hn w r h⟩
    · exact .inr ⟨w, r, .compose h, hn, fun w' r' h => by cases h with | compose h => exact hu w' r' h⟩
  | composeIdents ts =>
    rcases input_cases W.Y isBuiltin ts with ⟨a, h, hn⟩ | ⟨w, r, h, hn, hu⟩
    · exact .inl ⟨a, h, fun w r h => by cases h with | composeIdents h => exact hn w r h⟩
    · exact .inr ⟨w, r, .composeIdents h, hn, fun w' r' h => by cases h with | composeIdents h => exact hu w' r' h⟩
  | composeItem attr item =>
    rcases attr_cases W.Y isBuiltin attr with ⟨a, h, hn⟩ | ⟨w, r, h, hn, hu⟩
    · cases hp : W.Y.parseBlock item with
      | some b =>
        have hb : a.block = [] := by cases h; rfl
        refine .inl ⟨{ a with block := b }, ⟨by rw [← hb]; exact h, hp⟩, fun w r h => ?_⟩
        cases h with
        | attr h => exact hn w r h
        | item _ h => rw [hp] at h; cases h
      | none =>
        refine .inr ⟨.block, item, .item h hp, (fun a' ha' => by rw [ha'.2] at hp; cases hp), fun w' r' h => ?_⟩
        cases h with
        | attr h => exact (hn _ _ h).elim
        | item _ h => exact ⟨rfl, rfl⟩
    · refine .inr ⟨w, r, .attr h, fun a ha => hn _ ha.1, fun w' r' h => ?_⟩
      cases h with
      | attr h => exact hu w' r' h
      | item h _ => exact (hn _ h).elim

theorem syntaxError_iff (W : World) (ids : Nat → Nat) (k : Nat) (inv : Invocation) (w : Why) (r : Toks) :
    syntaxError W.Y isBuiltin ids k inv = some (w, r) ↔ SyntaxFault W inv w r := by
  have raw : ∀ ts, (match dRawAst W.Y isBuiltin ids ts k with | (.err w r, _) => some (w, r) | _ => none) = some (w, r) ↔
      InputFault isBuiltin W.Y ts w r := by
    intro ts
    rw [← faults_rawAst W.Y isBuiltin ids (k := k)]
    unfold D.Faults
    rcases dRawAst W.Y isBuiltin ids ts k with ⟨⟨a, r⟩ | ⟨w, r⟩ | _, k'⟩ <;> simp
  cases inv with
  | compose ts =>
    refine (raw ts).trans ⟨.compose, fun h => ?_⟩
    cases h with | compose h => exact h
  | composeIdents ts =>
    refine (raw ts).trans ⟨.composeIdents, fun h => ?_⟩
    cases h with | composeIdents h => exact h
  | composeItem attr item =>
    have hf := fun w r => faults_attr W.Y isBuiltin ids (ts := attr) (k := k) (w := w) (r := r)
    have ho := parseAttr_outcome W.Y isBuiltin ids attr k ⟨[], 1, []⟩ (Nat.le_refl _)
    have ht := attr_told W.Y isBuiltin ids (ts := attr) (k := k) (sv := ⟨[], 1, []⟩) (Nat.le_refl _)
    unfold D.Faults at hf
    simp only [syntaxError]
    generalize parseAttr W.Y isBuiltin ids attr k (some ⟨[], 1, []⟩) = x at ho ht
    rcases hd : dAttr W.Y isBuiltin ids attr k with ⟨⟨a, r'⟩ | ⟨w', r'⟩ | _, k'⟩ <;> rw [hd] at ht hf <;> simp only
    · cases ho with
      | err => cases ht
      | ok a k' h =>
        cases hp : W.Y.parseBlock item with
        | none =>
          simp only [Option.isNone_none, if_true, Option.some.injEq, Prod.mk.injEq]
          constructor
          · rintro ⟨rfl, rfl⟩; exact .item h hp
          · intro h
            cases h with
            | attr h => simpa using (hf w r).mpr h
            | item => exact ⟨rfl, rfl⟩
        | some b =>
          simp only [Option.isNone_some, Bool.false_eq_true, if_false, reduceCtorEq, false_iff]
          intro h
          cases h with
          | attr h => simpa using (hf w r).mpr h
          | item _ h => rw [hp] at h; cases h
    · cases ho with
      | ok a k' h => cases ht
      | err k' w' h =>
        constructor
        · intro he
          cases he
          exact .attr ((hf _ _).mp ⟨_, rfl⟩)
        · intro h
          cases h with
          | attr h => simpa using (hf w r).mpr h
          | item h' => exact (h _ h').elim
    · cases ho <;> cases ht

end Verif
