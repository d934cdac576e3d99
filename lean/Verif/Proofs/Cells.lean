import Verif.Model.Cells
import Verif.Proofs.Resolve
/-! # The metadata in memory and the metadata passed by value -/

namespace Verif
open Cells

/-- What a result without cells is as a result with cells. -/
def Res.out {α : Type} : Res α → Out α
  | .ok a => .ok a
  | .err e => .err e
  | .panic => .panic

/-- From `h` to `h'` at most the cell `r` was written, new cells may have been made, and no guard was left behind. -/
structure Untouched (r : Nat) (h h' : Heap) : Prop where
  len : h.length ≤ h'.length
  same : ∀ i, i ≠ r → i < h.length → h'[i]? = h[i]?
  free : (∀ c ∈ h, c.flag = .shared 0) → ∀ c ∈ h', c.flag = .shared 0

theorem Untouched.rfl {r : Nat} {h : Heap} : Untouched r h h := ⟨Nat.le_refl _, fun _ _ _ => Eq.refl _, fun h => h⟩

theorem Untouched.trans {r r' : Nat} {h h' h'' : Heap} (a : Untouched r h h') (b : Untouched r' h' h'') (hr : r' = r ∨ h.length ≤ r') : Untouched r h h'' := by
  refine ⟨Nat.le_trans a.len b.len, ?_, fun h => b.free (a.free h)⟩
  intro i h1 h2
  rw [b.same i (by omega) (Nat.lt_of_lt_of_le h2 a.len), a.same i h1 h2]

/-- The scope in memory is this one, and its cell is not borrowed. -/
structure Sees (h : Heap) (sc : ScopeRef) (s : Scope) : Prop where
  cell : h[sc.cell]? = some ⟨s.md, .shared 0⟩
  aliases : sc.aliases = s.aliases

theorem Sees.lt {h : Heap} {sc : ScopeRef} {s : Scope} (a : Sees h sc s) : sc.cell < h.length := by
  have := a.cell
  rcases Nat.lt_or_ge sc.cell h.length with h1 | h1
  · exact h1
  · rw [List.getElem?_eq_none h1] at this; cases this

theorem Sees.frame {r : Nat} {h h' : Heap} {sc : ScopeRef} {s : Scope} (a : Sees h sc s) (hr : sc.cell ≠ r) (f : Untouched r h h') : Sees h' sc s :=
  ⟨by rw [f.same _ hr a.lt]; exact a.cell, a.aliases⟩

/-- The computation on cells follows the one without. -/
def Follows {α β : Type} (P : α → β → Heap → Prop) (r : Nat) (h : Heap) (x : Out α × Heap) (y : Res β) : Prop :=
  Untouched r h x.2 ∧
  match y with
  | .ok b => ∃ a, x.1 = .ok a ∧ P a b x.2
  | .err e => x.1 = .err e
  | .panic => x.1 = .panic

theorem Follows.lift {α : Type} {r : Nat} {h : Heap} {P : α → α → Heap → Prop} (x : Res α) (hP : ∀ a, x = .ok a → P a a h) :
    Follows P r h (Mem.lift x h) x := by
  cases x with
  | ok a => exact ⟨Untouched.rfl, a, rfl, hP a rfl⟩
  | err e => exact ⟨Untouched.rfl, rfl⟩
  | panic => exact ⟨Untouched.rfl, rfl⟩

theorem Mem.bind_eq {α β : Type} (x : Mem α) (f : α → Mem β) (h : Heap) : (x >>= f) h = Mem.bind x f h := rfl
theorem Mem.pure_eq {α : Type} (a : α) (h : Heap) : (pure a : Mem α) h = (.ok a, h) := rfl

theorem Follows.bind {α α' β β' : Type} {P : α → β → Heap → Prop} {Q : α' → β' → Heap → Prop} {r : Nat} {h0 h : Heap} {x : Mem α} {y : Res β}
    {f : α → Mem α'} {g : β → Res β'} (hx : Follows P r h0 (x h) y)
    (hf : ∀ a b h', P a b h' → Untouched r h0 h' → y = .ok b → Follows Q r h0 (f a h') (g b)) : Follows Q r h0 ((x >>= f) h) (y >>= g) := by
  rw [Mem.bind_eq]
  unfold Mem.bind
  obtain ⟨hF, hx⟩ := hx
  rcases hxh : x h with ⟨o, h'⟩
  rw [hxh] at hF hx
  cases y with
  | ok b =>
    obtain ⟨a, h1, h2⟩ := hx
    cases h1
    exact hf a b h' h2 hF rfl
  | err e => cases hx; exact ⟨hF, rfl⟩
  | panic => cases hx; exact ⟨hF, rfl⟩

theorem Follows.trans {α β : Type} {P Q : α → β → Heap → Prop} {r r' : Nat} {h h' : Heap} {x : Out α × Heap} {y : Res β} (a : Untouched r h h')
    (hr : r' = r ∨ h.length ≤ r') (b : Follows P r' h' x y) (hPQ : ∀ a b h, P a b h → Q a b h) : Follows Q r h x y := by
  refine ⟨a.trans b.1 hr, ?_⟩
  have := b.2
  cases y with
  | ok b =>
    obtain ⟨a, h1, h2⟩ := this
    exact ⟨a, h1, hPQ _ _ _ h2⟩
  | err e => exact this
  | panic => exact this

/-! ## Borrowing -/

theorem modify_self {r : Nat} {h : Heap} {c : RCell} {f : RCell → RCell} (hc : h[r]? = some c) (hf : f c = c) : h.modify r f = h := by
  apply List.ext_getElem?
  intro i
  rw [List.getElem?_modify]
  by_cases hi : r = i
  · subst hi; simp [hc, hf]
  · simp [hi]

theorem borrow_pure {α : Type} {r n : Nat} {h : Heap} {m : Metadata} (hc : h[r]? = some ⟨m, .shared n⟩) {body : Metadata → Mem α} {o : Out α}
    (hb : body m (Mem.setFlag r (.shared (n + 1)) h) = (o, Mem.setFlag r (.shared (n + 1)) h)) : Mem.borrow r body h = (o, h) := by
  unfold Mem.borrow
  rw [hc]
  simp only [hb]
  congr 1
  unfold Mem.dropRef Mem.setFlag
  apply List.ext_getElem?
  intro i
  rw [List.getElem?_modify, List.getElem?_modify]
  by_cases hi : r = i
  · subst hi; simp [hc]
  · simp [hi]

theorem setFlag_back {r : Nat} {h : Heap} {m : Metadata} {f : Flag} (hc : h[r]? = some ⟨m, .shared 0⟩) :
    Mem.setFlag r (.shared 0) (Mem.setFlag r f h) = h := by
  unfold Mem.setFlag
  apply List.ext_getElem?
  intro i
  rw [List.getElem?_modify, List.getElem?_modify]
  by_cases hi : r = i
  · subst hi; simp [hc]
  · simp [hi]

theorem frame_write {r : Nat} {h : Heap} {m m' : Metadata} (hc : h[r]? = some ⟨m, .shared 0⟩) :
    Untouched r h ((Mem.setFlag r .exclusive h).modify r (fun _ => ⟨m', .shared 0⟩)) ∧
      ((Mem.setFlag r .exclusive h).modify r (fun _ => ⟨m', .shared 0⟩))[r]? = some ⟨m', .shared 0⟩ := by
  refine ⟨⟨by simp [Mem.setFlag], ?_, ?_⟩, by simp [Mem.setFlag, hc]⟩
  · intro i hi _
    have hi' : ¬ r = i := fun h => hi h.symm
    simp [Mem.setFlag, hi']
  · intro hf c hcm
    obtain ⟨i, hi⟩ := List.getElem?_of_mem hcm
    simp only [Mem.setFlag, List.getElem?_modify] at hi
    by_cases hr : r = i
    · subst hr; simp [hc] at hi; rw [← hi]
    · simp only [hr, if_false] at hi
      simp only [Option.map_eq_map, Option.map_id'] at hi
      exact hf c (List.mem_of_getElem? hi)

/-- Borrowing a free cell to write: nothing conflicts, if the body does not touch cells. -/
theorem borrowMut_lift {α : Type} {r : Nat} {h : Heap} {m : Metadata} (hc : h[r]? = some ⟨m, .shared 0⟩)
    {body : Metadata → Mem (α × Option Metadata)} {y : Res (α × Option Metadata)}
    (hb : body m (Mem.setFlag r .exclusive h) = (y.out, Mem.setFlag r .exclusive h)) :
    Follows (fun a p h' => a = p.1 ∧ h'[r]? = some ⟨p.2.getD m, .shared 0⟩) r h (Mem.borrowMut r body h) y := by
  unfold Mem.borrowMut
  rw [hc]
  simp only
  rw [hb]
  cases y with
  | ok p =>
    rcases p with ⟨a, _ | m'⟩
    · simp only [Res.out]
      rw [setFlag_back hc]
      exact ⟨Untouched.rfl, a, rfl, rfl, hc⟩
    · simp only [Res.out]
      exact ⟨(frame_write hc).1, a, rfl, rfl, (frame_write hc).2⟩
  | err e => simp only [Res.out]; rw [setFlag_back hc]; exact ⟨Untouched.rfl, rfl⟩
  | panic => simp only [Res.out]; rw [setFlag_back hc]; exact ⟨Untouched.rfl, rfl⟩

/-! ## Resolving -/

/-- The scope after a resolution which began with the cell `r` in memory `h`. -/
def ScopeAfter (r : Nat) (h : Heap) (sc : ScopeRef) (s : Scope) (h' : Heap) : Prop := Sees h' sc s ∧ (sc.cell = r ∨ h.length ≤ sc.cell)

theorem resolveValue_follows {h : Heap} {sc : ScopeRef} {s : Scope} (hs : Sees h sc s) (id : Nat) (k : VKind) (expected : Option Ty) :
    Follows (ScopeAfter sc.cell h) sc.cell h (Cells.resolveValue id k expected sc h) (Verif.resolveValue id k expected s) := by
  obtain ⟨al, r⟩ := sc
  obtain ⟨al', md⟩ := s
  obtain ⟨hc, ha⟩ := hs
  simp only at hc ha
  subst ha
  let y : Res (Unit × Option Metadata) := (Verif.valueFromType k ⟨al, md⟩).bind fun f =>
    match coercionCost f (expected.getD f) with
    | some c => .ok ((), some (md.setValue id ⟨expected.getD f, c⟩))
    | none => .err (.typeError (.coercion k.ty (expected.getD f)))
  have key : Verif.resolveValue id k expected ⟨al, md⟩ = y >>= fun p => .ok ⟨al, p.2.getD md⟩ := by
    simp only [Verif.resolveValue, y, Res.bind_eq]
    cases valueFromType k ⟨al, md⟩ with
    | ok f =>
      simp only [Res.bind_ok]
      cases coercionCost f (expected.getD f) <;> rfl
    | err e => rfl
    | panic => rfl
  rw [key]
  refine Follows.bind (borrowMut_lift hc (y := y) ?_) ?_
  · simp only [y, Mem.bind_eq, Mem.bind]
    cases valueFromType k ⟨al, md⟩ with
    | ok f =>
      simp only [Mem.lift, Res.bind_ok]
      cases coercionCost f (expected.getD f) <;> rfl
    | err e => rfl
    | panic => rfl
  · rintro - p h' ⟨-, hp⟩ hF -
    exact ⟨hF, _, rfl, ⟨hp, rfl⟩, .inl rfl⟩

theorem addCost_follows {h : Heap} {sc : ScopeRef} {s : Scope} (hs : Sees h sc s) (e : Expr) (mult c : Nat) :
    Follows (fun a b h' => a = b ∧ Sees h' sc s) sc.cell h (Cells.addCost e mult c sc h)
      (do let cost ← recordedCost e s.md; let cost ← u32 (cost * mult); u32 (c + cost)) := by
  let y : Res (Nat × Option Metadata) := (do
    let cost ← recordedCost e s.md; let cost ← u32 (cost * mult); let c ← u32 (c + cost); .ok (c, none))
  have hk := borrowMut_lift hs.cell (y := y) (body := fun m => do
    let cost ← Mem.lift (recordedCost e m)
    let cost ← Mem.lift (u32 (cost * mult))
    let c ← Mem.lift (u32 (c + cost))
    return (c, none)) (by
      simp only [y, Mem.bind_eq, Mem.bind, Res.bind_eq]
      cases recordedCost e s.md with
      | ok a =>
        simp only [Mem.lift, Res.bind_ok]
        cases u32 (a * mult) with
        | ok b =>
          simp only [Res.bind_ok]
          cases u32 (c + b) <;> rfl
        | err e => rfl
        | panic => rfl
      | err e => rfl
      | panic => rfl)
  unfold Cells.addCost
  refine ⟨hk.1, ?_⟩
  have h2 := hk.2
  have hy : y = (do let cost ← recordedCost e s.md; let cost ← u32 (cost * mult); u32 (c + cost)) >>= fun c => .ok (c, none) := by
    simp only [y, Res.bind_eq]
    cases recordedCost e s.md with
    | ok a =>
      simp only [Res.bind_ok]
      cases u32 (a * mult) <;> rfl
    | err e => rfl
    | panic => rfl
  rw [hy] at h2
  generalize (do let cost ← recordedCost e s.md; let cost ← u32 (cost * mult); u32 (c + cost) : Res Nat) = z at h2
  cases z with
  | ok b =>
    obtain ⟨a, h3, h4, h5⟩ := h2
    exact ⟨a, h3, h4, h5, hs.aliases⟩
  | err e => exact h2
  | panic => exact h2

/-- A call resolved for one function: the cost, the scope, the arguments. -/
def AfterCall (r : Nat) (h : Heap) (a : Nat × ScopeRef × List Expr) (b : Nat × Scope × List Expr) (h' : Heap) : Prop :=
  a.1 = b.1 ∧ a.2.2 = b.2.2 ∧ ScopeAfter r h a.2.1 b.2.1 h'

theorem ScopeAfter.trans {r : Nat} {h h' h'' : Heap} {sc sc' : ScopeRef} {s s' : Scope} (hF : Untouched r h h') (a : ScopeAfter r h sc s h')
    (b : ScopeAfter sc.cell h' sc' s' h'') : ScopeAfter r h sc' s' h'' := by
  refine ⟨b.1, ?_⟩
  have := a.2
  have := b.2
  have := hF.len
  omega

theorem resolveCallForFunc_follows {h : Heap} {sc : ScopeRef} {s : Scope} (hs : Sees h sc s) {name : Str} {f : Func} {args : List Expr}
    {raw : Option (Nat × Toks)} {expected : Option Ty} {ra : List (Ty × Nat) → Nat → ScopeRef → Mem (Nat × ScopeRef × List Expr)}
    {ra' : List (Ty × Nat) → Nat → Scope → Res (Nat × Scope × List Expr)}
    (hra : ∀ ps c, Follows (AfterCall sc.cell h) sc.cell h (ra ps c sc h) (ra' ps c s)) :
    Follows (AfterCall sc.cell h) sc.cell h (Cells.resolveCallForFunc name f args raw expected sc ra h)
      (Verif.resolveCallForFunc name f args raw expected s ra') := by
  unfold Cells.resolveCallForFunc Verif.resolveCallForFunc
  refine Follows.bind (Follows.lift (P := fun a b h' => a = b ∧ h' = h) _ (fun _ _ => ⟨rfl, rfl⟩)) ?_
  rintro c - h' ⟨rfl, rfl⟩ - -
  rcases f.rawArg raw with _ | ⟨id, ts⟩
  · simp only
    split
    · exact hra _ _
    · split
      · exact hra _ _
      · exact ⟨Untouched.rfl, rfl⟩
  · simp only
    refine Follows.bind (resolveValue_follows hs id (.raw ts) (some .raw)) ?_
    intro sc' s' h' ha hF _
    exact ⟨hF, _, rfl, rfl, rfl, ha⟩

/-- A candidate in memory and as a value. -/
structure SameCandidate (h0 h : Heap) (a : Cells.Candidate) (b : Verif.Candidate) : Prop where
  cost : a.cost = b.cost
  func : a.func = b.func
  args : a.args = b.args
  scope : Sees h a.scope b.scope
  fresh : h0.length ≤ a.scope.cell

theorem deepClone_eq {h : Heap} {sc : ScopeRef} {s : Scope} (hs : Sees h sc s) :
    sc.deepClone h = (.ok ⟨sc.aliases, h.length⟩, h ++ [⟨s.md, .shared 0⟩]) := by
  unfold ScopeRef.deepClone
  rw [Mem.bind_eq, Mem.bind, borrow_pure hs.cell (o := .ok s.md) rfl]
  rfl

theorem Follows.result {α β : Type} {P : α → β → Heap → Prop} {r : Nat} {h0 h : Heap} {x : Mem α} {y : Res β} (hx : Follows P r h0 (x h) y) :
    Untouched r h0 (Mem.result x h).2 ∧ match (generalizing := false) y with
      | .ok b => ∃ a, (Mem.result x h).1 = .ok (.ok a) ∧ P a b (Mem.result x h).2
      | .err e => (Mem.result x h).1 = .ok (.error e)
      | .panic => (Mem.result x h).1 = .panic := by
  unfold Mem.result
  obtain ⟨hF, hx⟩ := hx
  generalize x h = z at *
  obtain ⟨o, h'⟩ := z
  cases y with
  | ok b => obtain ⟨a, h1, h2⟩ := hx; cases h1; exact ⟨hF, a, rfl, h2⟩
  | err e => cases hx; exact ⟨hF, rfl⟩
  | panic => cases hx; exact ⟨hF, rfl⟩

theorem SameCandidate.frame {h0 h h' : Heap} {r : Nat} {a : Cells.Candidate} {b : Verif.Candidate} (hs : SameCandidate h0 h a b) (hr : r < h0.length ∨ h.length ≤ r)
    (hF : Untouched r h h') : SameCandidate h0 h' a b :=
  ⟨hs.cost, hs.func, hs.args, hs.scope.frame (by have := hs.fresh; have := hs.scope.lt; omega) hF, hs.fresh⟩

theorem All2.imp {α β : Type} {R R' : α → β → Prop} {as : List α} {bs : List β} (h : ∀ a b, R a b → R' a b) (hl : All2 R as bs) : All2 R' as bs := by
  induction hl with
  | nil => exact .nil
  | cons h1 _ ih => exact .cons (h _ _ h1) ih

theorem candidates_follows {sc : ScopeRef} {s : Scope} {attempt : Func → ScopeRef → Mem (Nat × ScopeRef × List Expr)}
    {attempt' : Func → Res (Nat × Scope × List Expr)}
    (ha : ∀ f clone h, Sees h clone s → Follows (AfterCall clone.cell h) clone.cell h (attempt f clone h) (attempt' f)) :
    ∀ (fs : List Func) (h : Heap), Sees h sc s →
      Follows (fun cs cs' h' => All2 (SameCandidate h h') cs cs') h.length h (Cells.candidates sc attempt fs h) (Verif.candidates attempt' fs)
  | [], h, hs => ⟨Untouched.rfl, [], rfl, .nil⟩
  | f :: fs, h, hs => by
    have hcl := deepClone_eq hs
    have hlt := hs.lt
    have hF0 : Untouched h.length h (h ++ [⟨s.md, .shared 0⟩]) := by
      refine ⟨by simp, fun i _ hi => List.getElem?_append_left hi, fun hf c hc => ?_⟩
      simp only [List.mem_append, List.mem_singleton] at hc
      rcases hc with hc | rfl
      · exact hf c hc
      · rfl
    have hsc : Sees (h ++ [⟨s.md, .shared 0⟩]) ⟨sc.aliases, h.length⟩ s := ⟨by simp, hs.aliases⟩
    have h1 := (ha f _ _ hsc).result
    unfold Cells.candidates Verif.candidates
    rw [Mem.bind_eq, Mem.bind, hcl]
    simp only [Mem.bind_eq, Mem.bind]
    generalize hh0 : h ++ [⟨s.md, .shared 0⟩] = h0 at *
    have hl0 : h0.length = h.length + 1 := by rw [← hh0]; simp
    rcases hat : Mem.result (attempt f ⟨sc.aliases, h.length⟩) h0 with ⟨o, h2⟩
    rw [hat] at h1
    obtain ⟨hF1, h1⟩ := h1
    simp only at hF1 h1
    have hF3 : Untouched h.length h h2 := hF0.trans hF1 (.inl rfl)
    have hs2 : Sees h2 sc s := hs.frame (by omega) hF3
    have ih := candidates_follows ha fs h2 hs2
    have hle := hF3.len
    cases hy : attempt' f with
    | ok p =>
      obtain ⟨c, s', as⟩ := p
      rw [hy] at h1
      obtain ⟨⟨c', sc', as'⟩, h3, h4, h5, h6, h7⟩ := h1
      simp only at h3 h4 h5 h6 h7
      subst h3 h4 h5
      simp only [Mem.bind_eq, Mem.bind]
      have hnew : SameCandidate h h2 ⟨c', sc', f, as'⟩ ⟨c', s', f, as'⟩ := ⟨rfl, rfl, rfl, h6, by simp only; omega⟩
      generalize Cells.candidates sc attempt fs h2 = z at ih
      obtain ⟨o, h8⟩ := z
      obtain ⟨hF4, ih⟩ := ih
      simp only at hF4 ih
      have hF5 := hF3.trans hF4 (.inr hle)
      cases hz : Verif.candidates attempt' fs with
      | ok cs =>
        rw [hz] at ih
        obtain ⟨cs', rfl, h9⟩ := ih
        refine ⟨hF5, _, rfl, .cons (hnew.frame (.inr (Nat.le_refl _)) hF4) (h9.imp ?_)⟩
        intro a b hab
        exact ⟨hab.cost, hab.func, hab.args, hab.scope, Nat.le_trans hle hab.fresh⟩
      | err e => rw [hz] at ih; subst ih; exact ⟨hF5, rfl⟩
      | panic => rw [hz] at ih; subst ih; exact ⟨hF5, rfl⟩
    | err e =>
      rw [hy] at h1
      simp only at h1
      subst h1
      have : Follows (fun cs cs' h' => All2 (SameCandidate h h') cs cs') h.length h (Cells.candidates sc attempt fs h2) (Verif.candidates attempt' fs) :=
        ih.trans hF3 (.inr hle) (fun _ _ _ h => h.imp fun a b hab => ⟨hab.cost, hab.func, hab.args, hab.scope, Nat.le_trans hle hab.fresh⟩)
      by_cases he : e = .internal
      · subst he; exact ⟨hF3, rfl⟩
      · cases e <;> first | exact absurd rfl he | exact this
    | panic => rw [hy] at h1; simp only at h1; subst h1; exact ⟨hF3, rfl⟩

theorem All2.insert {h0 h : Heap} {x : Cells.Candidate} {y : Verif.Candidate} (hxy : SameCandidate h0 h x y) {as : List Cells.Candidate}
    {bs : List Verif.Candidate} (hl : All2 (SameCandidate h0 h) as bs) :
    All2 (SameCandidate h0 h) (Cells.insertByKey x as) (Verif.insertByKey y bs) := by
  induction hl with
  | nil => exact .cons hxy .nil
  | @cons a b as bs hab hl ih =>
    have : x.le a = y.le b := by
      simp only [Cells.Candidate.le, Verif.Candidate.le, hxy.cost, hxy.func, hab.cost, hab.func]
    unfold Cells.insertByKey Verif.insertByKey
    rw [this]
    split
    · exact .cons hxy (.cons hab hl)
    · exact .cons hab ih

theorem All2.sort {h0 h : Heap} {as : List Cells.Candidate} {bs : List Verif.Candidate} (hl : All2 (SameCandidate h0 h) as bs) :
    All2 (SameCandidate h0 h) (Cells.sortByKey as) (Verif.sortByKey bs) := by
  induction hl with
  | nil => exact .nil
  | cons hab _ ih => exact ih.insert hab

theorem selectCandidate_follows {h0 h : Heap} {r : Nat} {as : List Cells.Candidate} {bs : List Verif.Candidate} (hl : All2 (SameCandidate h0 h) as bs)
    {r' : Nat} (hF : Untouched r h0 h) (id : Nat) (x : Err) (expected : Option Ty) :
    Follows (ScopeAfter r' h0) r h0 (Cells.selectCandidate id x expected as h) (Verif.selectCandidate id x expected bs) := by
  unfold Cells.selectCandidate Verif.selectCandidate
  have := hl.sort
  generalize Cells.sortByKey as = as at *
  generalize Verif.sortByKey bs = bs at *
  cases this with
  | nil => exact ⟨hF, rfl⟩
  | @cons a b _ _ hab _ =>
    simp only
    have hk := borrowMut_lift hab.scope.cell (y := .ok ((), some (b.scope.md.setCall id ⟨b.args, b.func, expected.getD b.func.out, b.cost⟩)))
      (body := fun m => return ((), some (m.setCall id ⟨a.args, a.func, expected.getD a.func.out, a.cost⟩))) (by
        rw [hab.cost, hab.func, hab.args]; rfl)
    have hk2 : Follows (ScopeAfter r' h0) a.scope.cell h
        ((do Mem.borrowMut a.scope.cell fun m => return ((), some (m.setCall id ⟨a.args, a.func, expected.getD a.func.out, a.cost⟩))
             return a.scope : Mem ScopeRef) h)
        ((.ok ((), some (b.scope.md.setCall id ⟨b.args, b.func, expected.getD b.func.out, b.cost⟩)) : Res (Unit × Option Metadata)) >>= fun p =>
          .ok ⟨b.scope.aliases, p.2.getD b.scope.md⟩) := by
      refine Follows.bind hk ?_
      rintro - p h' ⟨-, hp⟩ hF' -
      exact ⟨hF', _, rfl, ⟨hp, hab.scope.aliases⟩, .inr hab.fresh⟩
    exact hk2.trans hF (.inr hab.fresh) (fun _ _ _ h => h)

theorem Untouched.widen {r r' : Nat} {h h' : Heap} (hr : r' = r ∨ h.length ≤ r') (hF : Untouched r' h h') : Untouched r h h' := Untouched.rfl.trans hF hr

theorem Follows.widen {α β : Type} {P : α → β → Heap → Prop} {r r' : Nat} {h : Heap} {x : Out α × Heap} {y : Res β} (hx : Follows P r' h x y)
    (hr : r' = r ∨ h.length ≤ r') : Follows P r h x y := ⟨hx.1.widen hr, hx.2⟩

/-- Resolving a call writes no cell that was there before. -/
theorem resolveCall_follows (env : Env) (id : Nat) (name : Str) (args : List Expr) (raw : Option (Nat × Toks)) (expected : Option Ty) (h : Heap)
    (sc : ScopeRef) (s : Scope) (hs : Sees h sc s)
    (ih : ∀ (ps : List (Ty × Nat)) (c : Nat) (h : Heap) (sc : ScopeRef) (s : Scope), Sees h sc s →
      Follows (AfterCall sc.cell h) sc.cell h (Cells.resolveArgs env args ps c sc h) (Expr.resolveArgs env args ps c s)) :
    Follows (ScopeAfter sc.cell h) h.length h (Cells.resolve env (.call id name args raw) expected sc h)
      ((Expr.call id name args raw).resolve env expected s) := by
  unfold Cells.resolve Expr.resolve
  cases env.funcs name with
  | none => exact ⟨Untouched.rfl, rfl⟩
  | some fs =>
    simp only
    refine Follows.bind (candidates_follows (attempt' := fun f => Verif.resolveCallForFunc name f args raw expected s
      (fun ps c sc => Expr.resolveArgs env args ps c sc)) ?_ fs h hs) ?_
    · intro f clone h hc
      exact resolveCallForFunc_follows hc (fun ps c => ih ps c h clone s hc)
    · intro cs cs' h' hl hF _
      exact selectCandidate_follows hl hF _ _ _

mutual
theorem resolve_follows (env : Env) : ∀ (e : Expr) (expected : Option Ty) (h : Heap) (sc : ScopeRef) (s : Scope), Sees h sc s →
    Follows (ScopeAfter sc.cell h) sc.cell h (Cells.resolve env e expected sc h) (e.resolve env expected s)
  | .value id k, expected, h, sc, s, hs => by
    unfold Cells.resolve Expr.resolve
    exact resolveValue_follows hs id k expected
  | .call id name args raw, expected, h, sc, s, hs => by
    refine Follows.widen (resolveCall_follows env id name args raw expected h sc s hs (resolveArgs_follows env args)) (.inr (Nat.le_refl _))
theorem resolveArgs_follows (env : Env) : ∀ (es : List Expr) (ps : List (Ty × Nat)) (c : Nat) (h : Heap) (sc : ScopeRef) (s : Scope), Sees h sc s →
    Follows (AfterCall sc.cell h) sc.cell h (Cells.resolveArgs env es ps c sc h) (Expr.resolveArgs env es ps c s)
  | e :: es, (t, m) :: ps, c, h, sc, s, hs => by
    unfold Cells.resolveArgs Expr.resolveArgs
    refine Follows.bind (resolve_follows env e (some t) h sc s hs) ?_
    intro sc1 s1 h1 ha hF _
    have hcost : (do
        let cost ← recordedCost e s1.md
        let cost ← u32 (cost * m)
        let c ← u32 (c + cost)
        let (c, sc, rest) ← Expr.resolveArgs env es ps c s1
        .ok (c, sc, e :: rest) : Res (Nat × Scope × List Expr)) = (do
        let c ← (do let cost ← recordedCost e s1.md; let cost ← u32 (cost * m); u32 (c + cost) : Res Nat)
        let (c, sc, rest) ← Expr.resolveArgs env es ps c s1
        .ok (c, sc, e :: rest)) := by
      simp only [Res.bind_eq]
      cases recordedCost e s1.md with
      | ok a =>
        simp only [Res.bind_ok]
        cases u32 (a * m) <;> rfl
      | err e => rfl
      | panic => rfl
    rw [hcost]
    refine Follows.trans hF ha.2 (P := AfterCall sc.cell h) ?_ (fun _ _ _ h => h)
    refine Follows.bind (addCost_follows ha.1 e m c) ?_
    rintro c' - h2 ⟨rfl, hs2⟩ hF2 -
    refine Follows.trans hF2 (.inl rfl) (P := AfterCall sc.cell h) ?_ (fun _ _ _ h => h)
    refine Follows.bind (resolveArgs_follows env es ps c' h2 sc1 s1 hs2) ?_
    rintro ⟨c3, sc3, as⟩ ⟨c4, s4, bs⟩ h3 ⟨h4, h5, h6⟩ hF3 -
    simp only at h4 h5 h6
    subst h4 h5
    refine ⟨hF3, _, rfl, rfl, rfl, h6.1, ?_⟩
    have := h6.2
    have := ha.2
    have := hF.len
    have := hF2.len
    simp only
    omega
  | [], _, c, h, sc, s, hs => by
    unfold Cells.resolveArgs Expr.resolveArgs
    exact ⟨Untouched.rfl, _, rfl, rfl, rfl, hs, .inl rfl⟩
  | _ :: _, [], c, h, sc, s, hs => by
    unfold Cells.resolveArgs Expr.resolveArgs
    exact ⟨Untouched.rfl, _, rfl, rfl, rfl, hs, .inl rfl⟩
end

theorem resolveSpec_follows (env : Env) : ∀ (items : List (Alias × Expr)) (h : Heap) (sc : ScopeRef) (s : Scope), Sees h sc s →
    Follows (ScopeAfter sc.cell h) sc.cell h (Cells.resolveSpec env items sc h) (Verif.resolveSpec env items s)
  | [], h, sc, s, hs => ⟨Untouched.rfl, sc, rfl, hs, .inl rfl⟩
  | item :: items, h, sc, s, hs => by
    unfold Cells.resolveSpec Verif.resolveSpec
    refine Follows.bind (P := ScopeAfter sc.cell h) ?_ ?_
    · unfold Cells.resolveItem Verif.resolveItem
      refine Follows.bind (resolve_follows env item.2 none h sc s hs) ?_
      intro sc1 s1 h1 ha hF _
      unfold ScopeRef.tryAddName Scope.tryAddName
      rw [ha.1.aliases]
      cases s1.aliases item.1.2 with
      | some _ => exact ⟨hF, rfl⟩
      | none => exact ⟨hF, _, rfl, ⟨ha.1.cell, rfl⟩, ha.2⟩
    · intro sc1 s1 h1 ha hF _
      refine ⟨hF.trans (resolveSpec_follows env items h1 sc1 s1 ha.1).1 ha.2, ?_⟩
      have := (resolveSpec_follows env items h1 sc1 s1 ha.1).2
      cases hy : Verif.resolveSpec env items s1 with
      | ok s2 => rw [hy] at this; obtain ⟨sc2, h2, h3⟩ := this; exact ⟨sc2, h2, ha.trans hF h3⟩
      | err e => rw [hy] at this; exact this
      | panic => rw [hy] at this; exact this

/-! ## Evaluating -/

theorem lift_eq {α : Type} (x : Res α) (h : Heap) : Mem.lift x h = (x.out, h) := by cases x <;> rfl

theorem bind_out {α β : Type} {x : Mem α} {y : Res α} {f : α → Mem β} {g : α → Res β} {h : Heap} (hx : x h = (y.out, h))
    (hf : ∀ a, f a h = ((g a).out, h)) : (x >>= f) h = ((y >>= g).out, h) := by
  rw [Mem.bind_eq, Mem.bind, hx]
  cases y with
  | ok a => exact hf a
  | err e => rfl
  | panic => rfl

theorem mapMem_eq {α β : Type} {f : α → Mem β} {g : α → Res β} {h : Heap} (hf : ∀ a, f a h = ((g a).out, h)) :
    ∀ xs, Cells.mapMem f xs h = ((mapRes g xs).out, h)
  | [] => rfl
  | x :: xs => by
    unfold Cells.mapMem mapRes
    exact bind_out (hf x) (fun y => bind_out (mapMem_eq hf xs) (fun ys => rfl))

theorem getElem?_setFlag {r : Nat} {h : Heap} {m : Metadata} {n k : Nat} (hc : h[r]? = some ⟨m, .shared n⟩) :
    (Mem.setFlag r (.shared k) h)[r]? = some ⟨m, .shared k⟩ := by
  simp [Mem.setFlag, hc]

theorem evalExpr_cells {E : Ext} {env : Env} {r : Nat} {m : Metadata} {vars : Vars} : ∀ (n : Nat) (e : Expr) (k : Nat) (h : Heap),
    h[r]? = some ⟨m, .shared k⟩ → Cells.evalExpr E env r vars n e h = ((Verif.evalExpr E env m vars n e).out, h)
  | 0, e, k, h, hc => rfl
  | n + 1, .value id v, k, h, hc => by
    unfold Cells.evalExpr Verif.evalExpr Cells.evalValue
    exact borrow_pure hc (lift_eq _ _)
  | n + 1, .call id _ _ _, k, h, hc => by
    unfold Cells.evalExpr Verif.evalExpr
    refine borrow_pure hc ?_
    cases m.calls id with
    | none => rfl
    | some md =>
      refine bind_out (mapMem_eq (fun e => evalExpr_cells n e (k + 1) _ (getElem?_setFlag hc)) _) (fun vs => ?_)
      exact bind_out (lift_eq _ _) (fun v => lift_eq _ _)

theorem evalSpec_cells {E : Ext} {env : Env} {r : Nat} {m : Metadata} {h : Heap} {k : Nat} (hc : h[r]? = some ⟨m, .shared k⟩) :
    ∀ (items : List (Alias × Expr)) (vars : Vars) (bs : List (Alias × VKind)),
      Cells.evalSpec E env r items vars bs h = ((Verif.evalSpec E env m items vars bs).out, h)
  | [], vars, bs => rfl
  | (a, e) :: items, vars, bs => by
    unfold Cells.evalSpec Verif.evalSpec
    exact bind_out (evalExpr_cells _ _ k h hc) (fun v => evalSpec_cells hc items _ _)

theorem makeSubstitutions_cells (E : Ext) (env : Env) (order : List (Alias × VKind) → List (Alias × VKind)) (items : List (Alias × Expr)) (h : Heap) :
    Follows (fun a b _ => a = b) h.length h (Cells.makeSubstitutions E env order items h) (Verif.makeSubstitutions E env order items) := by
  unfold Cells.makeSubstitutions Verif.makeSubstitutions
  have hnew : ScopeRef.new h = (.ok ⟨fun _ => none, h.length⟩, h ++ [⟨Metadata.empty, .shared 0⟩]) := rfl
  rw [Mem.bind_eq, Mem.bind, hnew]
  simp only
  have hF0 : Untouched h.length h (h ++ [⟨Metadata.empty, .shared 0⟩]) := by
    refine ⟨by simp, fun i _ hi => List.getElem?_append_left hi, fun hf c hc => ?_⟩
    simp only [List.mem_append, List.mem_singleton] at hc
    rcases hc with hc | rfl
    · exact hf c hc
    · rfl
  have hs : Sees (h ++ [⟨Metadata.empty, .shared 0⟩]) ⟨fun _ => none, h.length⟩ Scope.empty := ⟨by simp [Scope.empty], rfl⟩
  refine Follows.trans hF0 (.inl rfl) (P := fun a b _ => a = b) ?_ (fun _ _ _ h => h)
  refine Follows.bind (resolveSpec_follows env items _ _ _ hs) ?_
  intro sc1 s1 h1 ha hF _
  have he := evalSpec_cells (E := E) (env := env) ha.1.cell items (fun _ => none) []
  rw [Mem.bind_eq, Mem.bind, he]
  cases Verif.evalSpec E env s1.md items (fun _ => none) [] with
  | ok b => exact ⟨hF, _, rfl, rfl⟩
  | err e => exact ⟨hF, rfl⟩
  | panic => exact ⟨hF, rfl⟩

end Verif
