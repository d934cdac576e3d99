import Verif.Proofs.Run
import Verif.Proofs.UniqueId
/-! # Invocations on a thread -/

namespace Verif
open Spec Props

/-- The state of a thread between two invocations. -/
structure Idle (t : Thread) : Prop where
  cell : t.cell = none ∨ ∃ pre, t.cell = some (Service.new pre)
  env : t.env = none ∨ ∃ s, t.env = some (Env.builtin s)

/-- The prefix for warnings on a thread. -/
def preOn (t : Thread) (inv : Invocation) : Str := (t.cell.map (·.pre)).getD inv.pre

theorem idle_fresh : Idle Thread.fresh := ⟨.inl rfl, .inl rfl⟩

theorem hasFunc_builtin (s : Nat) : (Env.builtin s).hasFunc = isBuiltin := rfl

theorem parseArgs_outcome (W : World) (ids : Nat → Nat) (k : Nat) (sv : Service) (hb : 1 ≤ sv.borrowed) (inv : Invocation) :
    POutcome ids (fun _ => Reads W inv) [] k sv (parseArgs W.Y isBuiltin ids k (some sv) inv) := by
  have simple : ∀ ts, POutcome ids (fun _ a => ReadsInput isBuiltin W.Y ts a) [] k sv (parseRawAst W.Y isBuiltin ids ts k (some sv)) := by
    intro ts
    generalize hx : parseRawAst W.Y isBuiltin ids ts k (some sv) = x
    cases hx ▸ parseRawAst_outcome W.Y isBuiltin ids ts k sv hb with
    | ok a k' h hu hk hd => exact .ok a k' h hu hk hd
    | err k' w h hk => exact .err k' w h hk
  cases inv with
  | compose ts => exact simple ts
  | composeIdents ts => exact simple ts
  | composeItem attr item =>
    simp only [parseArgs]
    generalize hx : parseAttr W.Y isBuiltin ids attr k (some sv) = x
    cases hx ▸ parseAttr_outcome W.Y isBuiltin ids attr k sv hb with
    | err k' w h hk => exact .err k' w (fun a ha => h _ ha.1) hk
    | ok a k' h hu hk hd =>
      simp only [withItem]
      cases hp : W.Y.parseBlock item with
      | none => exact .err k' _ (fun a ha => by rw [ha.2] at hp; cases hp) hk
      | some block =>
        have hbl : a.block = [] := by cases h; rfl
        refine .ok { a with block } k' ⟨by rw [← hbl]; exact h, hp⟩ ?_ hk hd
        rintro a' ⟨h1, h2⟩
        have := hu _ h1
        rw [hp] at h2
        cases h2
        simp only [astErase, Prod.mk.injEq] at this ⊢
        exact ⟨this.1, trivial⟩

/-- What an invocation puts out, depending only on its input, the seed and the prefix for warnings. -/
inductive Result (W : World) (seed : Nat) (pre : Str) (inv : Invocation) : Output → Prop
  | ok (a : PAst) (h : Reads W inv a) :
      Result W seed pre inv (.ofRes (expansion W (Env.builtin seed) (serviceFor pre (withSemicolons a.spec)) (tree a)))
  | err (h : ∀ a, ¬ Reads W inv a) : Result W seed pre inv (.compileError .parse)

theorem reads_unique {W : World} {inv : Invocation} {a a' : PAst} (h : Reads W inv a) (h' : Reads W inv a') : astErase a = astErase a' := by
  have := parseArgs_outcome W (fun k => k) 0 ⟨[], 1, []⟩ (Nat.le_refl _) inv
  generalize parseArgs W.Y isBuiltin (fun k => k) 0 (some ⟨[], 1, []⟩) inv = x at this
  cases this with
  | ok a0 _ _ hu => exact (hu a h).trans (hu a' h').symm
  | err _ _ hn => exact (hn a h).elim

theorem usesSemicolon_eq (s : Option PSpec) : usesSemicolon s = withSemicolons s := by
  match s with
  | none | some ⟨_, _, none⟩ | some ⟨_, _, some false⟩ | some ⟨_, _, some true⟩ => rfl

theorem usesSemicolon_reads {a a' : PAst} (h : astErase a = astErase a') : withSemicolons a.spec = withSemicolons a'.spec := by
  simp only [astErase, headerErase, Prod.mk.injEq] at h
  rw [← usesSemicolon_eq, ← usesSemicolon_eq]
  exact usesSemicolon_erase h.1.2

theorem result_unique {W : World} {seed : Nat} {pre : Str} {inv : Invocation} {o o' : Output} (h : Result W seed pre inv o)
    (h' : Result W seed pre inv o') : o = o' := by
  cases h with
  | err h =>
    cases h' with
    | err => rfl
    | ok a ha => exact (h a ha).elim
  | ok a ha =>
    cases h' with
    | err h => exact (h a ha).elim
    | ok a' ha' =>
      have := reads_unique ha ha'
      rw [usesSemicolon_reads this, tree_congr this]

/-- The number of ids drawn for nodes and before, in an invocation on a thread. -/
def idsDrawn (W : World) (ids : Nat → Nat) (inv : Invocation) (t : Thread) : Nat :=
  (parseArgs W.Y isBuiltin ids setupDraws (some ⟨[], 1, preOn t inv⟩) inv).2.1

/-- The ids drawn by the invocation are different, and the hash maps are iterated over in some order. -/
structure Fair (W : World) (l : Luck) (inv : Invocation) (t : Thread) : Prop where
  orders : ∀ n, IsOrder (l.orders n)
  inj : ∀ p q, p < idsDrawn W l.ids inv t → q < idsDrawn W l.ids inv t → l.ids p = l.ids q → p = q

theorem drawn_nodup {ids : Nat → Nat} {k k' : Nat} {l : List Nat} (h : Drawn ids k k' l)
    (inj : ∀ p q, p < k' → q < k' → ids p = ids q → p = q) : l.Nodup := by
  obtain ⟨ps, rfl, hn, hb⟩ := h
  rw [List.Nodup, List.pairwise_map]
  refine List.Pairwise.imp_of_mem ?_ hn
  intro a b ha hb' hab e
  exact hab (inj a b (hb a ha).2 (hb b hb').2 e)

theorem scoped_idle {t : Thread} (h : Idle t) (inv : Invocation) :
    (t.cell.maybeSet (Service.new inv.pre)).scoped = .ok (some ⟨[], 1, preOn t inv⟩) := by
  rcases h.cell with h | ⟨pre, h⟩ <;> simp [h, preOn, ThreadCell.maybeSet, ThreadCell.scoped, Service.new]

theorem env_idle {t : Thread} (h : Idle t) (s : Nat) : ∃ s', t.env.getD (Env.builtin s) = Env.builtin s' := by
  rcases h.env with h | ⟨s', h⟩
  · exact ⟨s, by rw [h]; rfl⟩
  · exact ⟨s', by rw [h]; rfl⟩

theorem drop_warned (w : Bool) (pre : Str) : ThreadCell.dropScope (some (if w then Service.addSemicolonWarning ⟨[], 1, pre⟩ else ⟨[], 1, pre⟩)) =
    some (Service.new pre) := by cases w <;> rfl

theorem serviceFor_eq (w : Bool) (pre : Str) :
    (if w then Service.addSemicolonWarning ⟨[], 1, pre⟩ else ⟨[], 1, pre⟩) = serviceFor pre w := by cases w <;> rfl

/-- The state of the thread after an invocation. -/
theorem composeCore_thread (W : World) (ids : Nat → Nat) (orders : Orders) (inv : Invocation) {t : Thread} (h : Idle t) :
    ∃ s, (composeCore W ids orders inv t).2 = ⟨some (Service.new (preOn t inv)), some (Env.builtin s)⟩ := by
  obtain ⟨s, hs⟩ := env_idle h (ids 0)
  refine ⟨s, ?_⟩
  simp only [composeCore, scoped_idle h, hs, hasFunc_builtin]
  have := parseArgs_outcome W ids setupDraws ⟨[], 1, preOn t inv⟩ (Nat.le_refl _) inv
  generalize parseArgs W.Y isBuiltin ids setupDraws (some ⟨[], 1, preOn t inv⟩) inv = x at this
  cases this with
  | ok a => simp only [drop_warned]
  | err k w => simp only [drop_warned]

theorem idle_after (W : World) (ids : Nat → Nat) (orders : Orders) (inv : Invocation) {t : Thread} (h : Idle t) :
    Idle (composeCore W ids orders inv t).2 := by
  obtain ⟨s, hs⟩ := composeCore_thread W ids orders inv h
  rw [hs]
  exact ⟨.inr ⟨_, rfl⟩, .inr ⟨_, rfl⟩⟩

/-- The output of an invocation. -/
theorem composeCore_result (W : World) (l : Luck) (inv : Invocation) {t : Thread} (h : Idle t) (hf : Fair W l inv t) :
    Result W (l.ids 0) (preOn t inv) inv (composeCore W l.ids l.orders inv t).1 := by
  obtain ⟨s, hs⟩ := env_idle h (l.ids 0)
  simp only [composeCore, scoped_idle h, hs, hasFunc_builtin]
  have := parseArgs_outcome W l.ids setupDraws ⟨[], 1, preOn t inv⟩ (Nat.le_refl _) inv
  have hi := hf.inj
  unfold idsDrawn at hi
  generalize parseArgs W.Y isBuiltin l.ids setupDraws (some ⟨[], 1, preOn t inv⟩) inv = x at this hi
  cases this with
  | ok a k' hr hu hk hd =>
    simp only [finish, serviceFor_eq, usesSemicolon_eq]
    rw [execute_eq (drawn_nodup hd hi) hf.orders]
    exact .ok a hr
  | err k w hn => exact .err hn

/-- On an idle thread the parsed tree has different ids. -/
theorem parseArgs_nodup (W : World) (l : Luck) (inv : Invocation) {t : Thread} (hf : Fair W l inv t) {a : PAst} {k : Nat} {c : ThreadCell}
    (h : parseArgs W.Y isBuiltin l.ids setupDraws (some ⟨[], 1, preOn t inv⟩) inv = (.ok a, k, c)) : (astIds a).Nodup := by
  have := parseArgs_outcome W l.ids setupDraws ⟨[], 1, preOn t inv⟩ (Nat.le_refl _) inv
  have hi := hf.inj
  unfold idsDrawn at hi
  rw [h] at this hi
  cases this with
  | ok a k' hr hu hk hd => exact drawn_nodup hd hi

/-! ## Histories -/

theorem runAll_append (W : World) (xs ys : List (Invocation × Luck)) (t : Thread) :
    runAll W (xs ++ ys) t = ((runAll W xs t).1 ++ (runAll W ys (runAll W xs t).2).1, (runAll W ys (runAll W xs t).2).2) := by
  induction xs generalizing t with
  | nil => rfl
  | cons x xs ih => simp [runAll, ih]

theorem runAll_length (W : World) (xs : List (Invocation × Luck)) (t : Thread) : (runAll W xs t).1.length = xs.length := by
  induction xs generalizing t with
  | nil => rfl
  | cons x xs ih => simp [runAll, ih]

theorem runAll_idle (W : World) (xs : List (Invocation × Luck)) {t : Thread} (h : Idle t) : Idle (runAll W xs t).2 := by
  induction xs generalizing t with
  | nil => exact h
  | cons x xs ih => exact ih (idle_after W _ _ _ h)

theorem preOn_after (W : World) (ids : Nat → Nat) (orders : Orders) (inv inv' : Invocation) {t : Thread} (h : Idle t) :
    preOn (composeCore W ids orders inv t).2 inv' = preOn t inv := by
  obtain ⟨s, hs⟩ := composeCore_thread W ids orders inv h
  rw [hs]
  rfl

/-- The prefix after some invocations is that of the first. -/
theorem preOn_runAll (W : World) (xs : List (Invocation × Luck)) {t : Thread} (h : Idle t) (inv : Invocation) :
    preOn (runAll W xs t).2 inv = preOn t ((xs.head?.map (·.1)).getD inv) := by
  induction xs generalizing t inv with
  | nil => rfl
  | cons x xs ih =>
    simp only [runAll]
    rw [ih (idle_after W _ _ _ h), preOn_after W _ _ _ _ h]
    rfl

end Verif
