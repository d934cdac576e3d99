import Verif.Proofs.Message
import Verif.Spec.Typing
/-! # The resolve phase computes the pure typing -/

namespace Verif
open Spec

/-! ## Costs and parameters -/

theorem coercionCostBasic_le {a b : Ty} {c : Nat} (h : coercionCostBasic a b = some c) : c ≤ 5 := by
  unfold coercionCostBasic at h
  split at h
  · cases h; omega
  · split at h <;> cases h <;> omega

theorem coercionCost_le {a b : Ty} {c : Nat} (h : coercionCost a b = some c) : c ≤ 5 := by
  unfold coercionCost at h
  split at h <;> exact coercionCostBasic_le h

theorem coercionCost_self (t : Ty) : coercionCost t t = some 0 := by
  cases t <;> simp [coercionCost, coercionCostBasic]

theorem variadicArg_isSome (f : Func) : f.variadicArg.isSome = f.isVariadic := by
  unfold Func.variadicArg Func.isVariadic
  induction f.args with
  | nil => rfl
  | cons t ts ih =>
    simp only [List.find?_cons, List.any_cons]
    cases t <;> simp [Ty.isVariadic] <;> exact ih

theorem fixedArgs_of_not_variadic {f : Func} (h : f.isVariadic = false) : f.fixedArgs = f.args := by
  unfold Func.fixedArgs
  rw [List.filter_eq_self]
  simpa [Func.isVariadic] using h

theorem fixedArgs_length_le (f : Func) : f.fixedArgs.length ≤ f.args.length := List.length_filter_le ..

theorem paramsFor_some {f : Func} {n : Nat} {ps : List (Ty × Nat)} (h : paramsFor f n = some ps) :
    ps = f.params n ∧ n ≤ ps.length ∧ ∀ p ∈ ps, p.2 ≤ 2 := by
  unfold paramsFor at h
  have hv := variadicArg_isSome f
  split at h
  · rename_i hn
    split at h
    · cases h
      rw [hn] at hv
      have hf := fixedArgs_of_not_variadic hv.symm
      refine ⟨by simp [Func.params, hn, hf], by simp_all, ?_⟩
      intro p hp
      simp only [List.mem_map] at hp
      obtain ⟨t, -, rfl⟩ := hp
      simp
    · cases h
  · rename_i t ht
    split at h
    · cases h
      have := fixedArgs_length_le f
      refine ⟨by simp [Func.params, ht], by simp; omega, ?_⟩
      intro p hp
      simp only [List.mem_append, List.mem_map, List.mem_replicate] at hp
      rcases hp with ⟨t, -, rfl⟩ | ⟨-, rfl⟩ <;> simp
    · cases h

/-! ## Relating lists -/

/-- Two lists related element by element. -/
inductive All2 {α β : Type} (R : α → β → Prop) : List α → List β → Prop
  | nil : All2 R [] []
  | cons {a b as bs} : R a b → All2 R as bs → All2 R (a :: as) (b :: bs)

/-! ## Selection of the best candidate -/

/-- Head of the sorted list, by recursion. -/
def bestC : List Candidate → Option Candidate
  | [] => none
  | x :: xs =>
    match bestC xs with
    | none => some x
    | some y => if x.le y then some x else some y

theorem head_insertByKey (x : Candidate) (l : List Candidate) :
    (insertByKey x l).head? = match l.head? with
      | none => some x
      | some y => if x.le y then some x else some y := by
  cases l with
  | nil => rfl
  | cons y ys =>
    simp only [insertByKey, List.head?_cons]
    split <;> rfl

theorem head_sortByKey (cs : List Candidate) : (sortByKey cs).head? = bestC cs := by
  induction cs with
  | nil => rfl
  | cons x xs ih => rw [sortByKey, head_insertByKey, ih]; rfl

/-- A candidate of the code and a choice of the specification with the same cost and function. -/
def SameKey (c : Candidate) (ch : Choice) : Prop := c.cost = ch.cost ∧ c.func = ch.func

theorem le_iff_not_better {c d : Candidate} {ch dh : Choice} (h : SameKey c ch) (h' : SameKey d dh) :
    c.le d = true ↔ ¬ dh.better ch := by
  obtain ⟨h1, h2⟩ := h
  obtain ⟨h3, h4⟩ := h'
  unfold Candidate.le Choice.better
  rw [h1, h2, h3, h4]
  generalize hva : ch.func.isVariadic = va
  generalize hvb : dh.func.isVariadic = vb
  generalize ch.func.args.length = la
  generalize dh.func.args.length = lb
  generalize ch.cost = ca
  generalize dh.cost = cb
  generalize ch.func.id = ia
  generalize dh.func.id = ib
  by_cases hc : ca = cb
  · subst hc
    cases va <;> cases vb <;> simp
    all_goals
      by_cases hl : la = lb
      · subst hl; simp
      · simp [hl]; omega
  · simp [hc]; omega

theorem bestC_best {R : Candidate → Choice → Prop} (hR : ∀ c ch, R c ch → SameKey c ch) {cs : List Candidate}
    {chs : List Choice} (h : All2 R cs chs) :
    (bestC cs = none ∧ best chs = none) ∨ ∃ c ch, bestC cs = some c ∧ best chs = some ch ∧ R c ch := by
  induction h with
  | nil => exact Or.inl ⟨rfl, rfl⟩
  | @cons a b as bs hab has ih =>
    right
    rcases ih with ⟨h1, h2⟩ | ⟨c, ch, h1, h2, hr⟩
    · exact ⟨a, b, by simp [bestC, h1], by simp [best, h2], hab⟩
    · simp only [bestC, best, h1, h2]
      have := le_iff_not_better (hR _ _ hab) (hR _ _ hr)
      by_cases hb : ch.better b
      · have hle : a.le c = false := by
          cases he : a.le c with
          | false => rfl
          | true => exact absurd hb (this.1 he)
        exact ⟨c, ch, by simp [hle], by simp [hb], hr⟩
      · exact ⟨a, b, by simp [this.2 hb], by simp [hb], hab⟩

theorem best_mem {chs : List Choice} {ch : Choice} (h : best chs = some ch) : ch ∈ chs := by
  induction chs generalizing ch with
  | nil => cases h
  | cons x xs ih =>
    simp only [best] at h
    split at h
    · cases h; simp
    · rename_i y hy
      split at h <;> cases h
      · exact List.mem_cons_of_mem _ (ih hy)
      · simp

theorem better_trans' {a b c : Choice} (h1 : ¬ a.better b) (h2 : ¬ b.better c) : ¬ a.better c := by
  unfold Choice.better at *
  generalize a.func.isVariadic = va at *
  generalize b.func.isVariadic = vb at *
  generalize c.func.isVariadic = vc at *
  cases va <;> cases vb <;> cases vc <;> simp at * <;> omega

theorem best_not_better {chs : List Choice} {ch : Choice} (h : best chs = some ch) :
    ∀ y ∈ chs, ¬ y.better ch := by
  have irr : ∀ a : Choice, ¬ a.better a := by intro a; simp [Choice.better]
  induction chs generalizing ch with
  | nil => cases h
  | cons x xs ih =>
    simp only [best] at h
    split at h
    · rename_i hn
      cases h
      intro y hy
      rcases List.mem_cons.1 hy with rfl | hy
      · exact irr _
      · cases xs with
        | nil => cases hy
        | cons z zs =>
          simp only [best] at hn
          split at hn
          · cases hn
          · split at hn <;> cases hn
    · rename_i z hz
      split at h
      · rename_i hb
        cases h
        intro y hy
        rcases List.mem_cons.1 hy with rfl | hy
        · intro hb'
          unfold Choice.better at hb hb'
          generalize y.func.isVariadic = va at *
          generalize ch.func.isVariadic = vb at *
          cases va <;> cases vb <;> simp at * <;> omega
        · exact ih hz y hy
      · rename_i hb
        cases h
        intro y hy
        rcases List.mem_cons.1 hy with rfl | hy
        · exact irr _
        · exact better_trans' (ih hz y hy) hb

theorem best_eq_none {chs : List Choice} : best chs = none ↔ chs = [] := by
  cases chs with
  | nil => simp [best]
  | cons x xs =>
    simp only [best, reduceCtorEq, iff_false]
    split
    · simp
    · split <;> simp

/-! ## Scopes -/

/-- The type recorded for a node. -/
def recTy (m : Metadata) (id : Nat) : Option Ty :=
  match m.vals id with
  | some v => some v.target
  | none => (m.calls id).map (·.target)

/-- The aliases in scope have the recorded types `Γ`. -/
def Agrees (Γ : TyEnv) (sc : Scope) : Prop := ∀ n, (sc.aliases n).map (recTy sc.md) = (Γ n).map some

/-- Nothing is recorded for these ids. -/
def Clean (m : Metadata) (l : List Nat) : Prop := ∀ i ∈ l, m.vals i = none ∧ m.calls i = none

/-- Nothing changed for other ids. -/
def SameOutside (l : List Nat) (m m' : Metadata) : Prop := ∀ i, i ∉ l → m'.vals i = m.vals i ∧ m'.calls i = m.calls i

mutual
/-- The side table describes the typed expression. -/
inductive Records (m : Metadata) : Expr → TExpr → Prop
  | value {id k t c} : m.vals id = some ⟨t, c⟩ → Records m (.value id k) (.val k t)
  | call {id name args raw args' f tes t c} : m.calls id = some ⟨args', f, t, c⟩ →
      (args' = args ∨ ∃ i ts, raw = some (i, ts) ∧ args' = [.value i (.raw ts)]) →
      RecordsL m args' tes → Records m (.call id name args raw) (.call f tes t)
inductive RecordsL (m : Metadata) : List Expr → List TExpr → Prop
  | nil : RecordsL m [] []
  | cons {e te es tes} : Records m e te → RecordsL m es tes → RecordsL m (e :: es) (te :: tes)
end

theorem SameOutside.refl (l : List Nat) (m : Metadata) : SameOutside l m m := fun _ _ => ⟨rfl, rfl⟩

theorem SameOutside.trans {l l' l'' : List Nat} {m m' m'' : Metadata} (h : SameOutside l m m')
    (h' : SameOutside l' m' m'') (hl : ∀ i, i ∈ l → i ∈ l'') (hl' : ∀ i, i ∈ l' → i ∈ l'') :
    SameOutside l'' m m'' := by
  intro i hi
  have h1 := h i (fun h => hi (hl i h))
  have h2 := h' i (fun h => hi (hl' i h))
  exact ⟨h2.1.trans h1.1, h2.2.trans h1.2⟩

mutual
theorem Records.mono {m m' : Metadata} : ∀ {e te}, Records m e te →
    (∀ i ∈ ids e, m'.vals i = m.vals i ∧ m'.calls i = m.calls i) → Records m' e te
  | _, _, .value h, hm => .value (by rw [(hm _ (by simp [ids])).1]; exact h)
  | _, _, .call h ha hl, hm => by
    refine .call (by rw [(hm _ (by simp [ids])).2]; exact h) ha (hl.mono ?_)
    intro i hi
    apply hm
    simp only [ids, List.cons_append, List.mem_cons, List.mem_append]
    rcases ha with rfl | ⟨j, ts, rfl, rfl⟩
    · exact Or.inr (Or.inr hi)
    · simp [idsL, ids] at hi ⊢; exact Or.inr (Or.inl hi)
theorem RecordsL.mono {m m' : Metadata} : ∀ {es tes}, RecordsL m es tes →
    (∀ i ∈ idsL es, m'.vals i = m.vals i ∧ m'.calls i = m.calls i) → RecordsL m' es tes
  | _, _, .nil, _ => .nil
  | _, _, .cons h hl, hm =>
    .cons (h.mono (fun i hi => hm i (by simp [idsL, hi]))) (hl.mono (fun i hi => hm i (by simp [idsL, hi])))
end

theorem Agrees.not_clean {Γ : TyEnv} {sc : Scope} (h : Agrees Γ sc) {n : Str} {id : Nat} (ha : sc.aliases n = some id)
    {l : List Nat} (hc : Clean sc.md l) : id ∉ l := by
  intro hi
  have := h n
  rw [ha] at this
  obtain ⟨h1, h2⟩ := hc id hi
  simp only [Option.map_some, recTy, h1, h2, Option.map_none] at this
  cases hg : Γ n <;> rw [hg] at this <;> simp at this

theorem Agrees.of_same {Γ : TyEnv} {sc sc' : Scope} (h : Agrees Γ sc) {l : List Nat} (hc : Clean sc.md l)
    (ha : sc'.aliases = sc.aliases) (hs : SameOutside l sc.md sc'.md) : Agrees Γ sc' := by
  intro n
  rw [ha, ← h n]
  cases hn : sc.aliases n with
  | none => rfl
  | some id =>
    obtain ⟨h1, h2⟩ := hs id (h.not_clean hn hc)
    simp only [Option.map_some, recTy, h1, h2]

theorem Clean.sub {m : Metadata} {l l' : List Nat} (h : Clean m l) (hl : ∀ i ∈ l', i ∈ l) : Clean m l' :=
  fun i hi => h i (hl i hi)

theorem valueFromType_eq {Γ : TyEnv} {sc : Scope} (h : Agrees Γ sc) (k : VKind) :
    valueFromType k sc = .ok (natural Γ k) := by
  unfold valueFromType natural
  split
  · rename_i name
    have := h name
    cases ha : sc.aliases name with
    | none =>
      rw [ha] at this
      cases hg : Γ name <;> rw [hg] at this <;> simp_all [VKind.ty]
    | some id =>
      rw [ha] at this
      cases hg : Γ name with
      | none => rw [hg] at this; simp at this
      | some t =>
        rw [hg] at this
        simp only [Option.map_some, Option.some.injEq, recTy] at this
        cases hv : sc.md.vals id with
        | some m => rw [hv] at this; simp_all
        | none =>
          rw [hv] at this
          cases hcl : sc.md.calls id with
          | none => rw [hcl] at this; simp at this
          | some m => rw [hcl] at this; simp_all
  · rename_i hk
    cases k <;> first | rfl | exact absurd rfl (hk _)

theorem u32_ok {n : Nat} (h : n < 2 ^ 32) : u32 n = .ok n := by simp [u32, h]

/-! ## Costs are bounded -/

theorem usable_cost {raw n expected args f ch} (h : usable raw n expected args f = some ch) :
    ch.func = f ∧ ∃ co, outCost f.out expected = some co ∧
      ((f.args = [.raw] ∧ ∃ i ts, raw = some (i, ts) ∧ ch.cost = co ∧ ch.args = [.val (.raw ts) .raw]) ∨
       (¬ (f.args = [.raw] ∧ raw.isSome = true) ∧
        ∃ ps c tes, paramsFor f n = some ps ∧ args ps = some (c, tes) ∧ ch.cost = co + c ∧ ch.args = tes)) := by
  unfold usable at h
  cases hco : outCost f.out expected with
  | none => rw [hco] at h; cases h
  | some co =>
    rw [hco] at h
    simp only [Option.bind_eq_bind, Option.bind_some] at h
    split at h
    · rename_i i ts hr
      cases h
      split at hr
      · exact ⟨rfl, co, rfl, Or.inl ⟨by assumption, i, ts, hr, rfl, rfl⟩⟩
      · cases hr
    · rename_i hno
      cases hp : paramsFor f n with
      | none => rw [hp] at h; cases h
      | some ps =>
        rw [hp] at h
        simp only [Option.bind_some] at h
        cases ha : args ps with
        | none => rw [ha] at h; cases h
        | some p =>
          obtain ⟨c, tes⟩ := p
          rw [ha] at h
          cases h
          refine ⟨rfl, co, rfl, Or.inr ⟨?_, ps, c, tes, rfl, ha, rfl, rfl⟩⟩
          rintro ⟨h1, h2⟩
          rw [if_pos h1] at hno
          simp [hno] at h2

theorem outCost_le {out : Ty} {expected : Option Ty} {c : Nat} (h : outCost out expected = some c) : c ≤ 5 := by
  cases expected with
  | none => cases h; omega
  | some t => exact coercionCost_le h

mutual
theorem check_cost {T Γ} : ∀ (e : Expr) {expected c te}, check T Γ e expected = .ok (c, te) → c ≤ costBound e
  | .value id k, expected, c, te, h => by
    simp only [check] at h
    split at h
    · rename_i hc; cases h; exact coercionCost_le hc
    · cases h
  | .call id name args raw, expected, c, te, h => by
    simp only [check] at h
    split at h
    · cases h
    · split at h
      · rename_i ch hb
        cases h
        have hm := best_mem hb
        rw [List.mem_filterMap] at hm
        obtain ⟨f, -, hf⟩ := hm
        obtain ⟨-, co, hco, hr⟩ := usable_cost hf
        have := outCost_le hco
        simp only [costBound]
        rcases hr with ⟨-, i, ts, -, hcc, -⟩ | ⟨-, ps, c, tes, hp, ha, hcc, -⟩
        · omega
        · have := checkArgs_cost args (paramsFor_some hp).2.2 ha
          omega
      · cases h
theorem checkArgs_cost {T Γ} : ∀ (es : List Expr) {ps c tes}, (∀ p ∈ ps, p.2 ≤ 2) →
    checkArgs T Γ es ps = some (c, tes) → c ≤ costBoundL es
  | [], ps, c, tes, _, h => by
    simp only [checkArgs] at h
    cases h; simp
  | e :: es, [], c, tes, _, h => by
    simp only [checkArgs] at h
    cases h; simp
  | e :: es, (t, m) :: ps, c, tes, hm, h => by
    simp only [checkArgs] at h
    split at h
    · rename_i c1 te h1
      cases hr : checkArgs T Γ es ps with
      | none => rw [hr] at h; cases h
      | some r =>
        obtain ⟨c2, tes2⟩ := r
        rw [hr] at h
        cases h
        have b1 := check_cost e h1
        have b2 := checkArgs_cost es (fun p hp => hm p (by simp [hp])) hr
        have hm2 : m ≤ 2 := hm (t, m) (by simp)
        have : c1 * m ≤ costBound e * 2 := Nat.mul_le_mul b1 hm2
        simp only [costBoundL]
        omega
    · cases h
end

/-! ## The main simulation -/

/-- What the resolution of an expression with result `(c, te)` leaves behind. -/
structure Resolved (e : Expr) (te : TExpr) (c : Nat) (sc sc' : Scope) : Prop where
  aliases : sc'.aliases = sc.aliases
  same : SameOutside (ids e) sc.md sc'.md
  records : Records sc'.md e te
  cost : recordedCost e sc'.md = .ok c
  ty : recTy sc'.md e.id = some te.target

/-- The same for arguments. -/
structure ResolvedL (es : List Expr) (args : List Expr) (tes : List TExpr) (sc sc' : Scope) : Prop where
  aliases : sc'.aliases = sc.aliases
  same : SameOutside (idsL es) sc.md sc'.md
  records : RecordsL sc'.md args tes

theorem resolveValue_spec {T Γ id k expected} {sc : Scope} (hA : Agrees Γ sc) :
    match check T Γ (.value id k) expected with
    | .ok (c, te) => ∃ sc', resolveValue id k expected sc = .ok sc' ∧ Resolved (.value id k) te c sc sc'
    | .error x => resolveValue id k expected sc = .err x ∧ x ≠ .internal := by
  simp only [check, resolveValue, valueFromType_eq hA, Res.bind_eq, Res.bind_ok]
  cases hc : coercionCost (natural Γ k) (expected.getD (natural Γ k)) with
  | none => simp
  | some c =>
    refine ⟨_, rfl, rfl, ?_, .value (c := c) ?_, ?_, ?_⟩
    · intro i hi
      simp only [ids, List.mem_singleton] at hi
      simp [Metadata.setValue, hi]
    · simp [Metadata.setValue]
    · simp [recordedCost, Metadata.setValue, Res.ofOption]
    · simp [recTy, Metadata.setValue, Expr.id, TExpr.target]

/-- The relation between the candidates of the code and the choices of the specification. -/
def CandRel (args : List Expr) (raw : Option (Nat × Toks)) (sc : Scope) (c : Candidate) (ch : Choice) : Prop :=
  SameKey c ch ∧ (c.args = args ∨ ∃ i ts, raw = some (i, ts) ∧ c.args = [.value i (.raw ts)]) ∧
    c.scope.aliases = sc.aliases ∧ SameOutside ((raw.map (·.1)).toList ++ idsL args) sc.md c.scope.md ∧
    RecordsL c.scope.md c.args ch.args

theorem candidates_spec {args raw sc} {O : Func → Bool} {attempt : Func → Res (Nat × Scope × List Expr)}
    {u : Func → Option Choice} {fs : List Func}
    (h : ∀ f ∈ fs, (attempt f = .panic ∧ O f = true) ∨ (O f = false ∧
      ((∃ c sc' as, attempt f = .ok (c, sc', as) ∧ ∃ ch, u f = some ch ∧ CandRel args raw sc ⟨c, sc', f, as⟩ ch) ∨
      (u f = none ∧ ∃ x, attempt f = .err x ∧ x ≠ .internal)))) :
    (candidates attempt fs = .panic ∧ fs.any O = true) ∨ (fs.any O = false ∧
      ∃ cs, candidates attempt fs = .ok cs ∧ All2 (CandRel args raw sc) cs (fs.filterMap u)) := by
  induction fs with
  | nil => exact Or.inr ⟨rfl, [], rfl, .nil⟩
  | cons f fs ih =>
    rcases h f (by simp) with ⟨ha, hB⟩ | ⟨ho, ⟨c, sc', as, ha, ch, hu, hr⟩ | ⟨hu, x, ha, hx⟩⟩
    · exact Or.inl ⟨by simp only [candidates, ha], by simp [hB]⟩
    · rcases ih (fun g hg => h g (by simp [hg])) with ⟨h1, hB⟩ | ⟨h0, cs, h1, h2⟩
      · exact Or.inl ⟨by simp only [candidates, ha, h1, Res.map], by simp only [List.any_cons, hB, Bool.or_true]⟩
      · exact Or.inr ⟨by simp only [List.any_cons, ho, h0, Bool.or_false], ⟨c, sc', f, as⟩ :: cs, by simp only [candidates, ha, h1, Res.map], by simpa [hu] using .cons hr h2⟩
    · have hc : candidates attempt (f :: fs) = candidates attempt fs := by simp only [candidates, ha]
      rw [hc]
      rcases ih (fun g hg => h g (by simp [hg])) with ⟨h1, hB⟩ | ⟨h0, cs, h1, h2⟩
      · exact Or.inl ⟨h1, by simp only [List.any_cons, hB, Bool.or_true]⟩
      · exact Or.inr ⟨by simp only [List.any_cons, ho, h0, Bool.or_false], cs, h1, by simpa [hu] using h2⟩

/-- The overflow condition for one overload. -/
def overflowsFor (raw : Option (Nat × Toks)) (n : Nat) (expected : Option Ty) (o : List (Ty × Nat) → Nat → Bool) (f : Func) : Bool :=
  match outCost f.out expected, (if f.args = [.raw] then raw else none), paramsFor f n with
  | some co, none, some ps => o ps co
  | _, _, _ => false

theorem resolveCallForFunc_spec {Γ : TyEnv} {name : Str} {args raw expected} {sc : Scope} {f : Func}
    {go : List (Ty × Nat) → Nat → Scope → Res (Nat × Scope × List Expr)}
    {chk : List (Ty × Nat) → Option (Nat × List TExpr)} {o : List (Ty × Nat) → Nat → Bool}
    (hA : Agrees Γ sc) (hfit : ∀ ps c0, (∀ p ∈ ps, p.2 ≤ 2) → args.length ≤ ps.length → c0 ≤ 5 →
      (go ps c0 sc = .panic ∧ o ps c0 = true) ∨ (o ps c0 = false ∧
      ((∃ c tes sc', chk ps = some (c, tes) ∧ go ps c0 sc = .ok (c0 + c, sc', args) ∧ ResolvedL args args tes sc sc') ∨
      (chk ps = none ∧ ∃ x, go ps c0 sc = .err x ∧ x ≠ .internal)))) :
    (resolveCallForFunc name f args raw expected sc go = .panic ∧ overflowsFor raw args.length expected o f = true) ∨
    (overflowsFor raw args.length expected o f = false ∧ ((∃ c sc' as, resolveCallForFunc name f args raw expected sc go = .ok (c, sc', as) ∧
      ∃ ch, usable raw args.length expected chk f = some ch ∧ CandRel args raw sc ⟨c, sc', f, as⟩ ch) ∨
    (usable raw args.length expected chk f = none ∧
      ∃ x, resolveCallForFunc name f args raw expected sc go = .err x ∧ x ≠ .internal))) := by
  unfold resolveCallForFunc usable overflowsFor
  have hco : outCoercion f expected = Res.ofOption (.typeError (.coercion f.out (expected.getD f.out))) (outCost f.out expected) := by
    cases expected <;> rfl
  rw [hco]
  cases hc : outCost f.out expected with
  | none => exact Or.inr ⟨rfl, Or.inr ⟨rfl, _, rfl, by simp⟩⟩
  | some co =>
    have hle := outCost_le hc
    simp only [Res.ofOption, Res.bind_eq, Res.bind_ok, Option.bind_eq_bind, Option.bind_some]
    by_cases hraw : f.args = [.raw] ∧ raw.isSome = true
    · obtain ⟨ha, hr⟩ := hraw
      obtain ⟨⟨i, ts⟩, rfl⟩ := Option.isSome_iff_exists.1 hr
      refine Or.inr ⟨by simp [ha], Or.inl ?_⟩
      have := resolveValue_spec (T := fun _ => none) (id := i) (k := .raw ts) (expected := some .raw) hA
      simp only [check, natural, Option.getD_some, VKind.ty, coercionCost_self] at this
      obtain ⟨sc', h1, hr⟩ := this
      simp only [Func.rawArg, ha, if_true, h1, Res.bind_ok]
      refine ⟨co, sc', _, rfl, ⟨co, f, [.val (.raw ts) .raw]⟩, rfl, ⟨rfl, rfl⟩, Or.inr ⟨i, ts, rfl, rfl⟩, hr.aliases, ?_, .cons hr.records .nil⟩
      exact hr.same.trans (SameOutside.refl [] _) (by simp [ids]) (by simp)
    · have hv := variadicArg_isSome f
      have hn : (if f.args = [.raw] then raw else none) = none := by
        by_cases ha : f.args = [.raw]
        · cases raw with
          | none => simp
          | some r => exact absurd ⟨ha, rfl⟩ hraw
        · simp [ha]
      simp only [Func.rawArg, hn]
      -- both arity tests amount to `paramsFor`
      have key : (if (!f.isVariadic && f.args.length == args.length) = true then go (f.params args.length) co sc
          else if (f.isVariadic && decide (f.args.length ≤ args.length)) = true then go (f.params args.length) co sc
          else .err (.signature f.signature (showCall name args raw))) =
          match paramsFor f args.length with
          | some ps => go ps co sc
          | none => .err (.signature f.signature (showCall name args raw)) := by
        unfold paramsFor
        cases hva : f.variadicArg with
        | none =>
          rw [hva] at hv
          have hf := fixedArgs_of_not_variadic hv.symm
          simp only [← hv, Option.isSome_none, Bool.not_false, Bool.true_and, beq_iff_eq, Bool.false_and,
            Bool.false_eq_true, if_false]
          split <;> simp [Func.params, hva, hf]
        | some t =>
          rw [hva] at hv
          simp only [← hv, Option.isSome_some, Bool.not_true, Bool.false_and, Bool.false_eq_true, if_false,
            Bool.true_and, decide_eq_true_eq]
          split <;> simp [Func.params, hva]
      rw [key]
      cases hp : paramsFor f args.length with
      | none => exact Or.inr ⟨rfl, Or.inr ⟨rfl, _, rfl, by simp⟩⟩
      | some ps =>
        obtain ⟨-, hl, hm⟩ := paramsFor_some hp
        simp only [Option.bind_some]
        rcases hfit ps co hm hl hle with hpan | ⟨ho, ⟨c, tes, sc', h1, h2, hr⟩ | ⟨h1, x, h2, hx⟩⟩
        · exact Or.inl hpan
        · refine Or.inr ⟨ho, Or.inl ?_⟩
          refine ⟨co + c, sc', args, h2, ⟨co + c, f, tes⟩, by simp [h1], ⟨rfl, rfl⟩, Or.inl rfl, hr.aliases, ?_,
            hr.records⟩
          exact hr.same.trans (SameOutside.refl [] _) (by intro i hi; simp [hi]) (by simp)
        · exact Or.inr ⟨ho, Or.inr ⟨by simp [h1], x, h2, hx⟩⟩

theorem hkey_records {id : Nat} {name : Str} {args : List Expr} {raw : Option (Nat × Toks)} {expected : Option Ty}
    {c : Candidate} {ch : Choice} (hid : id ∉ (raw.map (·.1)).toList ++ idsL args)
    (hargs : c.args = args ∨ ∃ i ts, raw = some (i, ts) ∧ c.args = [.value i (.raw ts)]) (hk : c.func = ch.func)
    (hrec : RecordsL c.scope.md c.args ch.args) :
    Records (c.scope.md.setCall id ⟨c.args, c.func, expected.getD c.func.out, c.cost⟩) (.call id name args raw)
      (.call ch.func ch.args (expected.getD ch.func.out)) := by
  refine .call (args' := c.args) (c := c.cost) ?_ hargs (hrec.mono ?_)
  · simp [Metadata.setCall, hk]
  · intro i hi
    have hne : i ≠ id := by
      rintro rfl
      apply hid
      rcases hargs with h | ⟨j, ts, rfl, h⟩
      · rw [h] at hi; simp [hi]
      · rw [h] at hi; simp [idsL, ids] at hi; simp [hi]
    simp [Metadata.setCall, hne]

mutual
theorem resolve_exact {env : Env} : ∀ (e : Expr) {Γ : TyEnv} {expected : Option Ty} {sc : Scope},
    Agrees Γ sc → Clean sc.md (ids e) → (ids e).Nodup →
    (Expr.resolve env e expected sc = .panic ∧ overflows env.funcs Γ e expected = true) ∨ (overflows env.funcs Γ e expected = false ∧
    match check env.funcs Γ e expected with
    | .ok (c, te) => ∃ sc', Expr.resolve env e expected sc = .ok sc' ∧ Resolved e te c sc sc'
    | .error x => Expr.resolve env e expected sc = .err x ∧ x ≠ .internal)
  | .value id k, Γ, expected, sc, hA, _, _ => by
    rw [Expr.resolve]
    exact Or.inr ⟨by rw [overflows], resolveValue_spec hA⟩
  | .call id name args raw, Γ, expected, sc, hA, hC, hN => by
    rw [Expr.resolve, check, overflows]
    cases hT : env.funcs name with
    | none => simp
    | some fs =>
      simp only [ids, List.cons_append, List.nodup_cons, List.nodup_append] at hN
      have hCa : Clean sc.md (idsL args) := hC.sub (by intro i hi; simp [ids, hi])
      have hcand := candidates_spec (args := args) (O := overflowsFor raw args.length expected (fun ps c => overflowsArgs env.funcs Γ args ps c)) (raw := raw) (sc := sc)
        (attempt := fun f => resolveCallForFunc name f args raw expected sc (fun ps c sc => Expr.resolveArgs env args ps c sc))
        (u := usable raw args.length expected (fun ps => checkArgs env.funcs Γ args ps)) (fs := fs)
        (fun f _ => resolveCallForFunc_spec hA (fun ps c0 hm hl hc0 => by
          have := resolveArgs_exact (env := env) args (ps := ps) (c0 := c0) hA hCa hN.2.2.1 hm hl
          rcases this with this | ⟨ho, this⟩
          · exact Or.inl this
          refine Or.inr ⟨ho, ?_⟩
          revert this
          cases checkArgs env.funcs Γ args ps with
          | none => rintro ⟨x, hx, hn⟩; exact Or.inr ⟨rfl, x, hx, hn⟩
          | some p => rintro ⟨sc', hx, hr⟩; exact Or.inl ⟨p.1, p.2, sc', rfl, hx, hr⟩))
      simp only [Res.bind_eq]
      rcases hcand with ⟨hp, hb⟩ | ⟨ho, cs, h1, h2⟩
      · exact Or.inl ⟨by rw [hp]; rfl, hb⟩
      refine Or.inr ⟨ho, ?_⟩
      rw [h1, Res.bind_ok]
      have hb := bestC_best (fun c ch h => h.1) h2
      rw [← head_sortByKey] at hb
      unfold selectCandidate
      rcases hb with ⟨hb1, hb2⟩ | ⟨c, ch, hb1, hb2, hkey, hargs, hal, hso, hrec⟩
      · rw [hb2]
        have : sortByKey cs = [] := by
          cases hs : sortByKey cs with
          | nil => rfl
          | cons x xs => rw [hs] at hb1; simp at hb1
        rw [this, refusal_eq hT id]
        exact ⟨rfl, by simp [refusal]⟩
      · rw [hb2]
        obtain ⟨xs, hs⟩ : ∃ xs, sortByKey cs = c :: xs := by
          cases hs : sortByKey cs with
          | nil => rw [hs] at hb1; simp at hb1
          | cons x xs => rw [hs] at hb1; simp at hb1; exact ⟨xs, by rw [hb1]⟩
        rw [hs]
        obtain ⟨hk1, hk2⟩ := hkey
        have hid : id ∉ (raw.map (·.1)).toList ++ idsL args := hN.1
        refine ⟨_, rfl, hal, ?_, ?_, ?_, ?_⟩
        · intro i hi
          simp only [ids, List.cons_append, List.mem_cons, not_or] at hi
          have := hso i hi.2
          simp [Metadata.setCall, hi.1, this]
        · exact hkey_records hid hargs hk2 hrec
        · simp [recordedCost, Metadata.setCall, Res.ofOption, hk1]
        · have hv : c.scope.md.vals id = none := by
            rw [(hso id hid).1]
            exact (hC id (by simp [ids])).1
          simp [recTy, Expr.id, Metadata.setCall, hv, TExpr.target, hk2]
theorem resolveArgs_exact {env : Env} : ∀ (es : List Expr) {Γ : TyEnv} {ps : List (Ty × Nat)} {c0 : Nat} {sc : Scope},
    Agrees Γ sc → Clean sc.md (idsL es) → (idsL es).Nodup → (∀ p ∈ ps, p.2 ≤ 2) → es.length ≤ ps.length →
    (Expr.resolveArgs env es ps c0 sc = .panic ∧ overflowsArgs env.funcs Γ es ps c0 = true) ∨ (overflowsArgs env.funcs Γ es ps c0 = false ∧
    match checkArgs env.funcs Γ es ps with
    | some (c, tes) => ∃ sc', Expr.resolveArgs env es ps c0 sc = .ok (c0 + c, sc', es) ∧ ResolvedL es es tes sc sc'
    | none => ∃ x, Expr.resolveArgs env es ps c0 sc = .err x ∧ x ≠ .internal)
  | [], Γ, ps, c0, sc, _, _, _, _, _ => by
    simp only [checkArgs, Expr.resolveArgs, overflowsArgs]
    exact Or.inr ⟨trivial, sc, rfl, rfl, SameOutside.refl _ _, .nil⟩
  | e :: es, Γ, [], c0, sc, _, _, _, _, hl => by simp at hl
  | e :: es, Γ, (t, m) :: ps, c0, sc, hA, hC, hN, hm, hl => by
    simp only [idsL, List.nodup_append] at hN
    have hCe : Clean sc.md (ids e) := hC.sub (by intro i hi; simp [idsL, hi])
    have hCs : Clean sc.md (idsL es) := hC.sub (by intro i hi; simp [idsL, hi])
    have h1 := resolve_exact e (expected := some t) (env := env) hA hCe hN.1
    rw [checkArgs, Expr.resolveArgs, overflowsArgs]
    rcases h1 with ⟨hp, hb⟩ | ⟨ho, h1⟩
    · exact Or.inl ⟨by rw [hp]; rfl, by rw [hb]; rfl⟩
    rw [ho, Bool.false_or]
    cases hck : check env.funcs Γ e (some t) with
    | error x =>
      rw [hck] at h1
      simp only at h1 ⊢
      exact Or.inr ⟨trivial, x, by rw [h1.1]; rfl, h1.2⟩
    | ok p =>
      obtain ⟨c, te⟩ := p
      rw [hck] at h1
      simp only at h1 ⊢
      obtain ⟨sc1, hr1, hR1⟩ := h1
      have hA1 : Agrees Γ sc1 := hA.of_same hCe hR1.aliases hR1.same
      have hdis : ∀ i ∈ idsL es, i ∉ ids e := fun i hi hi' => hN.2.2 i hi' i hi rfl
      have hC1 : Clean sc1.md (idsL es) := by
        intro i hi
        obtain ⟨h1, h2⟩ := hR1.same i (hdis i hi)
        rw [h1, h2]
        exact hCs i hi
      have h2 := resolveArgs_exact es (env := env) (ps := ps) (c0 := c0 + c * m) hA1 hC1 hN.2.1
        (fun p hp => hm p (by simp [hp])) (by simpa using hl)
      simp only [Res.bind_eq, hr1, Res.bind_ok, hR1.cost]
      by_cases hu : c0 + c * m < 2 ^ 32
      case neg =>
        refine Or.inl ⟨?_, by rw [decide_eq_true (by omega), Bool.true_or]⟩
        unfold u32
        split
        · simp [hu]
        · rfl
      simp only [u32_ok (show c * m < 2 ^ 32 by omega), u32_ok hu, Res.bind_ok]
      rw [decide_eq_false (by omega), Bool.false_or]
      rcases h2 with ⟨hp, hb⟩ | ⟨ho2, h2⟩
      · exact Or.inl ⟨by rw [hp]; rfl, hb⟩
      refine Or.inr ⟨ho2, ?_⟩
      cases hrest : checkArgs env.funcs Γ es ps with
      | none =>
        rw [hrest] at h2
        obtain ⟨x, h2, hx⟩ := h2
        exact ⟨x, by rw [h2]; rfl, hx⟩
      | some r =>
        obtain ⟨c2, tes⟩ := r
        rw [hrest] at h2
        obtain ⟨sc2, hr2, hR2⟩ := h2
        refine ⟨sc2, by rw [hr2]; simp [Nat.add_assoc], ?_, ?_, ?_⟩
        · rw [hR2.aliases, hR1.aliases]
        · exact hR1.same.trans hR2.same (by intro i hi; simp [idsL, hi]) (by intro i hi; simp [idsL, hi])
        · refine .cons (hR1.records.mono ?_) hR2.records
          intro i hi
          exact hR2.same i (fun h => hdis i h hi)
end

mutual
theorem overflows_bound {T} {Γ : TyEnv} : ∀ (e : Expr) {expected : Option Ty}, overflows T Γ e expected = true → 2 ^ 32 ≤ costBound e
  | .value _ _, _, h => by simp [overflows] at h
  | .call id name args raw, expected, h => by
    rw [overflows] at h
    cases hT : T name with
    | none => simp [hT] at h
    | some fs =>
      simp only [hT, List.any_eq_true] at h
      obtain ⟨f, -, h⟩ := h
      split at h
      · rename_i co ps hco _ hp
        obtain ⟨-, hl, hm⟩ := paramsFor_some hp
        have := overflowsArgs_bound args hm hl h
        have := outCost_le hco
        simp only [costBound]
        omega
      · cases h
theorem overflowsArgs_bound {T} {Γ : TyEnv} : ∀ (es : List Expr) {ps : List (Ty × Nat)} {c0 : Nat}, (∀ p ∈ ps, p.2 ≤ 2) →
    es.length ≤ ps.length → overflowsArgs T Γ es ps c0 = true → 2 ^ 32 ≤ c0 + costBoundL es
  | [], _, _, _, _, h => by simp [overflowsArgs] at h
  | _ :: _, [], _, _, hl, _ => by simp at hl
  | e :: es, (t, m) :: ps, c0, hm, hl, h => by
    rw [overflowsArgs, Bool.or_eq_true] at h
    simp only [costBoundL]
    rcases h with h | h
    · have := overflows_bound e h
      omega
    · split at h
      · rename_i ce te hck
        have hce := check_cost e hck
        have hm2 : m ≤ 2 := hm (t, m) (by simp)
        have hcm : ce * m ≤ costBound e * 2 := Nat.mul_le_mul hce hm2
        simp only [Bool.or_eq_true, decide_eq_true_eq] at h
        rcases h with h | h
        · omega
        · have := overflowsArgs_bound es (fun p hp => hm p (by simp [hp])) (by simpa using hl) h
          omega
      · cases h
end

theorem resolve_spec {env : Env} (e : Expr) {Γ : TyEnv} {expected : Option Ty} {sc : Scope}
    (hA : Agrees Γ sc) (hC : Clean sc.md (ids e)) (hN : (ids e).Nodup) :
    (Expr.resolve env e expected sc = .panic ∧ 2 ^ 32 ≤ costBound e) ∨
    match check env.funcs Γ e expected with
    | .ok (c, te) => ∃ sc', Expr.resolve env e expected sc = .ok sc' ∧ Resolved e te c sc sc'
    | .error x => Expr.resolve env e expected sc = .err x ∧ x ≠ .internal := by
  rcases resolve_exact e (env := env) (expected := expected) hA hC hN with ⟨h, ho⟩ | ⟨-, h⟩
  · exact Or.inl ⟨h, overflows_bound e ho⟩
  · exact Or.inr h

end Verif
