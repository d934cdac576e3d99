import Verif.Proofs.SpanWalk
import Verif.Props.Subst
import Verif.Props.Eval
/-!
# Property C85: generated code points to what was written

`src` says which spans the nodes of the definitions have, `P` what the compiler does with spans.
-/

namespace Verif.Props
open Verif Spec

variable {σ : Type} {E : Ext} {valid : Toks → Bool} {P : SpanOps σ} {src : Source σ}

theorem getS_eq_lookup (subs : SubsS σ) (n : Str) : subs.get n = List.lookup n subs := by
  unfold SubsS.get
  induction subs with
  | nil => rfl
  | cons e es ih =>
    obtain ⟨m, v⟩ := e
    by_cases h : m = n
    · subst h; simp [List.lookup]
    · have h1 : (m == n) = false := by simp [h]
      have h2 : (n == m) = false := by simp [Ne.symm h]
      simp only [List.find?, h1, List.lookup, h2]; exact ih

/-- The tokens of the value of an alias. -/
def tokensOf (subs : SubsS σ) (n : Str) : Option (SToks σ) := (List.lookup n subs).map SVal.toTokens

theorem tokensOf_eq (subs : SubsS σ) : tokensOf subs = lookS subs := by
  funext n; simp [tokensOf, lookS, getS_eq_lookup]

/-- **C85**: the evaluation with spans is the evaluation: without the spans it has the same outcome. -/
theorem C85_same_values {order : List (Alias × SVal σ) → List (Alias × SVal σ)} {order' : List (Alias × VKind) → List (Alias × VKind)}
    {items : List (Alias × Expr)} {seed : Nat} (hN : (specIds items).Nodup) (ho : ∀ l, (order l).Perm l) (ho' : ∀ l, (order' l).Perm l)
    (hfit : FitsL src (items.map (·.2))) :
    Same ((makeSubstitutionsS E P src (Env.builtin seed) order items).map SubsS.erase) (makeSubstitutions E (Env.builtin seed) order' items) := by
  have h1 := makeSubstitutionsS_spec (E := E) (P := P) (seed := seed) hN ho hfit
  have h2 := makeSubstitutions_exact (E := E) (env := Env.builtin seed) hN ho'
  unfold outcome at h1
  rcases h2 with ⟨-, h2, h3⟩ | ⟨h3, h2⟩
  · rw [if_pos h3] at h1
    simp only at h1
    rw [h1, h2]; exact .panic
  · rw [if_neg (by simp [h3])] at h1
    cases hd : denote E (Env.builtin seed) (named items) with
    | err x => rw [hd] at h1 h2; simp only at h1 h2; rw [h1, h2]; exact .err x
    | panic => rw [hd] at h1 h2; simp only at h1 h2; rw [h1, h2]; exact .panic
    | ok vs =>
      rw [hd] at h1 h2
      obtain ⟨subs, us, tes, e1, p1, rfl, -⟩ := h1
      obtain ⟨subs', e2, p2, -, nd⟩ := h2
      rw [e1, e2]
      refine .ok (fun n => ?_)
      have p1' : (SubsS.erase subs).Perm (SubsS.erase us) := p1.map _
      rw [Subs.get_perm p1' ((p1'.map _).nodup_iff.2 nd), Subs.get_perm p2 ((p2.map _).nodup_iff.2 nd)]

/-- **C85**: the tokens of the value of an alias point to where the value was written: to the code it consists of, or to the name of the function that
made it, or, where text is parsed, to the invocation. -/
theorem C85_values {order : List (Alias × SVal σ) → List (Alias × SVal σ)} {items : List (Alias × Expr)} {seed : Nat} {subs : SubsS σ}
    (hN : (specIds items).Nodup) (ho : ∀ l, (order l).Perm l) (hfit : FitsL src (items.map (·.2)))
    (h : makeSubstitutionsS E P src (Env.builtin seed) order items = .ok subs) :
    ∃ us tes, subs.Perm us ∧ checkSpec builtinFuncs (named items) (fun _ => none) = .ok tes ∧ Traced P src (fun _ => none) items tes us := by
  have h1 := makeSubstitutionsS_spec (E := E) (P := P) (seed := seed) hN ho hfit
  cases hd : outcome E (Env.builtin seed) (named items) with
  | err x => rw [hd] at h1; simp only at h1; rw [h1] at h; cases h
  | panic => rw [hd] at h1; simp only at h1; rw [h1] at h; cases h
  | ok vs =>
    rw [hd] at h1
    obtain ⟨subs', us, tes, e1, p1, -, hc, ht⟩ := h1
    rw [e1] at h
    cases h
    exact ⟨us, tes, p1, hc, ht⟩

/-- **C85**: substitution with spans is substitution: without the spans it has the same outcome. -/
theorem C85_same_code (subs : SubsS σ) (node : SToks σ) :
    (substituteIdentsS E valid subs node).forget.map STok.eraseL = substituteIdents E valid subs.erase (STok.eraseL node) :=
  substituteIdentsS_erase node

/-- **C85**: in the code, an alias is replaced by tokens that point to where its value does, a string literal by one that points to the same place, and
everything else, groups too, points to where it did. -/
theorem C85_code {subs : SubsS σ} {fmt : Str → Str} (hf : FormatsAll E subs.erase fmt) {node out : SToks σ}
    (h0 : valid (STok.eraseL node) = true) (h : substituteIdentsS E valid subs node = .ok out) :
    out = substAllS (tokensOf subs) (litWith E fmt) node := by
  rw [litWith_eq hf, tokensOf_eq]
  rcases substituteIdentsS_spec (E := E) (subs := subs) node h0 with h1 | ⟨k, -, -, -, -, h1⟩
  · rw [h] at h1; cases h1; rfl
  · rw [h] at h1
    cases hl : lastAliasS (lookS subs) node k <;> rw [hl] at h1 <;> cases h1

/-- **C85**: every place the result points to is one the code pointed to before or one the value of an alias points to. -/
theorem C85_nowhere_else {subs : SubsS σ} {node out : SToks σ} (h0 : valid (STok.eraseL node) = true)
    (h : substituteIdentsS E valid subs node = .ok out) {sp : σ} (hs : sp ∈ spans out) :
    sp ∈ spans node ∨ ∃ n v, List.lookup n subs = some v ∧ sp ∈ spans v.toTokens := by
  rw [C85_code formatsAll_fmtStr h0 h, tokensOf_eq] at hs
  simpa only [getS_eq_lookup] using mem_spans_subst _ hs

/-- **C85**: if replacement number `k` is the first to break the code, the error points to the last alias replaced so far, as it is written in the
code. -/
theorem C85_error {subs : SubsS σ} {fmt : Str → Str} (hf : FormatsAll E subs.erase fmt) {node : SToks σ} (h0 : valid (STok.eraseL node) = true)
    (k : Nat) (hk : k ≤ (occAllS (tokensOf subs) node).length)
    (hbad : valid (STok.eraseL (substFirstS (tokensOf subs) (litWith E fmt) k node)) = false)
    (hgood : ∀ j, j < k → valid (STok.eraseL (substFirstS (tokensOf subs) (litWith E fmt) j node)) = true) :
    match lastAliasS (tokensOf subs) node k with
    | some (n, sp) => ∃ v, List.lookup n subs = some v ∧
        substituteIdentsS E valid subs node = .err (.substitution n (E.render (STok.eraseL v.toTokens))) sp
    | none => substituteIdentsS E valid subs node = .panic := by
  rw [litWith_eq hf, tokensOf_eq] at *
  have key : ∃ k', valid (STok.eraseL (substFirstS (lookS subs) (strLit E subs.erase) k' node)) = false ∧
      (∀ j, j < k' → valid (STok.eraseL (substFirstS (lookS subs) (strLit E subs.erase) j node)) = true) ∧
      substituteIdentsS E valid subs node = match lastAliasS (lookS subs) node k' with
        | some (n, sp) => .err (.substitution n (E.render (STok.eraseL ((lookS subs n).getD [])))) sp
        | none => .panic := by
    rcases substituteIdentsS_spec' (E := E) (valid := valid) (subs := subs) node h0 with ⟨h1, -⟩ | ⟨k', -, -, h3, h4, h⟩
    · rw [h1 k hk] at hbad; cases hbad
    · exact ⟨k', h3, h4, h⟩
  obtain ⟨k', h3, h4, h⟩ := key
  have e : k' = k := by
    rcases Nat.lt_trichotomy k' k with hl | hl | hl
    · rw [hgood k' hl] at h3; cases h3
    · exact hl
    · rw [h4 k hl] at hbad; cases hbad
  subst e
  cases hl : lastAliasS (lookS subs) node k' with
  | none => rw [hl] at h; exact h
  | some p =>
    obtain ⟨n, sp⟩ := p
    rw [hl] at h
    simp only at h ⊢
    have hm : (n, sp) ∈ ((occAllS (lookS subs) node).take k').filterMap aliasAt := List.mem_of_getLast? hl
    obtain ⟨t, ht, ha⟩ := List.mem_filterMap.1 hm
    have ht' : t = .ident n sp := by
      match t, ha with
      | .ident m sq, ha => simp only [aliasAt, Option.some.injEq, Prod.mk.injEq] at ha; rw [ha.1, ha.2]
    have hsome := occAllS_alias _ _ _ (List.mem_of_mem_take ht) n sp ht'
    simp only [lookS, Option.isSome_map] at hsome
    obtain ⟨v, hv⟩ := Option.isSome_iff_exists.1 hsome
    refine ⟨v, by rw [← getS_eq_lookup, hv], ?_⟩
    rw [h]
    simp [lookS, hv]

/-- `A = upper(x), b = concat(A, _y), c = to_ident("z")`, written at positions 1 to 9. -/
def demoSpanItems : List (Alias × Expr) :=
  [((0, c! "A"), .call 1 c! "upper" [.value 2 (.ident c! "x")] (some (3, [.ident c! "x"]))),
   ((4, c! "b"), .call 5 c! "concat" [.value 6 (.ident c! "A"), .value 7 (.ident c! "_y")]
      (some (8, [.ident c! "A", .punct ',' false, .ident c! "_y"]))),
   ((9, c! "c"), .call 10 c! "to_ident" [.value 11 (.litStr c! "\"z\"" c! "z")] (some (12, [.lit (.str c! "\"z\"" c! "z")])))]

/-- The source: tokens point to the number of their node, calls to a hundred more; the invocation is at 0. -/
def demoSource : Source Nat where
  vals := fun
    | 2 => .ident c! "x" 2
    | 3 => .raw [.ident c! "x" 2]
    | 6 => .ident c! "A" 6
    | 7 => .ident c! "_y" 7
    | 8 => .raw [.ident c! "A" 6, .punct ',' false 8, .ident c! "_y" 7]
    | 11 => .litStr c! "\"z\"" c! "z" 11
    | _ => .raw [.lit (.str c! "\"z\"" c! "z") 11]
  calls := (100 + ·)

/-- Positions are joined by taking the first. -/
def demoSpans : SpanOps Nat := ⟨0, fun a _ => a⟩

example : FitsL demoSource (demoSpanItems.map (·.2)) :=
  .cons (.call (.cons (.value rfl (by decide)) .nil) rfl)
    (.cons (.call (.cons (.value rfl (by decide)) (.cons (.value rfl (by decide)) .nil)) rfl)
      (.cons (.call (.cons (.value rfl (by decide)) .nil) rfl) .nil))
example : (specIds demoSpanItems).Nodup := by decide
/-- `A` points to `x`, `b` to `concat` and `c` to the invocation. -/
example : (match makeSubstitutionsS Ext.demo demoSpans demoSource (Env.builtin 0) id demoSpanItems with
    | .ok subs => subs.map (fun e => (e.1, STok.eraseL e.2.toTokens, spans e.2.toTokens))
    | _ => []) =
    [(c! "A", [.ident c! "X"], [2]), (c! "b", [.ident c! "X_y"], [105]), (c! "c", [.ident c! "z"], [0])] := by
  decide +kernel

/-- Of the words of `upper(x)` only `x` is pointed to. -/
example (f : Func) (ts : SToks Nat) (h : Points demoSpans demoSource (fun _ => none) (.call 1 c! "upper" [.value 2 (.ident c! "x")] none)
    (.call f [.val (.ident c! "x") .ident] .ident) ts) : spans ts = [2] := by
  cases h with
  | @letters _ _ _ _ _ _ _ u _ _ h hs =>
    rw [hs]
    generalize [u] = us at h
    cases h with
    | written _ => decide
    | alias h => cases h
  | made h => exact absurd h (by decide)
  | passed h => exact absurd h (by decide)

/-- `A` at 2 has the value `x` at 20, `b` the value `1 +` at 21 and 22. -/
def demoSpanSubs : SubsS Nat := [(c! "A", .ident c! "x" 20), (c! "b", .tokens [.lit (.int c! "1" 1) 21, .punct '+' false 22])]

/-- `y ( A "%A%" )` -/
def demoSpanNode : SToks Nat :=
  [.ident c! "y" 1, .group .paren [.ident c! "A" 2, .lit (.str c! "\"%A%\"" c! "%A%") 3] 4]

example : ∃ out, substituteIdentsS Ext.demo (fun _ => true) demoSpanSubs demoSpanNode = .ok out ∧ spans out = [1, 4, 20, 3] :=
  ⟨_, rfl, by decide⟩

/-- The error of `A + b` is at `b`, if this is where the code stops to parse. -/
example : (match substituteIdentsS Ext.demo (fun ts => decide (ts.length ≤ 3)) demoSpanSubs
      [.ident c! "A" 30, .punct '+' false 31, .ident c! "b" 32] with
    | .err e sp => some (e, sp)
    | _ => none) = some (.substitution c! "b" (Ext.demo.render [.lit (.int c! "1" 1), .punct '+' false]), 32) := by decide +kernel

/-! ## Casts -/

/-- **C85**: a cast, whatever it is from and to, keeps the places, except that a name made of a string points to the invocation and an integer with a sign
to the sign and the number. -/
theorem C85_casts {v w : SVal σ} {t : Ty} (h : tryCastS E P v t = .ok w) :
    (t = .ident ∧ (∃ r s sp, v.toTokens = [.lit (.str r s) sp]) ∧ ∃ n, w.toTokens = [.ident n P.callSite]) ∨
    (t = .litInt ∧ v.ty ≠ .litInt ∧ ∃ j sp r n sq, v.toTokens = [.punct '-' j sp, .lit (.int r n) sq] ∧ spans w.toTokens = [P.join sp sq, P.join sp sq]) ∨
    ((t = .ident → ∀ r s sp, v.toTokens ≠ [.lit (.str r s) sp]) ∧ spans w.toTokens = spans v.toTokens) := by
  have other : t ≠ .ident → spans w.toTokens = spans v.toTokens →
    (t = .ident → ∀ r s sp, v.toTokens ≠ [.lit (.str r s) sp]) ∧ spans w.toTokens = spans v.toTokens := fun h1 h2 => ⟨fun h => absurd h h1, h2⟩
  unfold tryCastS at h
  split at h
  · rename_i hty
    cases h
    refine .inr (.inr ⟨fun e r s sp he => ?_, rfl⟩)
    subst e
    cases v <;> cases hty
    simp [SVal.toTokens] at he
  · rename_i hne
    cases t with
    | ident =>
      have key : ∀ {v' : SVal σ}, v'.toTokens = v.toTokens → (match parseLitStrS v'.toTokens with
          | some (_, s, _) => litStrAsIdentS E P s
          | none => (Res.ofOption (castError v'.ty .ident) (parseIdentS v'.toTokens)).map (fun p : Str × σ => SVal.ident p.1 p.2)) = .ok w →
          (Ty.ident = .ident ∧ (∃ r s sp, v.toTokens = [.lit (.str r s) sp]) ∧ ∃ n, w.toTokens = [.ident n P.callSite]) ∨
          ((Ty.ident = .ident → ∀ r s sp, v.toTokens ≠ [.lit (.str r s) sp]) ∧ spans w.toTokens = spans v.toTokens) := by
        intro v' hv h
        rw [hv] at h
        split at h
        · rename_i r s sq hs
          obtain ⟨a, -, rfl⟩ := ofOption_map_ok h
          exact .inl ⟨rfl, ⟨_, _, _, parseLitStrS_spans hs⟩, _, rfl⟩
        · rename_i hs
          obtain ⟨a, ha, rfl⟩ := ofOption_map_ok h
          refine .inr ⟨fun _ r s sp he => ?_, ?_⟩
          · rw [he] at hs; simp [parseLitStrS] at hs
          · rw [parseIdentS_spans ha]; simp [SVal.toTokens]
      have fin : ∀ {A B C : Prop}, A ∨ C → A ∨ B ∨ C := fun h => h.elim .inl (fun h => .inr (.inr h))
      cases v with
      | ident => simp [SVal.ty] at hne
      | litStr r s sp =>
        obtain ⟨a, -, rfl⟩ := ofOption_map_ok h
        exact .inl ⟨rfl, ⟨_, _, _, rfl⟩, _, rfl⟩
      | _ => exact fin (key rfl h)
    | path =>
      refine .inr (.inr (other (by simp) ?_))
      cases v <;> simp only at h <;> first
        | (cases h; rfl)
        | (split at h <;> cases h; rfl)
    | type =>
      refine .inr (.inr (other (by simp) ?_))
      cases v <;> simp only at h <;> (split at h <;> cases h; rfl)
    | expr =>
      refine .inr (.inr (other (by simp) ?_))
      cases v <;> simp only at h <;> (split at h <;> cases h; rfl)
    | litStr =>
      refine .inr (.inr (other (by simp) ?_))
      cases v with
      | ident s sp => obtain ⟨a, -, rfl⟩ := ofOption_map_ok h; rfl
      | litStr => simp [SVal.ty] at hne
      | _ =>
        simp only at h
        split at h
        · rename_i hs
          cases h
          rw [parseIdentS_spans hs]; rfl
        · obtain ⟨a, ha, rfl⟩ := ofOption_map_ok h
          obtain ⟨r, s, sp⟩ := a
          rw [parseLitStrS_spans ha]; rfl
    | litInt =>
      cases v with
      | litInt => simp [SVal.ty] at hne
      | _ =>
        obtain ⟨⟨i, sp⟩, ha, rfl⟩ := ofOption_map_ok h
        simp only at ha h
        unfold parseLitIntS at ha
        split at ha <;> cases ha
        · rename_i he; refine .inr (.inr (other (by simp) ?_)); rw [he]; rfl
        · rename_i he; exact .inr (.inl ⟨rfl, hne, _, _, _, _, _, he, rfl⟩)
    | tokens => refine .inr (.inr (other (by simp) ?_)); cases v <;> (simp only at h; cases h; rfl)
    | raw => refine .inr (.inr (other (by simp) ?_)); cases v <;> (simp only at h; cases h; rfl)
    | variadic => cases v <;> simp at h

/-- A name as a string, and a string as a name. -/
example : tryCastS Ext.demo ⟨0, fun a _ => a⟩ (.ident (S "x") 7) .litStr = .ok (.litStr (S "\"x\"") (S "x") 7) ∧
    tryCastS Ext.demo ⟨0, fun a _ => a⟩ (.litStr (S "\"x\"") (S "x") 7) .ident = .ok (.ident (S "x") 0) := ⟨rfl, rfl⟩

end Verif.Props
