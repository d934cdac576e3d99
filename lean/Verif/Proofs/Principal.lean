import Verif.Proofs.BuiltinSound
import Verif.Proofs.Overload
import Verif.Spec.WriteOut
/-!
# The overload chosen for a call does not depend on the type expected around it

This holds for the built-in functions except for `hash` of a string.
-/

namespace Verif
open Spec

/-- The same expression, cast to another type in the end. -/
def Spec.TExpr.as : TExpr → Ty → TExpr
  | .val k _, t => .val k t
  | .call f args _, t => .call f args t

@[simp] theorem TExpr.as_target (te : TExpr) (t : Ty) : (te.as t).target = t := by cases te <;> rfl

/-- What typing an expression gives, for any expected type: failure, or the result without an expected type and the cost of the coercion. -/
inductive Princ (Γ : TyEnv) (e : Expr) : Option (Nat × TExpr) → Prop
  | fails (h : ∀ expected, simpleTy expected → ∃ x, check builtinFuncs Γ e expected = .error x) : Princ Γ e none
  | types (c : Nat) (te : TExpr) (h : check builtinFuncs Γ e none = .ok (c, te))
      (hs : ∀ t co, t.isVariadic = false → coercionCost te.target t = some co → check builtinFuncs Γ e (some t) = .ok (co + c, te.as t))
      (hn : ∀ t, t.isVariadic = false → coercionCost te.target t = none → ∃ x, check builtinFuncs Γ e (some t) = .error x) :
      Princ Γ e (some (c, te))

/-! ## Coercions -/

theorem coercionCost_refl (t : Ty) : coercionCost t t = some 0 := by
  cases t <;> simp [coercionCost, coercionCostBasic]

theorem coercionCost_tokens (t : Ty) : coercionCost .tokens t = if t = .tokens then some 0 else if t = .raw then some 5 else none := by
  cases t <;> simp [coercionCost, coercionCostBasic]

theorem coercionCost_to_tokens (t : Ty) : coercionCost t .tokens = if t = .tokens then some 0 else some 4 := by
  cases t <;> simp [coercionCost, coercionCostBasic]

theorem coercionCost_to_raw (t : Ty) : coercionCost t .raw = if t = .raw then some 0 else some 5 := by
  cases t <;> simp [coercionCost, coercionCostBasic]

/-- The types nothing else can be coerced to. -/
def Ty.strict (t : Ty) : Prop := t = .ident ∨ t = .litStr ∨ t = .litInt

theorem coercionCost_strict {s t : Ty} {co : Nat} (ht : t.strict) (h : coercionCost s t = some co) : s = t ∧ co = 0 := by
  rcases ht with rfl | rfl | rfl <;> cases s <;> simp_all [coercionCost, coercionCostBasic]

/-! ## The expected type -/

theorem usable_expected {raw : Option (Nat × Toks)} {n : Nat} {A : List (Ty × Nat) → Option (Nat × List TExpr)} (f : Func) (t : Ty) :
    usable raw n (some t) A f =
      (usable raw n none A f).bind fun ch => (coercionCost ch.func.out t).map fun co => { ch with cost := co + ch.cost } := by
  have h0 : outCost f.out none = some 0 := rfl
  rw [usable_eq h0]
  have h1 : outCost f.out (some t) = coercionCost f.out t := rfl
  unfold usable
  rw [h1]
  cases hr : (if f.args = [Ty.raw] then raw else none) with
  | some r => cases hc : coercionCost f.out t <;> simp [hc]
  | none =>
    cases paramsFor f n with
    | none => cases hc : coercionCost f.out t <;> rfl
    | some ps =>
      cases hA : A ps with
      | none => cases hc : coercionCost f.out t <;> simp [hA]
      | some r => cases hc : coercionCost f.out t <;> simp [hA, hc]

theorem filterMap_bind {α β γ : Type} (u : α → Option β) (g : β → Option γ) (l : List α) :
    l.filterMap (fun a => (u a).bind g) = (l.filterMap u).filterMap g := by
  rw [List.filterMap_filterMap]

/-- The choice `x` is chosen, whatever type is expected, if it can be used at all: the other choices have the same type or are more expensive
and give tokens. -/
def Dominates (x : Choice) (l : List Choice) : Prop :=
  ∀ y ∈ l, y.func.out = x.func.out ∨ y.func.out = .tokens ∧ x.cost + 4 < y.cost

theorem better_shift {a b : Choice} (co : Nat) (h : Choice.better { a with cost := co + a.cost } { b with cost := co + b.cost }) : a.better b := by
  unfold Choice.better at *
  simp only [Nat.add_lt_add_iff_left, Nat.add_left_cancel_iff] at h
  exact h

theorem best_expected {l : List Choice} (hn : (l.map (·.func.id)).Nodup) {x : Choice} (hb : best l = some x) (hd : Dominates x l) (t : Ty) :
    best (l.filterMap fun ch => (coercionCost ch.func.out t).map fun co => { ch with cost := co + ch.cost }) =
      (coercionCost x.func.out t).map fun co => { x with cost := co + x.cost } := by
  have hnd : ((l.filterMap fun ch : Choice => (coercionCost ch.func.out t).map fun co => { ch with cost := co + ch.cost }).map (·.func.id)).Nodup := by
    refine List.Nodup.sublist ?_ hn
    clear hn hb hd
    induction l with
    | nil => exact .slnil
    | cons y l ih =>
      rw [List.filterMap_cons]
      cases coercionCost y.func.out t with
      | none => exact .cons _ ih
      | some co => exact .cons_cons _ ih
  cases hc : coercionCost x.func.out t with
  | none =>
    rw [Option.map_none, best_eq_none, List.filterMap_eq_nil_iff]
    intro y hy
    rcases hd y hy with h | ⟨h, -⟩
    · rw [h, hc]; rfl
    · have h1 : t ≠ .tokens := by rintro rfl; rw [coercionCost_to_tokens] at hc; split at hc <;> cases hc
      have h2 : t ≠ .raw := by rintro rfl; rw [coercionCost_to_raw] at hc; split at hc <;> cases hc
      rw [h, coercionCost_tokens, if_neg h1, if_neg h2]; rfl
  | some co =>
    refine best_unique hnd ?_ ?_
    · exact List.mem_filterMap.2 ⟨x, best_mem hb, by rw [hc]; rfl⟩
    · intro y' hy'
      obtain ⟨y, hy, he⟩ := List.mem_filterMap.1 hy'
      rw [Option.map_eq_some_iff] at he
      obtain ⟨co', hc', rfl⟩ := he
      rcases hd y hy with h | ⟨h, hlt⟩
      · rw [h, hc] at hc'
        cases hc'
        intro hbt
        exact best_not_better hb y hy (better_shift co hbt)
      · rw [h, coercionCost_tokens] at hc'
        have : co ≤ co' + 4 := by
          split at hc'
          · rename_i ht; subst ht
            rw [coercionCost_to_tokens] at hc; split at hc <;> cases hc <;> omega
          · split at hc'
            · rename_i ht; subst ht
              cases hc'
              rw [coercionCost_to_raw] at hc; split at hc <;> cases hc <;> omega
            · cases hc'
        unfold Choice.better
        simp only
        omega

/-- If one choice dominates, the call has a principal type. -/
theorem princ_call {Γ : TyEnv} {id : Nat} {name : Str} {args : List Expr} {raw : Option (Nat × Toks)} {fs : List Func}
    (hf : builtinFuncs name = some fs)
    (hd : ∀ x, best (fs.filterMap (usable raw args.length none (fun ps => checkArgs builtinFuncs Γ args ps))) = some x →
      Dominates x (fs.filterMap (usable raw args.length none (fun ps => checkArgs builtinFuncs Γ args ps)))) :
    Princ Γ (.call id name args raw) ((best (fs.filterMap (usable raw args.length none (fun ps => checkArgs builtinFuncs Γ args ps)))).map
      fun x => (x.cost, .call x.func x.args x.func.out)) := by
  have hids : (fs.map (·.id)).Nodup := by
    have h0 : (builtins.map (·.id)).Nodup := by decide
    unfold builtinFuncs at hf
    split at hf
    · cases hf
    · cases hf
      exact List.Nodup.sublist (List.Sublist.map _ List.filter_sublist) h0
  have hn := filterMap_ids_nodup (u := usable raw args.length none (fun ps => checkArgs builtinFuncs Γ args ps))
    (fun f ch h => usable_func h) hids
  have hexp : ∀ t, fs.filterMap (usable raw args.length (some t) (fun ps => checkArgs builtinFuncs Γ args ps)) =
      (fs.filterMap (usable raw args.length none (fun ps => checkArgs builtinFuncs Γ args ps))).filterMap
        fun ch => (coercionCost ch.func.out t).map fun co => { ch with cost := co + ch.cost } := by
    intro t
    rw [← filterMap_bind]
    congr 1
    funext f
    exact usable_expected f t
  cases hb : best (fs.filterMap (usable raw args.length none (fun ps => checkArgs builtinFuncs Γ args ps))) with
  | none =>
    refine .fails fun expected _ => ?_
    cases expected with
    | none => exact ⟨_, by simp only [check, hf, hb]; rfl⟩
    | some t =>
      rw [best_eq_none] at hb
      exact ⟨_, by simp only [check, hf, hexp t, hb, List.filterMap_nil, best]; rfl⟩
  | some x =>
    refine .types _ _ (by simp only [check, hf, hb]; rfl) ?_ ?_
    · intro t co _ hc
      have hc : coercionCost x.func.out t = some co := hc
      have := best_expected hn hb (hd x hb) t
      simp only [check, hf, hexp t, this, hc, Option.map_some]
      rfl
    · intro t _ hc
      have hc : coercionCost x.func.out t = none := hc
      have := best_expected hn hb (hd x hb) t
      exact ⟨_, by simp only [check, hf, hexp t, this, hc, Option.map_none]; rfl⟩

/-! ## Arguments -/

/-- The arguments, typed as in the first list, can be used for the parameters, at this cost. -/
inductive Costs : List (Option (Nat × TExpr)) → List (Ty × Nat) → Nat → List TExpr → Prop
  | nil : Costs [] [] 0 []
  | cons {ce te t m co os ps c tes} (h : coercionCost te.target t = some co) (hs : Costs os ps c tes) :
      Costs (some (ce, te) :: os) ((t, m) :: ps) ((co + ce) * m + c) (te.as t :: tes)

theorem checkArgs_costs {Γ : TyEnv} {es : List Expr} {os : List (Option (Nat × TExpr))} (h : All2 (Princ Γ) es os) :
    ∀ {ps : List (Ty × Nat)}, ps.length = es.length → (∀ p ∈ ps, p.1.isVariadic = false) → ∀ {c tes},
      checkArgs builtinFuncs Γ es ps = some (c, tes) ↔ Costs os ps c tes := by
  induction h with
  | nil =>
    intro ps hl _ c tes
    cases ps with
    | cons => cases hl
    | nil =>
      simp only [checkArgs]
      constructor
      · intro h; cases h; exact .nil
      · intro h; cases h; rfl
  | @cons e o es os he _ ih =>
    intro ps hl hp c tes
    cases ps with
    | nil => cases hl
    | cons p ps =>
      obtain ⟨t, m⟩ := p
      have ht : t.isVariadic = false := hp (t, m) (by simp)
      have ih := @ih ps (by simpa using hl) (fun p h => hp p (List.mem_cons_of_mem _ h))
      simp only [checkArgs]
      cases he with
      | fails h =>
        obtain ⟨x, hx⟩ := h (some t) (by intro t' e; cases e; exact ht)
        rw [hx]
        constructor
        · intro h; cases h
        · intro h; cases h
      | types ce te h hs hn =>
        cases hc : coercionCost te.target t with
        | none =>
          obtain ⟨x, hx⟩ := hn t ht hc
          rw [hx]
          constructor
          · intro h; cases h
          · intro h; cases h with | cons h _ => rw [hc] at h; cases h
        | some co =>
          rw [hs t co ht hc]
          simp only [Option.map_eq_some_iff]
          constructor
          · rintro ⟨⟨c2, tes2⟩, h1, h2⟩
            cases h2
            exact .cons hc (ih.1 h1)
          · intro h
            cases h with
            | cons h1 h2 => rw [hc] at h1; cases h1; exact ⟨_, ih.2 h2, rfl⟩

/-! ## The built-in functions -/

/-- The parameters are values of one strict type. -/
def Func.firstTy (f : Func) : Option Ty := (f.fixedArgs ++ f.variadicArg.toList).head?

theorem costs_fun {os : List (Option (Nat × TExpr))} {ps : List (Ty × Nat)} {c c' : Nat} {tes tes' : List TExpr} (h : Costs os ps c tes)
    (h' : Costs os ps c' tes') : c = c' ∧ tes = tes' := by
  induction h generalizing c' tes' with
  | nil => cases h'; exact ⟨rfl, rfl⟩
  | cons hc _ ih =>
    cases h' with
    | cons hc' hs' =>
      rw [hc] at hc'
      cases hc'
      obtain ⟨rfl, rfl⟩ := ih hs'
      exact ⟨rfl, rfl⟩

theorem costs_to_tokens {t : Ty} (ht : t.strict) {n : Nat} : ∀ {os : List (Option (Nat × TExpr))} {c c' : Nat} {tes tes' : List TExpr},
    Costs os (List.replicate n (t, 2)) c tes → Costs os (List.replicate n (.tokens, 2)) c' tes' → c' = c + 8 * n := by
  induction n with
  | zero => intro os c c' tes tes' h h'; cases h; cases h'; rfl
  | succ n ih =>
    intro os c c' tes tes' h h'
    rw [List.replicate_succ] at h h'
    cases h with
    | cons h1 h2 =>
      cases h' with
      | cons h1' h2' =>
        obtain ⟨e, rfl⟩ := coercionCost_strict ht h1
        have := ih h2 h2'
        rw [e, coercionCost_to_tokens, if_neg (by rintro rfl; rcases ht with h | h | h <;> cases h)] at h1'
        cases h1'
        omega

theorem paramsFor_variadic {f : Func} {t : Ty} (h : f.args = [.variadic t]) {n : Nat} {ps : List (Ty × Nat)} (hp : paramsFor f n = some ps) :
    1 ≤ n ∧ ps = List.replicate n (t, 2) := by
  simp only [paramsFor, Func.variadicArg, Func.fixedArgs, h, List.find?, List.filter, Ty.isVariadic, Option.bind_some, List.length_cons,
    List.length_nil, Bool.not_true, List.map_nil, List.nil_append] at hp
  split at hp
  · cases hp; exact ⟨by omega, rfl⟩
  · cases hp

theorem paramsFor_ident_tokens {f : Func} (h : f.args = [.ident, .variadic .tokens]) {n : Nat} {ps : List (Ty × Nat)}
    (hp : paramsFor f n = some ps) : ∃ m, n = m + 2 ∧ ps = (.ident, 1) :: List.replicate (m + 1) (.tokens, 2) := by
  simp only [paramsFor, Func.variadicArg, Func.fixedArgs, h, List.find?, List.filter, Ty.isVariadic, Option.bind_some, List.length_cons,
    List.length_nil, Bool.not_true, Bool.not_false, List.map_nil, List.nil_append, List.map_cons, List.cons_append] at hp
  split at hp
  · cases hp; exact ⟨n - 2, by omega, by congr 2; omega⟩
  · cases hp

theorem paramsFor_first {f : Func} (hf : f ∈ builtins) {t : Ty} (h : f.firstTy = some t) {n : Nat} {ps : List (Ty × Nat)}
    (hp : paramsFor f n = some ps) : ∃ m qs, ps = (t, m) :: qs := by
  unfold paramsFor at hp
  have h1 : f.variadicArg = none → f.fixedArgs = f.args := by
    have : ∀ f ∈ builtins, f.variadicArg = none → f.fixedArgs = f.args := by decide +kernel
    exact this f hf
  unfold Func.firstTy at h
  split at hp
  · rename_i hv
    split at hp
    · cases hp
      rw [h1 hv, hv, Option.toList_none, List.append_nil] at h
      cases ha : f.args with
      | nil => rw [ha] at h; cases h
      | cons a as => rw [ha] at h; cases h; exact ⟨_, _, rfl⟩
    · cases hp
  · rename_i t' hv
    have h2 : f.fixedArgs.length < f.args.length := by
      have : ∀ f ∈ builtins, f.variadicArg.isSome = true → f.fixedArgs.length < f.args.length := by decide +kernel
      exact this f hf (by rw [hv]; rfl)
    split at hp
    · rename_i hl
      cases hp
      rw [hv] at h
      cases ha : f.fixedArgs with
      | nil =>
        rw [ha] at h h2
        cases h
        obtain ⟨k, rfl⟩ : ∃ k, n = k + 1 := ⟨n - 1, by omega⟩
        exact ⟨2, _, rfl⟩
      | cons a as => rw [ha] at h; cases h; exact ⟨_, _, rfl⟩
    · cases hp

/-- What a usable overload costs, if its parameter is not raw. -/
theorem usable_costs {Γ : TyEnv} {es : List Expr} {os : List (Option (Nat × TExpr))} (hes : All2 (Princ Γ) es os) {raw : Option (Nat × Toks)}
    {f : Func} (hf : f ∈ builtins) (hr : f.args ≠ [.raw]) {x : Choice}
    (h : usable raw es.length none (fun ps => checkArgs builtinFuncs Γ es ps) f = some x) :
    ∃ ps, paramsFor f es.length = some ps ∧ Costs os ps x.cost x.args := by
  rw [usable_eq (co := 0) rfl, if_neg hr] at h
  obtain ⟨ps, hps, h⟩ := Option.bind_eq_some_iff.1 h
  obtain ⟨⟨c, tes⟩, hc, h⟩ := Option.bind_eq_some_iff.1 h
  cases h
  refine ⟨ps, hps, ?_⟩
  rw [Nat.zero_add]
  exact (checkArgs_costs hes (paramsFor_length hps) (fun p hp => builtins_simple f hf p.1 (mem_paramTypes.2 (paramsFor_mem hps hp)))).1 hc

/-- The overload for tokens. -/
def TokensRival (f g : Func) : Prop :=
  f.args = [.variadic .tokens] ∧ (g.args = [.ident, .variadic .tokens] ∨ ∃ t ∈ [Ty.ident, .litStr, .litInt], g.args = [.variadic t])

instance (f g : Func) : Decidable (TokensRival f g) := by unfold TokensRival; infer_instance

/-- The first parameters have different strict types. -/
def Exclusive (f g : Func) : Prop :=
  ∃ s ∈ [Ty.ident, .litStr, .litInt], ∃ t ∈ [Ty.ident, .litStr, .litInt], s ≠ t ∧ f.firstTy = some s ∧ g.firstTy = some t

instance (f g : Func) : Decidable (Exclusive f g) := by unfold Exclusive; infer_instance

/-- The overloads of a built-in function have the same type, or one is that of `hash` for strings, or their first parameter has different strict
types, or they are the overloads of `concat` for tokens and for something else. -/
theorem builtins_pairs : ∀ f ∈ builtins, ∀ g ∈ builtins, f.name = g.name →
    f.out = g.out ∨ (f.name = c! "hash" ∧ (f.args = [.litStr] ∨ g.args = [.litStr])) ∨ Exclusive f g ∨
    (f.out = .tokens ∧ TokensRival f g) ∨ (g.out = .tokens ∧ TokensRival g f) := by
  decide +kernel

section
variable {Γ : TyEnv} {es : List Expr} {os : List (Option (Nat × TExpr))} {raw : Option (Nat × Toks)} {f g : Func} {x y : Choice}

theorem tokens_dearer (hes : All2 (Princ Γ) es os) (hf : f ∈ builtins) (hg : g ∈ builtins)
    (hx : usable raw es.length none (fun ps => checkArgs builtinFuncs Γ es ps) f = some x)
    (hy : usable raw es.length none (fun ps => checkArgs builtinFuncs Γ es ps) g = some y) (h : TokensRival f g) : y.cost + 4 < x.cost := by
  obtain ⟨hfa, hga⟩ := h
  obtain ⟨ps, hps, hcx⟩ := usable_costs hes hf (by rw [hfa]; simp) hx
  obtain ⟨h1, rfl⟩ := paramsFor_variadic hfa hps
  rcases hga with hga | ⟨t, ht, hga⟩
  · obtain ⟨qs, hqs, hcy⟩ := usable_costs hes hg (by rw [hga]; simp) hy
    obtain ⟨m, hm, rfl⟩ := paramsFor_ident_tokens hga hqs
    rw [hm, List.replicate_succ] at hcx
    generalize x.cost = a at *
    generalize y.cost = b at *
    generalize x.args = as at *
    generalize y.args = bs at *
    cases hcx with
    | cons h1 h2 =>
      cases hcy with
      | cons h1' h2' =>
        obtain ⟨e, rfl⟩ := coercionCost_strict (.inl rfl) h1'
        rw [e, coercionCost_to_tokens, if_neg (by simp)] at h1
        cases h1
        obtain ⟨rfl, -⟩ := costs_fun h2 h2'
        omega
  · obtain ⟨qs, hqs, hcy⟩ := usable_costs hes hg (by rw [hga]; simp) hy
    obtain ⟨-, rfl⟩ := paramsFor_variadic hga hqs
    have := costs_to_tokens (by simpa [Ty.strict] using ht) hcy hcx
    omega

theorem exclusive_usable (hes : All2 (Princ Γ) es os) (hf : f ∈ builtins) (hg : g ∈ builtins)
    (hx : usable raw es.length none (fun ps => checkArgs builtinFuncs Γ es ps) f = some x)
    (hy : usable raw es.length none (fun ps => checkArgs builtinFuncs Γ es ps) g = some y) : ¬ Exclusive f g := by
  rintro ⟨s, hs, t, ht, hst, hfs, hgt⟩
  have nr : ∀ {f : Func} {s : Ty}, s ∈ [Ty.ident, .litStr, .litInt] → f.firstTy = some s → f.args ≠ [.raw] := by
    intro f s hs hfs ha
    simp only [Func.firstTy, Func.fixedArgs, Func.variadicArg, ha] at hfs
    cases hfs
    simp at hs
  obtain ⟨ps, hps, hcx⟩ := usable_costs hes hf (nr hs hfs) hx
  obtain ⟨qs, hqs, hcy⟩ := usable_costs hes hg (nr ht hgt) hy
  obtain ⟨m, ps', rfl⟩ := paramsFor_first hf hfs hps
  obtain ⟨m', qs', rfl⟩ := paramsFor_first hg hgt hqs
  generalize x.cost = a at *
  generalize y.cost = b at *
  generalize x.args = as at *
  generalize y.args = bs at *
  cases hcx with
  | cons h1 _ =>
    cases hcy with
    | cons h2 _ =>
      exact absurd ((coercionCost_strict (by simpa [Ty.strict] using hs) h1).1.symm.trans
        (coercionCost_strict (by simpa [Ty.strict] using ht) h2).1) hst

/-- Two usable overloads of a built-in function have the same type, or the one that gives tokens is more expensive, or the function is `hash` and the
argument a string. -/
theorem usable_pairs (hes : All2 (Princ Γ) es os) (hf : f ∈ builtins) (hg : g ∈ builtins) (hfg : f.name = g.name)
    (hh : f.name = c! "hash" → ∀ a ∈ es, ∀ c te, check builtinFuncs Γ a none = .ok (c, te) → te.target ≠ .litStr)
    (hx : usable raw es.length none (fun ps => checkArgs builtinFuncs Γ es ps) f = some x)
    (hy : usable raw es.length none (fun ps => checkArgs builtinFuncs Γ es ps) g = some y) :
    f.out = g.out ∨ (f.out = .tokens ∧ y.cost + 4 < x.cost) ∨ (g.out = .tokens ∧ x.cost + 4 < y.cost) := by
  have hlit : f.name = c! "hash" → ∀ {g : Func} (_ : g ∈ builtins) {x : Choice}
      (_ : usable raw es.length none (fun ps => checkArgs builtinFuncs Γ es ps) g = some x), g.args ≠ [.litStr] := by
    intro hname f' hf' x hx ha
    obtain ⟨ps, hps, hcx⟩ := usable_costs hes hf' (by rw [ha]; simp) hx
    obtain ⟨m, qs, rfl⟩ := paramsFor_first hf' (t := .litStr) (by simp [Func.firstTy, Func.fixedArgs, ha, Ty.isVariadic]) hps
    generalize x.cost = a at *
    generalize x.args = as at *
    cases hcx with
    | cons h1 _ =>
      cases hes with
      | cons he _ =>
        cases he with
        | types _ _ hck _ _ => exact hh hname _ (by simp) _ _ hck (coercionCost_strict (.inr (.inl rfl)) h1).1
  rcases builtins_pairs f hf g hg hfg with h | ⟨hname, ha | ha⟩ | h | ⟨h2, h⟩ | ⟨h2, h⟩
  · exact .inl h
  · exact absurd ha (hlit hname hf hx)
  · exact absurd ha (hlit hname hg hy)
  · exact absurd h (exclusive_usable hes hf hg hx hy)
  · exact .inr (.inl ⟨h2, tokens_dearer hes hf hg hx hy h⟩)
  · exact .inr (.inr ⟨h2, tokens_dearer hes hg hf hy hx h⟩)

end

mutual
/-- Without `hash` of a string, expressions have principal types. -/
theorem princ (Γ : TyEnv) : (e : Expr) → noStrHash Γ e → ∃ o, Princ Γ e o
  | .value i k, _ => by
    refine ⟨_, .types 0 (.val k (natural Γ k)) ?_ ?_ ?_⟩
    · simp only [check, Option.getD_none, coercionCost_refl]
    · intro t co _ h
      have h : coercionCost (natural Γ k) t = some co := h
      simp only [check, Option.getD_some, h]; rfl
    · intro t _ h
      have h : coercionCost (natural Γ k) t = none := h
      exact ⟨_, by simp only [check, Option.getD_some, h]; rfl⟩
  | .call i name args raw, hh => by
    obtain ⟨hh, hargs⟩ := hh
    obtain ⟨os, hos⟩ := princL Γ args hargs
    cases hf : builtinFuncs name with
    | none => exact ⟨none, .fails fun _ _ => ⟨_, by simp only [check, hf]; rfl⟩⟩
    | some fs =>
      refine ⟨_, princ_call hf fun x hb y hy => ?_⟩
      obtain ⟨f, hfm, hux⟩ := List.mem_filterMap.1 (best_mem hb)
      obtain ⟨g, hgm, huy⟩ := List.mem_filterMap.1 hy
      obtain ⟨hf1, hf2⟩ := (builtinFuncs_mem hf).1 hfm
      obtain ⟨hg1, hg2⟩ := (builtinFuncs_mem hf).1 hgm
      rw [usable_func hux, usable_func huy]
      rcases usable_pairs hos hf1 hg1 (hf2.trans hg2.symm) (by rw [hf2]; exact hh) hux huy with h | ⟨_, h⟩ | h
      · exact .inl h.symm
      · refine absurd ?_ (best_not_better hb y hy)
        unfold Choice.better
        omega
      · exact .inr h
theorem princL (Γ : TyEnv) : (es : List Expr) → noStrHashL Γ es → ∃ os, All2 (Princ Γ) es os
  | [], _ => ⟨[], .nil⟩
  | e :: es, hh => by
    obtain ⟨o, ho⟩ := princ Γ e hh.1
    obtain ⟨os, hos⟩ := princL Γ es hh.2
    exact ⟨o :: os, .cons ho hos⟩
end

end Verif
