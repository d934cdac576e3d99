import Verif.Proofs.Principal
import Verif.Spec.Reference
/-! # Types by the reference are the types of the code -/

namespace Verif
open Spec

theorem converts_iff {s p : Ty} (hp : p.isVariadic = false) : (∃ c, coercionCost s p = some c) ↔ Converts s p := by
  constructor
  · rintro ⟨c, h⟩
    have h0 : s = p ∨ p = .tokens ∨ p = .raw ∨ (s = .ident ∧ (p = .path ∨ p = .type ∨ p = .expr)) := by
      cases p <;> cases s <;> simp_all [coercionCost, coercionCostBasic, Ty.isVariadic]
    rcases h0 with rfl | rfl | rfl | ⟨rfl, rfl | rfl | rfl⟩ <;> constructor
  · intro h
    cases h with
    | same => exact ⟨_, coercionCost_refl _⟩
    | tokens t => rw [coercionCost_to_tokens]; split <;> exact ⟨_, rfl⟩
    | raw t => rw [coercionCost_to_raw]; split <;> exact ⟨_, rfl⟩
    | _ => exact ⟨_, rfl⟩

/-- The arguments have these types, and are coerced as one expects. -/
inductive Own (Γ : TyEnv) : List Expr → List (Option (Nat × TExpr)) → List Ty → Prop
  | nil : Own Γ [] [] []
  | cons {e es c te os ts} (h : Princ Γ e (some (c, te))) (hs : Own Γ es os ts) : Own Γ (e :: es) (some (c, te) :: os) (te.target :: ts)

theorem Own.all {Γ es os ts} (h : Own Γ es os ts) : All2 (Princ Γ) es os := by
  induction h with
  | nil => exact .nil
  | cons h _ ih => exact .cons h ih

theorem Own.length {Γ es os ts} (h : Own Γ es os ts) : es.length = ts.length := by
  induction h with
  | nil => rfl
  | cons _ _ ih => simp [ih]

theorem Own.costs {Γ es os ts} (h : Own Γ es os ts) : ∀ {ps : List (Ty × Nat)},
    (∃ c tes, Costs os ps c tes) ↔ All2 (fun t p => ∃ co, coercionCost t p.1 = some co) ts ps := by
  induction h with
  | nil =>
    intro ps
    constructor
    · rintro ⟨c, tes, h⟩; cases h; exact .nil
    · intro h; cases h; exact ⟨_, _, .nil⟩
  | cons _ _ ih =>
    intro ps
    constructor
    · rintro ⟨c, tes, h⟩
      cases h with
      | cons h1 h2 => exact .cons ⟨_, h1⟩ (ih.1 ⟨_, _, h2⟩)
    · intro h
      cases h with
      | cons h1 h2 =>
        obtain ⟨co, h1⟩ := h1
        obtain ⟨c, tes, h2⟩ := ih.2 h2
        exact ⟨_, _, .cons h1 h2⟩

/-- The shapes of parameter lists. -/
theorem builtins_shapes : ∀ f ∈ builtins, (∃ t, t.isVariadic = false ∧ f.args = [t]) ∨ (∃ t, t.isVariadic = false ∧ f.args = [.variadic t]) ∨ f.args = [.ident, .variadic .tokens] := by
  have key : ∀ f ∈ builtins, (∃ t ∈ f.args, t.isVariadic = false ∧ f.args = [t]) ∨
      (∃ t ∈ f.args.filterMap (fun | .variadic t => some t | _ => none), t.isVariadic = false ∧ f.args = [.variadic t]) ∨ f.args = [.ident, .variadic .tokens] := by decide +kernel
  intro f hf
  rcases key f hf with ⟨t, -, h⟩ | ⟨t, -, h⟩ | h
  · exact .inl ⟨t, h⟩
  · exact .inr (.inl ⟨t, h⟩)
  · exact .inr (.inr h)

theorem all2_replicate {p : Ty × Nat} {R : Ty → Ty × Nat → Prop} : ∀ {ts : List Ty}, All2 R ts (List.replicate ts.length p) ↔ ∀ t ∈ ts, R t p
  | [] => by
    constructor
    · intro _ t h; cases h
    · intro _; exact .nil
  | t :: ts => by
    rw [List.length_cons, List.replicate_succ]
    constructor
    · intro h
      cases h with
      | cons h1 h2 =>
        intro s hs
        rcases List.mem_cons.1 hs with rfl | hs
        · exact h1
        · exact all2_replicate.1 h2 s hs
    · intro h
      exact .cons (h t List.mem_cons_self) (all2_replicate.2 fun s hs => h s (List.mem_cons_of_mem _ hs))

/-- An overload fits by costs if and only if it fits by types. -/
theorem takes_iff {f : Func} (hf : f ∈ builtins) {ts : List Ty} :
    (∃ ps, paramsFor f ts.length = some ps ∧ All2 (fun t p => ∃ co, coercionCost t p.1 = some co) ts ps) ↔ Takes f.args ts := by
  rcases builtins_shapes f hf with ⟨t, ht, h⟩ | ⟨t, ht, h⟩ | h
  · have hp : ∀ n, paramsFor f n = if 1 = n then some [(t, 1)] else none := by
      intro n
      cases t <;> simp_all [paramsFor, Func.variadicArg, Ty.isVariadic, List.find?]
    rw [h]
    constructor
    · rintro ⟨ps, h1, h2⟩
      rw [hp] at h1
      split at h1
      · cases h1
        cases h2 with
        | cons h2 h3 => cases h3; exact .one ht ((converts_iff ht).1 h2) .nil
      · cases h1
    · intro h1
      cases h1 with
      | one _ h2 h3 =>
        cases h3
        exact ⟨[(t, 1)], by rw [hp]; simp, .cons ((converts_iff ht).2 h2) .nil⟩
      | many => cases ht
  · rw [h]
    constructor
    · rintro ⟨ps, h1, h2⟩
      obtain ⟨h3, rfl⟩ := paramsFor_variadic h h1
      rw [all2_replicate] at h2
      cases ts with
      | nil => cases h3
      | cons s ts => exact .many fun s hs => (converts_iff ht).1 (h2 s hs)
    · intro h1
      cases h1 with
      | one h2 => cases h2
      | @many _ s ts h2 =>
        refine ⟨List.replicate (s :: ts).length (t, 2), ?_, all2_replicate.2 fun s hs => (converts_iff ht).2 (h2 s hs)⟩
        simp [paramsFor, Func.variadicArg, Func.fixedArgs, h, List.filter, Ty.isVariadic]
  · rw [h]
    constructor
    · rintro ⟨ps, h1, h2⟩
      obtain ⟨m, h3, rfl⟩ := paramsFor_ident_tokens h h1
      cases h2 with
      | @cons s _ ts _ h4 h5 =>
        have : ts.length = m + 1 := by simpa using h3
        rw [← this, all2_replicate] at h5
        cases ts with
        | nil => cases this
        | cons u ts => exact .one rfl ((converts_iff rfl).1 h4) (.many fun s hs => (converts_iff rfl).1 (h5 s hs))
    · intro h1
      cases h1 with
      | one _ h2 h3 =>
        cases h3 with
        | one h4 => cases h4
        | @many _ u ts h4 =>
          refine ⟨(.ident, 1) :: List.replicate (u :: ts).length (.tokens, 2), ?_,
            .cons ((converts_iff rfl).2 h2) (all2_replicate.2 fun s hs => (converts_iff rfl).2 (h4 s hs))⟩
          simp [paramsFor, Func.variadicArg, Func.fixedArgs, h, List.find?, List.filter, Ty.isVariadic]

def Func.sig (f : Func) : Sig := ⟨f.name, f.args, f.out⟩

/-- The functions of the code are those of the reference. -/
theorem reference_sound : ∀ f ∈ builtins, f.sig ∈ reference := by decide +kernel
theorem reference_complete : ∀ r ∈ reference, ∃ f ∈ builtins, f.sig = r := by decide +kernel

theorem builtins_raw : ∀ f ∈ builtins, ∀ g ∈ builtins, f.name = g.name → f.args = [.raw] → g.args = [.raw] ∧ g.out = f.out := by decide +kernel

theorem exists_builtinFuncs {f : Func} (hf : f ∈ builtins) : ∃ fs, builtinFuncs f.name = some fs ∧ f ∈ fs := by
  have hm : f ∈ builtins.filter fun g => g.name == f.name := List.mem_filter.2 ⟨hf, by simp⟩
  unfold builtinFuncs
  cases h : builtins.filter fun g => g.name == f.name with
  | nil => rw [h] at hm; cases hm
  | cons g gs => exact ⟨_, rfl, by rw [← h]; exact hm⟩

theorem usable_read {Γ es} {raw : Option (Nat × Toks)} {f : Func} (hr : f.args = [.raw] → raw = none) :
    usable raw es.length none (fun ps => checkArgs builtinFuncs Γ es ps) f =
      (paramsFor f es.length).bind fun ps => (checkArgs builtinFuncs Γ es ps).bind fun r => some ⟨0 + r.1, f, r.2⟩ := by
  unfold usable
  have : (if f.args = [Ty.raw] then raw else none) = none := by
    split
    · exact hr ‹_›
    · rfl
  simp only [this]
  rfl

theorem costs_typed {os ps c tes} (h : Costs os ps c tes) : ∀ o ∈ os, o ≠ none := by
  induction h with
  | nil => intro o h; cases h
  | cons _ _ ih =>
    intro o h
    rcases List.mem_cons.1 h with rfl | h
    · simp
    · exact ih o h

theorem usable_own {Γ es os ts} (hes : Own Γ es os ts) {raw : Option (Nat × Toks)} {f : Func} (hf : f ∈ builtins) (hr : f.args = [.raw] → raw = none) :
    (∃ x, usable raw es.length none (fun ps => checkArgs builtinFuncs Γ es ps) f = some x) ↔ Takes f.args ts := by
  rw [← takes_iff hf, ← hes.length, usable_read hr]
  constructor
  · rintro ⟨x, h⟩
    obtain ⟨ps, hps, h⟩ := Option.bind_eq_some_iff.1 h
    obtain ⟨⟨c, tes⟩, hc, h⟩ := Option.bind_eq_some_iff.1 h
    refine ⟨ps, hps, hes.costs.1 ⟨c, tes, ?_⟩⟩
    exact (checkArgs_costs hes.all (paramsFor_length hps) (fun p hp => builtins_simple f hf p.1 (mem_paramTypes.2 (paramsFor_mem hps hp)))).1 hc
  · rintro ⟨ps, hps, h⟩
    obtain ⟨c, tes, h⟩ := hes.costs.2 h
    have := (checkArgs_costs hes.all (paramsFor_length hps) (fun p hp => builtins_simple f hf p.1 (mem_paramTypes.2 (paramsFor_mem hps hp)))).2 h
    exact ⟨_, by rw [hps]; simp only [Option.bind_some, this]; rfl⟩

theorem best_some {l : List Choice} {x : Choice} (h : x ∈ l) : ∃ y, best l = some y := by
  cases l with
  | nil => cases h
  | cons a l =>
    rw [best]
    split
    · exact ⟨_, rfl⟩
    · split <;> exact ⟨_, rfl⟩

mutual
/-- An expression with a type by the reference has that type, whatever type is expected of it. -/
theorem hasType_princ {Γ : TyEnv} : ∀ {e : Expr} {t : Ty}, HasType Γ e t → ∃ c te, Princ Γ e (some (c, te)) ∧ te.target = t
  | _, _, .value id k => by
    obtain ⟨o, ho⟩ := princ Γ (.value id k) trivial
    cases ho with
    | fails h =>
      obtain ⟨x, hx⟩ := h none (by intro t h; cases h)
      simp [check, coercionCost_refl] at hx
    | types c te h hs hn =>
      refine ⟨c, te, .types c te h hs hn, ?_⟩
      simp only [check, Option.getD_none, coercionCost_refl] at h
      cases h
      rfl
  | _, _, .unread id args raw (r := r) hr hp => by
    obtain ⟨f, hf, rfl⟩ := reference_complete r hr
    obtain ⟨fs, hfs, hm⟩ := exists_builtinFuncs hf
    have hall : ∀ y ∈ fs.filterMap (usable (some raw) args.length none (fun ps => checkArgs builtinFuncs Γ args ps)), y.func.out = f.out := by
      intro y hy
      obtain ⟨g, hgm, huy⟩ := List.mem_filterMap.1 hy
      obtain ⟨hg1, hg2⟩ := (builtinFuncs_mem hfs).1 hgm
      rw [usable_func huy]
      exact (builtins_raw f hf g hg1 hg2.symm hp).2
    have hu : usable (some raw) args.length none (fun ps => checkArgs builtinFuncs Γ args ps) f = some ⟨0, f, [.val (.raw raw.2) .raw]⟩ := by
      have hp : f.args = [.raw] := hp
      simp only [usable, outCost, hp, if_true, Option.bind_eq_bind, Option.bind_some]
    obtain ⟨x, hx⟩ := best_some (List.mem_filterMap.2 ⟨f, hm, hu⟩)
    have h := princ_call (Γ := Γ) (id := id) (args := args) (raw := some raw) hfs fun x hb y hy => .inl ((hall y hy).trans (hall x (best_mem hb)).symm)
    rw [hx] at h
    exact ⟨_, _, h, hall x (best_mem hx)⟩
  | _, _, .call id (args := args) (tys := tys) (raw := raw) (r := r) hs hr hp ht hu => by
    obtain ⟨os, hos⟩ := hasTypes_own hs
    obtain ⟨f, hf, rfl⟩ := reference_complete r hr
    obtain ⟨fs, hfs, hm⟩ := exists_builtinFuncs hf
    have hp' : ∀ g ∈ builtins, g.name = f.name → g.args = [.raw] → raw = none :=
      fun g hg hn ha => hp (builtins_raw g hg f hf hn ha).1
    obtain ⟨x0, hx0⟩ := (usable_own hos hf (hp' f hf rfl)).2 ht
    have hh : ∀ g : Func, g.name = f.name → g.name = c! "hash" → ∀ a ∈ args, ∀ c te, check builtinFuncs Γ a none = .ok (c, te) → te.target ≠ .litStr := by
      intro g hgn hn a ha c te hc hl
      rw [hgn] at hn
      have hsh : ∃ t, tys = [t] := by
        have : ∀ f ∈ builtins, f.name = c! "hash" → f.args = [.litStr] ∨ f.args = [.ident] ∨ f.args = [.tokens] := by decide +kernel
        replace ht : Takes f.args tys := ht
        rcases this f hf hn with h | h | h <;> rw [h] at ht <;> cases ht with | one _ _ h => cases h; exact ⟨_, rfl⟩
      obtain ⟨t, rfl⟩ := hsh
      cases hos with
      | cons h1 h2 =>
        cases h2
        rcases List.mem_cons.1 ha with rfl | ha
        · cases h1 with
          | types _ _ h _ _ =>
            rw [h] at hc
            cases hc
            rw [hl] at hu
            have h1 := hu ⟨c! "hash", [.litStr], .litStr⟩ (by decide +kernel) hn.symm (.one rfl (.same _) .nil)
            have h2 := hu ⟨c! "hash", [.tokens], .ident⟩ (by decide +kernel) hn.symm (.one rfl (.tokens _) .nil)
            simp only [reduceCtorEq, or_false] at h1 h2
            rw [← h1] at h2
            cases h2
        · cases ha
    have hdom : ∀ x, best (fs.filterMap (usable raw args.length none (fun ps => checkArgs builtinFuncs Γ args ps))) = some x →
        Dominates x (fs.filterMap (usable raw args.length none (fun ps => checkArgs builtinFuncs Γ args ps))) := by
      intro x hb y hy
      obtain ⟨g, hgm, hux⟩ := List.mem_filterMap.1 (best_mem hb)
      obtain ⟨g', hgm', huy⟩ := List.mem_filterMap.1 hy
      obtain ⟨hg1, hg2⟩ := (builtinFuncs_mem hfs).1 hgm
      obtain ⟨hg1', hg2'⟩ := (builtinFuncs_mem hfs).1 hgm'
      rw [usable_func hux, usable_func huy]
      rcases usable_pairs hos.all hg1 hg1' (hg2.trans hg2'.symm) (hh g hg2) hux huy with h | ⟨_, h⟩ | h
      · exact .inl h.symm
      · refine absurd ?_ (best_not_better hb y hy)
        unfold Choice.better
        omega
      · exact .inr h
    obtain ⟨x, hx⟩ := best_some (List.mem_filterMap.2 ⟨f, hm, hx0⟩)
    have h := princ_call (Γ := Γ) (id := id) (args := args) (raw := raw) hfs hdom
    rw [hx] at h
    refine ⟨_, _, h, ?_⟩
    show x.func.out = f.out
    obtain ⟨g, hgm, hux⟩ := List.mem_filterMap.1 (best_mem hx)
    obtain ⟨hg1, hg2⟩ := (builtinFuncs_mem hfs).1 hgm
    rw [usable_func hux]
    rcases hdom x hx x0 (List.mem_filterMap.2 ⟨f, hm, hx0⟩) with h1 | ⟨h1, h2⟩
    · rw [usable_func hux, usable_func hx0] at h1; exact h1.symm
    · rw [usable_func hx0] at h1
      have h3 := hu g.sig (reference_sound g hg1) hg2 ((usable_own hos hg1 (hp' g hg1 hg2)).1 ⟨x, hux⟩)
      rcases h3 with h3 | h3
      · exact h3
      · exact h3.trans h1.symm
theorem hasTypes_own {Γ : TyEnv} : ∀ {es : List Expr} {ts : List Ty}, HasTypes Γ es ts → ∃ os, Own Γ es os ts
  | _, _, .nil => ⟨_, .nil⟩
  | _, _, .cons h hs => by
    obtain ⟨c, te, h1, rfl⟩ := hasType_princ h
    obtain ⟨os, h2⟩ := hasTypes_own hs
    exact ⟨_, .cons h1 h2⟩
end

mutual
/-- Without `hash` of a string, an expression which has a type has it by the reference. -/
theorem princ_hasType {Γ : TyEnv} : ∀ (e : Expr), noStrHash Γ e → ∀ {c te}, check builtinFuncs Γ e none = .ok (c, te) → HasType Γ e te.target
  | .value id k, _, c, te, h => by
    simp only [check, Option.getD_none, coercionCost_refl] at h
    cases h
    exact .value id k
  | .call id name args raw, hh, c, te, h => by
    obtain ⟨hh, hargs⟩ := hh
    obtain ⟨os, hos⟩ := princL Γ args hargs
    simp only [check] at h
    split at h
    · cases h
    · rename_i fs hfs
      split at h
      · rename_i x hx
        cases h
        show HasType Γ _ x.func.out
        obtain ⟨g, hgm, hux⟩ := List.mem_filterMap.1 (best_mem hx)
        obtain ⟨hg1, rfl⟩ := (builtinFuncs_mem hfs).1 hgm
        rw [usable_func hux]
        by_cases hr : g.args = [.raw] ∧ raw.isSome
        · obtain ⟨hr1, hr2⟩ := hr
          obtain ⟨w, rfl⟩ := Option.isSome_iff_exists.1 hr2
          exact .unread id args w (reference_sound g hg1) hr1
        · have hr' : g.args = [.raw] → raw = none := by
            intro ha
            cases raw with
            | none => rfl
            | some w => exact absurd ⟨ha, rfl⟩ hr
          have hn : ∀ o ∈ os, o ≠ none := by
            rw [usable_read hr'] at hux
            obtain ⟨ps, hps, h⟩ := Option.bind_eq_some_iff.1 hux
            obtain ⟨⟨c, tes⟩, hc, h⟩ := Option.bind_eq_some_iff.1 h
            exact costs_typed ((checkArgs_costs hos (paramsFor_length hps)
              (fun p hp => builtins_simple g hg1 p.1 (mem_paramTypes.2 (paramsFor_mem hps hp)))).1 hc)
          obtain ⟨ts, h1, h2⟩ := princ_hasTypes args hargs hos hn
          refine HasType.call id (r := g.sig) h1 (reference_sound g hg1) hr' ((usable_own h2 hg1 hr').1 ⟨x, hux⟩) ?_
          intro r' hr2 hn2 ht2
          obtain ⟨f, hf, rfl⟩ := reference_complete r' hr2
          obtain ⟨y, hy⟩ := (usable_own h2 hf fun ha => hr' (builtins_raw f hf g hg1 hn2 ha).1).2 ht2
          have hym := List.mem_filterMap.2 ⟨f, (builtinFuncs_mem hfs).2 ⟨hf, hn2⟩, hy⟩
          rcases usable_pairs hos hg1 hf hn2.symm hh hux hy with h | ⟨_, h⟩ | h
          · exact .inl h.symm
          · refine absurd ?_ (best_not_better hx y hym)
            unfold Choice.better
            omega
          · exact .inr h.1
      · cases h
theorem princ_hasTypes {Γ : TyEnv} : ∀ (es : List Expr), noStrHashL Γ es → ∀ {os}, All2 (Princ Γ) es os → (∀ o ∈ os, o ≠ none) → ∃ ts, HasTypes Γ es ts ∧ Own Γ es os ts
  | [], _, os, h, _ => by cases h; exact ⟨[], .nil, .nil⟩
  | e :: es, hh, os, h, hn => by
    cases h with
    | @cons _ o _ os h1 h2 =>
      obtain ⟨ts, h3, h4⟩ := princ_hasTypes es hh.2 h2 fun o ho => hn o (List.mem_cons_of_mem _ ho)
      cases h1 with
      | fails => exact absurd rfl (hn none List.mem_cons_self)
      | types c te hc hs hn' => exact ⟨_, .cons (princ_hasType e hh.1 hc) h3, .cons (.types c te hc hs hn') h4⟩
end

end Verif
