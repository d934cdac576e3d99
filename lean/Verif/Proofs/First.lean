import Verif.Spec.First
import Verif.Proofs.Failures
/-! # Which mistake comes first -/

namespace Verif
open Spec

theorem not_keyword {s : Str} : keywords.contains s = true ↔ s ∈ keywords := List.contains_iff_mem

theorem parseIdent_none {ts : Toks} : parseIdent ts = none ↔ ∀ n, ts = [.ident n] → n ∈ keywords := by
  constructor
  · rintro h n rfl
    simp only [parseIdent] at h
    split at h
    · rename_i hk; exact not_keyword.1 hk
    · cases h
  · intro h
    unfold parseIdent
    split
    · rename_i n
      rw [if_pos (not_keyword.2 (h n rfl))]
    · rfl

theorem parseLitStr_none {ts : Toks} : parseLitStr ts = none ↔ ∀ r s, ts ≠ [.lit (.str r s)] := by
  constructor
  · rintro h r s rfl; cases h
  · intro h
    unfold parseLitStr
    split
    · exact (h _ _ rfl).elim
    · rfl

theorem parseLitInt_none {ts : Toks} : parseLitInt ts = none ↔ (∀ r v, ts ≠ [.lit (.int r v)]) ∧ ∀ j r v, ts ≠ [.punct '-' j, .lit (.int r v)] := by
  constructor
  · intro h
    refine ⟨?_, ?_⟩
    · rintro r v rfl; cases h
    · rintro j r v rfl; cases h
  · rintro ⟨h1, h2⟩
    unfold parseLitInt
    split
    · exact (h1 _ _ rfl).elim
    · exact (h2 _ _ _ rfl).elim
    · rfl

theorem theNamed {n : Str} {f g : Func} (hg : builtins.filter (fun f => f.name == n) = [g]) (hf : f ∈ builtins) (hn : f.name = n) : f = g := by
  have : f ∈ builtins.filter (fun f => f.name == n) := List.mem_filter.2 ⟨hf, by simp [hn]⟩
  rw [hg] at this
  simpa using this

theorem only_to_ident : builtins.filter (fun f => f.name == S "to_ident") = [castFunc 26 c! "to_ident" .ident] := rfl
theorem only_to_path : builtins.filter (fun f => f.name == S "to_path") = [castFunc 27 c! "to_path" .path] := rfl
theorem only_to_type : builtins.filter (fun f => f.name == S "to_type") = [castFunc 28 c! "to_type" .type] := rfl
theorem only_to_expr : builtins.filter (fun f => f.name == S "to_expr") = [castFunc 29 c! "to_expr" .expr] := rfl
theorem only_to_str : builtins.filter (fun f => f.name == S "to_str") = [castFunc 30 c! "to_str" .litStr] := rfl
theorem only_to_int : builtins.filter (fun f => f.name == S "to_int") = [castFunc 31 c! "to_int" .litInt] := rfl
theorem only_concat : (builtins.filter (fun f => f.name == S "concat")).filter (fun f => decide (f.args = [.ident, .variadic .tokens])) = [concatIdentTokens 22] := rfl

theorem the_concat {f : Func} (hf : f ∈ builtins) (hn : f.name = S "concat") (ha : f.args = [.ident, .variadic .tokens]) : f = concatIdentTokens 22 := by
  have : f ∈ (builtins.filter (fun f => f.name == S "concat")).filter (fun f => decide (f.args = [.ident, .variadic .tokens])) :=
    List.mem_filter.2 ⟨List.mem_filter.2 ⟨hf, by simp [hn]⟩, by simp [ha]⟩
  rw [only_concat] at this
  simpa using this

theorem allOf_of_tokens (tss : List Toks) : allOf VKind.asTokens (tss.map .tokens) = .ok tss := by
  induction tss with
  | nil => rfl
  | cons t tss ih => simp only [List.map_cons, allOf, VKind.asTokens, ih]; rfl

/-- A function that refuses its arguments fails. -/
theorem refuses_fails {E : Ext} {seed : Nat} {f : Func} {vs : List VKind} {x : Err} (h : Refuses E f vs x) : f.impl E seed vs = .err x := by
  cases h with
  | identText hf hn r s h =>
    rw [theNamed only_to_ident hf hn]
    simp [castFunc, tryCast, VKind.ty, VKind.toTokens, parseLitStr, litStrAsIdent, h, Res.ofOption, Res.map, castError]
  | ident hf hn ts hs h =>
    rw [theNamed only_to_ident hf hn]
    simp [castFunc, tryCast, VKind.ty, VKind.toTokens, parseLitStr_none.2 hs, parseIdent_none.2 h, Res.ofOption, Res.map, castError]
  | path hf hn ts h =>
    rw [theNamed only_to_path hf hn]
    simp [castFunc, tryCast, VKind.ty, VKind.toTokens, h, castError]
  | type hf hn ts h =>
    rw [theNamed only_to_type hf hn]
    simp [castFunc, tryCast, VKind.ty, VKind.toTokens, h, castError]
  | expr hf hn ts h =>
    rw [theNamed only_to_expr hf hn]
    simp [castFunc, tryCast, VKind.ty, VKind.toTokens, h, castError]
  | str hf hn ts hs h =>
    rw [theNamed only_to_str hf hn]
    simp [castFunc, tryCast, VKind.ty, VKind.toTokens, parseLitStr_none.2 hs, parseIdent_none.2 h, Res.ofOption, Res.map, castError]
  | int hf hn ts h hm =>
    rw [theNamed only_to_int hf hn]
    simp [castFunc, tryCast, VKind.ty, VKind.toTokens, parseLitInt_none.2 ⟨h, hm⟩, Res.ofOption, Res.map, castError]
  | concat hf hn ha s rest h =>
    rw [the_concat hf hn ha]
    simp only [concatIdentTokens, allOf_of_tokens, Res.bind_eq, Res.bind_ok, concatStrs, List.flatten_cons, VKind.toTokens, h]
    simp [Function.comp_def, VKind.toTokens]

/-- A function that fails on arguments of its types refuses them. -/
theorem fails_refuses {E : Ext} {seed : Nat} {f : Func} (hf : f ∈ builtins) {vs : List VKind} (ht : TypesFit f vs) {x : Err} (h : f.impl E seed vs = .err x) :
    Refuses E f vs x := by
  cases builtins_fail hf h with
  | cast id n t ts hn frm hc hfrm =>
    clear hfrm ht
    have hn' : (castFunc id n t).name = n := rfl
    have hs : ∀ {n' : Str} {k : Nat} {t' : Ty}, builtins.filter (fun f => f.name == n') = [castFunc k n' t'] → n = n' → t = t' := by
      intro n' k t' hg hnn
      have := theNamed hg hf (hn'.trans hnn)
      exact congrArg Func.out this
    simp only [castNames, List.mem_cons, List.not_mem_nil, or_false] at hn
    rcases hn with rfl | rfl | rfl | rfl | rfl | rfl
    · cases hs only_to_ident rfl
      simp only [tryCast, VKind.ty, reduceCtorEq, if_false, VKind.toTokens] at hc
      split at hc
      · rename_i r s hl
        have : ts = [.lit (.str r s)] := by
          unfold parseLitStr at hl
          split at hl
          · cases hl; rfl
          · cases hl
        subst this
        simp only [litStrAsIdent] at hc
        cases hp : parseStrIdent E s with
        | some m => rw [hp] at hc; cases hc
        | none => rw [hp] at hc; cases hc; exact .identText hf rfl r s hp
      · rename_i hl
        cases hp : parseIdent ts with
        | some m => rw [hp] at hc; cases hc
        | none => rw [hp] at hc; cases hc; exact .ident hf rfl ts (parseLitStr_none.1 hl) (parseIdent_none.1 hp)
    · cases hs only_to_path rfl
      simp only [tryCast, VKind.ty, reduceCtorEq, if_false, VKind.toTokens] at hc
      cases hp : E.isPath ts with
      | true => simp [hp] at hc
      | false => simp only [hp] at hc; cases hc; exact .path hf rfl ts hp
    · cases hs only_to_type rfl
      simp only [tryCast, VKind.ty, reduceCtorEq, if_false, VKind.toTokens] at hc
      cases hp : E.isType ts with
      | true => simp [hp] at hc
      | false => simp only [hp] at hc; cases hc; exact .type hf rfl ts hp
    · cases hs only_to_expr rfl
      simp only [tryCast, VKind.ty, reduceCtorEq, if_false, VKind.toTokens] at hc
      cases hp : E.isExpr ts with
      | true => simp [hp] at hc
      | false => simp only [hp] at hc; cases hc; exact .expr hf rfl ts hp
    · cases hs only_to_str rfl
      simp only [tryCast, VKind.ty, reduceCtorEq, if_false, VKind.toTokens] at hc
      split at hc
      · cases hc
      · rename_i hp
        cases hl : parseLitStr ts with
        | some m => rw [hl] at hc; cases hc
        | none => rw [hl] at hc; cases hc; exact .str hf rfl ts (parseLitStr_none.1 hl) (parseIdent_none.1 hp)
    · cases hs only_to_int rfl
      simp only [tryCast, VKind.ty, reduceCtorEq, if_false, VKind.toTokens] at hc
      cases hl : parseLitInt ts with
      | some m => rw [hl] at hc; cases hc
      | none => rw [hl] at hc; cases hc; exact .int hf rfl ts (parseLitInt_none.1 hl).1 (parseLitInt_none.1 hl).2
  | concat id first rest hc =>
    obtain ⟨ps, h5, h6⟩ := ht
    obtain ⟨s, rfl⟩ : ∃ s, first = .ident s := by
      have h7 : ps = (.ident, 1) :: List.replicate rest.length (.tokens, 2) := by
        have : 1 ≤ rest.length ∧ ps = (.ident, 1) :: List.replicate rest.length (.tokens, 2) := by
          simpa [paramsFor, Func.variadicArg, Func.fixedArgs, concatIdentTokens, Ty.isVariadic] using h5.symm
        exact this.2
      rw [h7] at h6
      simp only [List.map_cons, List.cons.injEq] at h6
      cases first <;> simp only [VKind.ty, reduceCtorEq, false_and] at h6
      exact ⟨_, rfl⟩
    exact .concat hf rfl rfl s rest hc

/-- Exactly when evaluation of a typed expression fails. -/
theorem breaks_fails {E : Ext} {seed : Nat} {ρ : Str → Option VKind} {te : TExpr} {x : Err} (h : Breaks E seed ρ te x) : te.eval E seed ρ = .err x := by
  induction h with
  | @arg f pre te post t vs x hp h ih =>
    have : ∀ (pre : List TExpr) (vs : List VKind), TExpr.evalL E seed ρ pre = .ok vs → TExpr.evalL E seed ρ (pre ++ te :: post) = .err x := by
      intro pre
      induction pre with
      | nil => intro vs _; simp only [List.nil_append, TExpr.evalL, ih]; rfl
      | cons p pre ihp =>
        intro vs hvs
        simp only [TExpr.evalL, Res.bind_eq, Res.bind_eq_ok] at hvs
        obtain ⟨v, h1, ws, h2, -⟩ := hvs
        simp only [List.cons_append, TExpr.evalL, h1, ihp _ h2]
        rfl
    simp only [TExpr.eval, this pre vs hp]
    rfl
  | here ha h => simp only [TExpr.eval, ha, Res.bind_eq, Res.bind_ok, refuses_fails h]; rfl

theorem evalL_first {E : Ext} {seed : Nat} {ρ : Str → Option VKind} {x : Err} : ∀ {tes : List TExpr}, TExpr.evalL E seed ρ tes = .err x →
    ∃ pre te post vs, tes = pre ++ te :: post ∧ TExpr.evalL E seed ρ pre = .ok vs ∧ te.eval E seed ρ = .err x
  | [], h => by simp only [TExpr.evalL] at h; cases h
  | te :: tes, h => by
    simp only [TExpr.evalL, Res.bind_eq] at h
    cases h1 : te.eval E seed ρ with
    | err e => rw [h1] at h; cases h; exact ⟨[], te, tes, [], rfl, rfl, h1⟩
    | panic => rw [h1] at h; cases h
    | ok v =>
      rw [h1, Res.bind_ok] at h
      cases h2 : TExpr.evalL E seed ρ tes with
      | ok vs => rw [h2] at h; cases h
      | panic => rw [h2] at h; cases h
      | err e =>
        rw [h2] at h
        cases h
        obtain ⟨pre, t, post, vs, rfl, h3, h4⟩ := evalL_first h2
        exact ⟨te :: pre, t, post, v :: vs, rfl, by simp only [TExpr.evalL, h1, h3]; rfl, h4⟩

theorem fails_breaks {E : Ext} {seed : Nat} {Γ : TyEnv} {ρ : Str → Option VKind} (hρ : Typed Γ ρ) {te : TExpr} (h : WT (InTable builtinFuncs) Γ te) {x : Err}
    (he : te.eval E seed ρ = .err x) : Breaks E seed ρ te x := by
  have hF : ∀ f, InTable builtinFuncs f → Sound E seed f := fun f hf => builtins_sound (inTable_builtin hf)
  induction h with
  | val h =>
    rw [eval_val] at he
    split at he <;> cases he
  | @call f tes t hf hp hfit hw ih =>
    simp only [TExpr.eval, Res.bind_eq] at he
    cases h1 : TExpr.evalL E seed ρ tes with
    | panic => rw [h1] at he; cases he
    | err e =>
      rw [h1] at he
      cases he
      obtain ⟨pre, te, post, vs, rfl, h2, h3⟩ := evalL_first h1
      exact .arg h2 (ih te (by simp) h3)
    | ok vs =>
      rw [h1, Res.bind_ok] at he
      have ht := evalL_types (fun te hte => eval_sound hF hρ (hw te hte)) h1
      have hl : vs.length = tes.length := by
        have := congrArg List.length ht; simpa using this
      obtain ⟨ps, h3, h4⟩ := hfit
      have hfits : TypesFit f vs := ⟨ps, hl ▸ h3, ht.trans h4⟩
      cases h2 : f.impl E seed vs with
      | panic => rw [h2] at he; cases he
      | err e => rw [h2] at he; cases he; exact .here h1 (fails_refuses (inTable_builtin hf) hfits h2)
      | ok r =>
        rw [h2, Res.bind_ok] at he
        have hr := (hF f hf vs hfits).2 r h2
        obtain ⟨w, hw, -⟩ := tryCast_plainly (E := E) (v := r) (t := t) (hr ▸ hp)
        rw [hw] at he
        cases he

theorem defsBreak_fails {E : Ext} {seed : Nat} {ρ : Str → Option VKind} {tes : List (Str × TExpr)} {x : Err} (h : DefsBreak E seed ρ tes x) :
    evalSpecT E seed tes ρ = .err x := by
  induction h with
  | here h => simp only [evalSpecT, breaks_fails h]; rfl
  | later hv h ih => simp only [evalSpecT, hv, Res.bind_eq, Res.bind_ok, ih]; rfl

theorem fails_defsBreak {E : Ext} {seed : Nat} {x : Err} : ∀ {items : List (Str × Expr)} {Γ : TyEnv} {ρ : Str → Option VKind} {tes : List (Str × TExpr)},
    checkSpec builtinFuncs items Γ = .ok tes → Typed Γ ρ → evalSpecT E seed tes ρ = .err x → DefsBreak E seed ρ tes x
  | [], Γ, ρ, tes, h, _, he => by
    simp only [checkSpec] at h
    cases h
    cases he
  | (name, e) :: items, Γ, ρ, tes, h, hρ, he => by
    simp only [checkSpec] at h
    split at h
    · cases h
    · rename_i c te hc
      split at h
      · cases h
      · split at h
        · cases h
        · rename_i rest hr
          cases h
          have hw : WT (InTable builtinFuncs) Γ te := by
            rcases check_good builtins_tame e (expected := none) (by intro t h; cases h) hc with ⟨h, -⟩ | ⟨t, h, -⟩
            · exact h
            · cases h
          have hF : ∀ f, InTable builtinFuncs f → Sound E seed f := fun f hf => builtins_sound (inTable_builtin hf)
          simp only [evalSpecT, Res.bind_eq] at he
          cases hv : te.eval E seed ρ with
          | panic => rw [hv] at he; cases he
          | err y => rw [hv] at he; cases he; exact .here (fails_breaks hρ hw hv)
          | ok v =>
            rw [hv, Res.bind_ok] at he
            cases hs : evalSpecT E seed rest (extend ρ name v) with
            | ok ws => rw [hs] at he; cases he
            | panic => rw [hs] at he; cases he
            | err y =>
              rw [hs] at he
              cases he
              refine .later hv (fails_defsBreak hr ?_ hs)
              have ht : v.ty = te.target := by
                rcases eval_sound hF hρ hw with ⟨v', hv', ht⟩ | ⟨x, hx, -⟩ | ⟨hp, -⟩
                · rw [hv] at hv'; cases hv'; exact ht
                · rw [hv] at hx; cases hx
                · rw [hv] at hp; cases hp
              exact ht ▸ hρ.extend name v

theorem illtyped_fails {T : Str → Option (List Func)} {Γ : TyEnv} {items : List (Str × Expr)} {x : Err} (h : Illtyped T Γ items x) :
    checkSpec T items Γ = .error x := by
  induction h with
  | @call Γ m id n args raw post fs hf hu =>
    have : fs.filterMap (usable raw args.length none fun ps => checkArgs T Γ args ps) = [] := List.filterMap_eq_nil_iff.2 hu
    simp only [checkSpec, check, hf, this, best]
  | taken h hn => simp only [checkSpec, h, hn, Option.isSome_some, if_true]
  | later h hn hs ih => simp only [checkSpec, h, hn, Option.isSome_none, ih]; rfl

theorem fails_illtyped {T : Str → Option (List Func)} {x : Err} (hx : ∀ n, x ≠ .undefinedFunction n) : ∀ {items : List (Str × Expr)} {Γ : TyEnv},
    checkSpec T items Γ = .error x → Illtyped T Γ items x
  | [], Γ, h => by cases h
  | (name, e) :: items, Γ, h => by
    simp only [checkSpec] at h
    split at h
    · rename_i y hy
      cases h
      obtain ⟨id, m, args, raw, rfl, ⟨-, h4⟩ | ⟨fs, h4, rfl, h5⟩⟩ := check_none_error hy
      · exact (hx m h4).elim
      · exact .call h4 h5
    · rename_i c te hc
      split at h
      · rename_i hs
        cases h
        obtain ⟨t, ht⟩ := Option.isSome_iff_exists.1 hs
        exact .taken hc ht
      · rename_i hs
        split at h
        · rename_i y hy
          cases h
          exact .later hc (by simpa using hs) (fails_illtyped hx hy)
        · cases h

end Verif
