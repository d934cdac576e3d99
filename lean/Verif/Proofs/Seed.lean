import Verif.Proofs.Lib
import Verif.Proofs.VisitorErrors
import Verif.Proofs.BuiltinSound
/-! # Which functions and which errors an input can lead to -/

namespace Verif
open Spec

mutual
/-- The functions of a typed expression. -/
def TExpr.funcs : TExpr → List Func
  | .val _ _ => []
  | .call f args _ => f :: TExpr.funcsL args
def TExpr.funcsL : List TExpr → List Func
  | [] => []
  | te :: tes => TExpr.funcs te ++ TExpr.funcsL tes
end

mutual
theorem check_funcs {Γ : TyEnv} {e : Expr} {expected : Option Ty} {c : Nat} {te : TExpr} (h : check builtinFuncs Γ e expected = .ok (c, te)) :
    ∀ f ∈ TExpr.funcs te, f ∈ builtins ∧ f.name ∈ calls e := by
  match e with
  | .value id k =>
    simp only [check] at h
    split at h
    · cases h; simp [TExpr.funcs]
    · cases h
  | .call id name args raw =>
    simp only [check] at h
    split at h
    · cases h
    · rename_i fs hfs
      split at h
      · rename_i ch hb
        cases h
        have hm := best_mem hb
        rw [List.mem_filterMap] at hm
        obtain ⟨f, hf, hu⟩ := hm
        obtain ⟨hcf, co, -, hr⟩ := usable_cost hu
        obtain ⟨hf1, hf2⟩ := (builtinFuncs_mem hfs).1 hf
        intro g hg
        simp only [TExpr.funcs, List.mem_cons] at hg
        rcases hg with rfl | hg
        · rw [hcf]; exact ⟨hf1, by simp [calls, hf2]⟩
        · rcases hr with ⟨-, i, ts, -, -, hca⟩ | ⟨-, ps, cc, tes, -, hck, -, hca⟩
          · rw [hca] at hg
            simp [TExpr.funcsL, TExpr.funcs] at hg
          · rw [hca] at hg
            obtain ⟨h1, h2⟩ := checkArgs_funcs hck g hg
            exact ⟨h1, by simp [calls, h2]⟩
      · cases h
theorem checkArgs_funcs {Γ : TyEnv} {es : List Expr} {ps : List (Ty × Nat)} {c : Nat} {tes : List TExpr}
    (h : checkArgs builtinFuncs Γ es ps = some (c, tes)) : ∀ f ∈ TExpr.funcsL tes, f ∈ builtins ∧ f.name ∈ callsL es := by
  match es, ps with
  | [], _ => simp only [checkArgs] at h; cases h; simp [TExpr.funcsL]
  | _ :: _, [] => simp only [checkArgs] at h; cases h; simp [TExpr.funcsL]
  | e :: es, (t, m) :: ps =>
    simp only [checkArgs] at h
    split at h
    · rename_i c0 te hc
      simp only [Option.map_eq_some_iff, Prod.mk.injEq] at h
      obtain ⟨⟨c1, tes1⟩, hr, -, rfl⟩ := h
      intro f hf
      simp only [TExpr.funcsL, List.mem_append] at hf
      rcases hf with hf | hf
      · obtain ⟨h1, h2⟩ := check_funcs hc f hf
        exact ⟨h1, by simp [callsL, h2]⟩
      · obtain ⟨h1, h2⟩ := checkArgs_funcs hr f hf
        exact ⟨h1, by simp [callsL, h2]⟩
    · cases h
end

mutual
theorem eval_seed {E : Ext} {s s' : Nat} {ρ : Str → Option VKind} {te : TExpr}
    (h : ∀ f ∈ TExpr.funcs te, ∀ vs, f.impl E s vs = f.impl E s' vs) : te.eval E s ρ = te.eval E s' ρ := by
  match te with
  | .val k t => simp only [TExpr.eval]
  | .call f args t =>
    simp only [TExpr.eval, evalL_seed (E := E) (s := s) (s' := s') (ρ := ρ) (tes := args)
      (fun g hg => h g (by simp [TExpr.funcs, hg])), h f (by simp [TExpr.funcs])]
theorem evalL_seed {E : Ext} {s s' : Nat} {ρ : Str → Option VKind} {tes : List TExpr}
    (h : ∀ f ∈ TExpr.funcsL tes, ∀ vs, f.impl E s vs = f.impl E s' vs) : TExpr.evalL E s ρ tes = TExpr.evalL E s' ρ tes := by
  match tes with
  | [] => simp only [TExpr.evalL]
  | te :: tes =>
    simp only [TExpr.evalL, eval_seed (E := E) (s := s) (s' := s') (ρ := ρ) (te := te)
      (fun g hg => h g (by simp [TExpr.funcsL, hg])),
      evalL_seed (E := E) (s := s) (s' := s') (ρ := ρ) (tes := tes) (fun g hg => h g (by simp [TExpr.funcsL, hg]))]
end

theorem builtins_seed {f : Func} (hf : f ∈ builtins) (hn : f.name ≠ S "hash") (E : Ext) (s s' : Nat) (vs : List VKind) :
    f.impl E s vs = f.impl E s' vs := by
  have hstr : ∀ id n G, f ∈ strFuncs id n G → f.impl E s vs = f.impl E s' vs := by
    intro id n G hm
    simp only [strFuncs, List.mem_cons, List.not_mem_nil, or_false] at hm
    rcases hm with rfl | rfl <;> rfl
  simp only [builtins, List.mem_append, List.mem_cons, List.not_mem_nil, or_false] at hf
  rcases hf with (((((((h | h) | h) | h) | h) | h) | h) | h)
  · exact hstr _ _ _ h
  · exact hstr _ _ _ h
  · exact hstr _ _ _ h
  · exact hstr _ _ _ h
  · exact hstr _ _ _ h
  · rcases h with rfl | rfl | rfl | rfl | rfl | rfl | rfl | rfl <;> rfl
  · simp only [hashFuncs, List.mem_cons, List.not_mem_nil, or_false] at h
    rcases h with rfl | rfl | rfl <;> exact (hn rfl).elim
  · rcases h with rfl | rfl | rfl | rfl | rfl | rfl | rfl | rfl | rfl | rfl | rfl | rfl | rfl <;> rfl

/-- The errors of evaluation. -/
def IsEvalErr (x : Err) : Prop := (∃ w, x = .typeError w) ∨ ∃ vs, x = .evalError vs

theorem allOf_bind_err {α : Type} {g : VKind → Option α} {vs : List VKind} {k : List α → Res VKind} {x : Err} {P : Prop}
    (h : (allOf g vs >>= k) = .err x) (hk : ∀ l, allOf g vs = .ok l → k l = .err x → P) : P := by
  cases ha : allOf g vs with
  | ok l => rw [ha] at h; exact hk l ha h
  | panic => rw [ha] at h; cases h
  | err e =>
    rw [ha] at h
    exfalso
    clear h hk k
    induction vs generalizing e with
    | nil => cases ha
    | cons v vs ih =>
      unfold allOf at ha
      split at ha
      · cases hr : allOf g vs with
        | ok l => rw [hr] at ha; cases ha
        | panic => rw [hr] at ha; cases ha
        | err e' => exact ih e' hr
      · cases ha

theorem newIdent_err {E : Ext} {s : Str} {x : Err} : newIdent E s ≠ .err x := by
  unfold newIdent
  split <;> simp

/-- The names of the conversion functions. -/
def castNames : List Str := [S "to_ident", S "to_path", S "to_type", S "to_expr", S "to_str", S "to_int"]

/-- The ways in which a built-in function can fail: the tokens given to a conversion cannot be read, or the text made by `concat`
from an identifier and tokens is not an identifier. -/
inductive FuncFails (E : Ext) (s : Nat) : Func → List VKind → Err → Prop
  | cast (id : Nat) (n : Str) (t : Ty) (ts : Toks) (hn : n ∈ castNames) (frm : Ty) (h : tryCast E (.tokens ts) t = .err (.typeError (.cast frm t)))
      (hf : frm = .tokens ∨ frm = .litStr ∧ t = .ident ∧ ∃ r s, ts = [.lit (.str r s)]) :
      FuncFails E s (castFunc id n t) [.tokens ts] (.typeError (.cast frm t))
  | concat (id : Nat) (first : VKind) (rest : List Toks)
      (h : parseStrIdent E (concatStrs (E.render first.toTokens :: rest.map E.render)) = none) :
      FuncFails E s (concatIdentTokens id) (first :: rest.map .tokens) (.evalError (first.toTokens :: rest))

theorem allOf_tokens {vs : List VKind} {tss : List Toks} (h : allOf VKind.asTokens vs = .ok tss) : vs = tss.map .tokens := by
  induction vs generalizing tss with
  | nil => cases h; rfl
  | cons v vs ih =>
    unfold allOf at h
    split at h
    · rename_i ts hv
      cases hr : allOf VKind.asTokens vs with
      | err e => rw [hr] at h; cases h
      | panic => rw [hr] at h; cases h
      | ok l =>
        rw [hr] at h
        cases h
        rw [ih hr]
        cases v <;> simp only [VKind.asTokens, reduceCtorEq, Option.some.injEq] at hv
        rw [hv]; rfl
    · cases h

theorem builtins_fail {E : Ext} {s : Nat} {f : Func} (hf : f ∈ builtins) {vs : List VKind} {x : Err} (h : f.impl E s vs = .err x) :
    FuncFails E s f vs x := by
  have hstr : ∀ id n G, f ∈ strFuncs id n G → FuncFails E s f vs x := by
    intro id n G hm
    simp only [strFuncs, List.mem_cons, List.not_mem_nil, or_false] at hm
    rcases hm with rfl | rfl
    · simp only at h; split at h <;> cases h
    · simp only at h
      split at h
      · exact (newIdent_err h).elim
      · cases h
  have hn2 : ∀ id t, f = normalize2For id t → FuncFails E s f vs x := by
    rintro id t rfl
    simp only [normalize2For] at h
    split at h
    · split at h
      · exact (newIdent_err h).elim
      · cases h
    · cases h
  have hcast : ∀ id n t, f = castFunc id n t → n ∈ castNames → FuncFails E s f vs x := by
    rintro id n t rfl hn
    simp only [castFunc] at h
    split at h
    · rename_i ts
      rcases tryCast_err h with rfl | ⟨rfl, rfl, r, w, hw⟩
      · exact .cast id n t _ hn _ h (.inl rfl)
      · exact .cast id n _ _ hn _ h (.inr ⟨rfl, rfl, r, w, hw⟩)
    · cases h
  simp only [builtins, List.mem_append, List.mem_cons, List.not_mem_nil, or_false] at hf
  rcases hf with (((((((hm | hm) | hm) | hm) | hm) | hm) | hm) | hm)
  · exact hstr _ _ _ hm
  · exact hstr _ _ _ hm
  · exact hstr _ _ _ hm
  · exact hstr _ _ _ hm
  · exact hstr _ _ _ hm
  · rcases hm with rfl | hm | hm | hm | hm | hm | hm | hm
    · simp only [normalizeFunc] at h
      split at h
      · exact (newIdent_err h).elim
      · cases h
    all_goals exact hn2 _ _ hm
  · simp only [hashFuncs, List.mem_cons, List.not_mem_nil, or_false] at hm
    rcases hm with rfl | rfl | rfl <;> simp only at h <;> split at h <;> first | exact (newIdent_err h).elim | cases h
  · rcases hm with rfl | rfl | rfl | rfl | rfl | hm | hm | hm | hm | hm | hm | rfl | rfl
    · exact allOf_bind_err h fun l _ hl => (newIdent_err hl).elim
    · simp only [concatIdentTokens] at h
      split at h
      · cases h
      · refine allOf_bind_err h fun l ha hl => ?_
        split at hl
        · cases hl
        · cases hl
          cases allOf_tokens ha
          rename_i first _ hp
          have := FuncFails.concat (s := s) 22 first l hp
          simpa [Function.comp_def, VKind.toTokens] using this
    · exact allOf_bind_err h fun l _ hl => (by cases hl)
    · refine allOf_bind_err h fun l ha hl => ?_
      cases hr : newLitInt (concatStrs (l.map IntLit.digits)) with
      | ok i => rw [hr] at hl; cases hl
      | panic => rw [hr] at hl; cases hl
      | err x =>
        unfold newLitInt at hr
        dsimp only at hr
        split at hr <;> (split at hr <;> cases hr)
    · exact allOf_bind_err h fun l _ hl => (by cases hl)
    all_goals first | exact hcast _ _ _ hm (by decide +kernel) | skip
    · simp only [toTokensFunc] at h
      split at h <;> cases h
    · simp only [rawFunc] at h
      split at h <;> cases h

theorem builtins_err {E : Ext} {s : Nat} {f : Func} (hf : f ∈ builtins) {vs : List VKind} {x : Err} (h : f.impl E s vs = .err x) :
    IsEvalErr x := by
  cases builtins_fail hf h with
  | cast => exact .inl ⟨_, rfl⟩
  | concat => exact .inr ⟨_, rfl⟩

mutual
theorem eval_err {E : Ext} {s : Nat} {ρ : Str → Option VKind} {te : TExpr} (hf : ∀ f ∈ TExpr.funcs te, f ∈ builtins) {x : Err}
    (h : te.eval E s ρ = .err x) : IsEvalErr x := by
  match te with
  | .val k t =>
    simp only [TExpr.eval] at h
    split at h <;> cases h
  | .call f args t =>
    simp only [TExpr.eval, Res.bind_eq] at h
    cases h1 : TExpr.evalL E s ρ args with
    | panic => rw [h1] at h; cases h
    | err y => rw [h1] at h; cases h; exact evalL_err (fun g hg => hf g (by simp [TExpr.funcs, hg])) h1
    | ok vs =>
      rw [h1, Res.bind_ok] at h
      cases h2 : f.impl E s vs with
      | panic => rw [h2] at h; cases h
      | err y => rw [h2] at h; cases h; exact builtins_err (hf f (by simp [TExpr.funcs])) h2
      | ok v =>
        rw [h2, Res.bind_ok] at h
        rcases tryCast_err h with h | ⟨h, -⟩ <;> exact .inl ⟨_, h⟩
theorem evalL_err {E : Ext} {s : Nat} {ρ : Str → Option VKind} {tes : List TExpr} (hf : ∀ f ∈ TExpr.funcsL tes, f ∈ builtins) {x : Err}
    (h : TExpr.evalL E s ρ tes = .err x) : IsEvalErr x := by
  match tes with
  | [] => simp only [TExpr.evalL] at h; cases h
  | te :: tes =>
    simp only [TExpr.evalL, Res.bind_eq] at h
    cases h1 : te.eval E s ρ with
    | panic => rw [h1] at h; cases h
    | err y => rw [h1] at h; cases h; exact eval_err (fun g hg => hf g (by simp [TExpr.funcsL, hg])) h1
    | ok v =>
      rw [h1, Res.bind_ok] at h
      cases h2 : TExpr.evalL E s ρ tes with
      | panic => rw [h2] at h; cases h
      | err y => rw [h2] at h; cases h; exact evalL_err (fun g hg => hf g (by simp [TExpr.funcsL, hg])) h2
      | ok vs => rw [h2, Res.bind_ok] at h; cases h
end

/-! ## Lists of definitions -/

theorem checkSpec_funcs {defs : List (Str × Expr)} {Γ : TyEnv} {tes : List (Str × TExpr)} (h : checkSpec builtinFuncs defs Γ = .ok tes) :
    ∀ te ∈ tes, ∀ f ∈ TExpr.funcs te.2, f ∈ builtins ∧ ∃ d ∈ defs, f.name ∈ calls d.2 := by
  induction defs generalizing Γ tes with
  | nil => simp only [checkSpec] at h; cases h; simp
  | cons d defs ih =>
    obtain ⟨name, e⟩ := d
    simp only [checkSpec] at h
    split at h
    · cases h
    · rename_i c te hc
      split at h
      · cases h
      · split at h
        · cases h
        · rename_i rest hr
          cases h
          intro te' hte f hf
          rcases List.mem_cons.1 hte with rfl | hte
          · obtain ⟨h1, h2⟩ := check_funcs hc f hf
            exact ⟨h1, _, List.mem_cons_self, h2⟩
          · obtain ⟨h1, d, hd, h2⟩ := ih hr te' hte f hf
            exact ⟨h1, d, List.mem_cons_of_mem _ hd, h2⟩

theorem evalSpecT_seed {E : Ext} {s s' : Nat} {tes : List (Str × TExpr)}
    (h : ∀ te ∈ tes, ∀ f ∈ TExpr.funcs te.2, ∀ vs, f.impl E s vs = f.impl E s' vs) (ρ : Str → Option VKind) :
    evalSpecT E s tes ρ = evalSpecT E s' tes ρ := by
  induction tes generalizing ρ with
  | nil => rfl
  | cons te tes ih =>
    simp only [evalSpecT, eval_seed (ρ := ρ) (h te List.mem_cons_self)]
    simp only [ih fun te' h' => h te' (List.mem_cons_of_mem _ h')]

theorem outcome_seed {E : Ext} {s s' : Nat} {defs : List (Str × Expr)} (h : ∀ d ∈ defs, S "hash" ∉ calls d.2) :
    outcome E (Env.builtin s) defs = outcome E (Env.builtin s') defs := by
  simp only [outcome, denote, Env.builtin]
  cases hc : checkSpec builtinFuncs defs (fun _ => none) with
  | error x => rfl
  | ok tes =>
    simp only
    have key : ∀ te ∈ tes, ∀ f ∈ TExpr.funcs te.2, ∀ vs, f.impl E s vs = f.impl E s' vs := by
      intro te hte f hf vs
      obtain ⟨h1, d, hd, h2⟩ := checkSpec_funcs hc te hte f hf
      exact builtins_seed h1 (fun e => h d hd (e ▸ h2)) _ _ _ _
    rw [evalSpecT_seed key]
    rfl

theorem evalSpecT_err {E : Ext} {s : Nat} {tes : List (Str × TExpr)} (hf : ∀ te ∈ tes, ∀ f ∈ TExpr.funcs te.2, f ∈ builtins)
    {ρ : Str → Option VKind} {x : Err} (h : evalSpecT E s tes ρ = .err x) : IsEvalErr x := by
  induction tes generalizing ρ with
  | nil => cases h
  | cons te tes ih =>
    simp only [evalSpecT, Res.bind_eq] at h
    cases h1 : te.2.eval E s ρ with
    | panic => rw [h1] at h; cases h
    | err y => rw [h1] at h; cases h; exact eval_err (hf te List.mem_cons_self) h1
    | ok v =>
      rw [h1, Res.bind_ok] at h
      cases h2 : evalSpecT E s tes (Spec.extend ρ te.1 v) with
      | panic => rw [h2] at h; cases h
      | err y => rw [h2] at h; cases h; exact ih (fun te' h' => hf te' (List.mem_cons_of_mem _ h')) h2
      | ok vs => rw [h2, Res.bind_ok] at h; cases h

/-- The errors of typing. -/
inductive IsTypingErr (defs : List (Str × Expr)) : Err → Prop
  | type (w : Mismatch) : IsTypingErr defs (.typeError w)
  | undefined (n : Str) (h : builtinFuncs n = none) (d : Str × Expr) (hd : d ∈ defs) (hc : n ∈ calls d.2) :
      IsTypingErr defs (.undefinedFunction n)
  | signature (n : Str) (fs : List Func) (h : builtinFuncs n = some fs) (d : Str × Expr) (hd : d ∈ defs) (hc : n ∈ calls d.2) :
      IsTypingErr defs (refusal fs d.2)
  | redefined (n : Str) (h : ∃ e, (n, e) ∈ defs) : IsTypingErr defs (.redefined n)

theorem IsTypingErr.mono {defs defs' : List (Str × Expr)} (hd : ∀ d ∈ defs, d ∈ defs') {x : Err} (h : IsTypingErr defs x) : IsTypingErr defs' x := by
  cases h with
  | type w => exact .type w
  | undefined n h d hm hc => exact .undefined n h d (hd d hm) hc
  | signature n fs h d hm hc => exact .signature n fs h d (hd d hm) hc
  | redefined n h => obtain ⟨e, h⟩ := h; exact .redefined n ⟨e, hd _ h⟩

theorem checkSpec_err {defs : List (Str × Expr)} {Γ : TyEnv} {x : Err} (h : checkSpec builtinFuncs defs Γ = .error x) :
    IsTypingErr defs x := by
  induction defs generalizing Γ with
  | nil => simp only [checkSpec] at h; cases h
  | cons d defs ih =>
    obtain ⟨name, e⟩ := d
    simp only [checkSpec] at h
    split at h
    · rename_i y hc
      cases h
      cases e with
      | value id k =>
        simp only [check] at hc
        split at hc <;> cases hc
        exact .type _
      | call id n args raw =>
        simp only [check] at hc
        split at hc
        · rename_i hn
          cases hc
          exact .undefined n hn _ List.mem_cons_self (by simp [calls])
        · rename_i fs hfs
          split at hc <;> cases hc
          exact .signature n fs hfs (name, .call id n args raw) List.mem_cons_self (by simp [calls])
    · split at h
      · cases h; exact .redefined name ⟨e, List.mem_cons_self⟩
      · split at h
        · rename_i hr
          cases h
          exact (ih hr).mono fun d hd => List.mem_cons_of_mem _ hd
        · cases h

theorem outcome_err {E : Ext} {s : Nat} {defs : List (Str × Expr)} {x : Err} (h : outcome E (Env.builtin s) defs = .err x) :
    IsTypingErr defs x ∨ ∃ vs, x = .evalError vs := by
  unfold outcome at h
  split at h
  · cases h
  · unfold denote at h
    split at h
    · rename_i hc
      cases h
      exact .inl (checkSpec_err hc)
    · rename_i tes hc
      rcases evalSpecT_err (fun te hte f hf => (checkSpec_funcs hc te hte f hf).1) h with ⟨w, rfl⟩ | h
      · exact .inl (.type w)
      · exact .inr h

/-! ## Whole expansions -/

theorem makeSpecItems_mem {α ε : Type} {l : LoopAlias α} {v : LoopSourceValue ε} {items : List (α × ε)} (h : makeSpecItems l v = .ok items) :
    ∀ d ∈ items, d.2 ∈ exprsOfValue v := by
  cases l <;> cases v <;> simp only [makeSpecItems] at h
  case simple.value a e => cases h; simp [exprsOfValue]
  case simple.tuple => cases h
  case tuple.value => cases h
  case tuple.tuple as es =>
    simp only [Res.bind_eq, Res.bind_eq_ok, Res.ok.injEq] at h
    obtain ⟨_, -, rfl⟩ := h
    intro d hd
    exact (leaves_perm es).mem_iff.1 (List.of_mem_zip hd).2

theorem loopSpecItems_mem {α ε : Type} {ls : List (LoopAlias α × List (LoopSourceValue ε))} {vs : List (LoopSourceValue ε)}
    (hv : vs ∈ picks (ls.map (·.2))) {items : List (α × ε)} (h : loopSpecItems ls vs = .ok items) :
    ∀ d ∈ items, d.2 ∈ ls.flatMap fun l => l.2.flatMap exprsOfValue := by
  induction ls generalizing vs items with
  | nil => simp [loopSpecItems] at h; subst h; simp
  | cons l ls ih =>
    simp only [List.map_cons, picks, List.mem_flatMap, List.mem_map] at hv
    obtain ⟨v, hv, vs', hvs, rfl⟩ := hv
    simp only [loopSpecItems, Res.bind_eq, Res.bind_eq_ok, Res.ok.injEq] at h
    obtain ⟨i, h1, r, h2, rfl⟩ := h
    intro d hd
    rw [List.flatMap_cons, List.mem_append]
    rcases List.mem_append.1 hd with hd | hd
    · exact .inl (List.mem_flatMap.2 ⟨v, hv, makeSpecItems_mem h1 d hd⟩)
    · exact .inr (ih hvs h2 d hd)

theorem combinations_picks {γ : Type} {ss : List (List γ)} {xs : List γ} (h : xs ∈ combinations ss) : xs ∈ picks ss := by
  unfold combinations at h
  split at h
  · cases h
  · exact h

theorem expand_mem {α ε β : Type} {a : RawAst α ε β} {out : List (BlockRewrite α ε β)} (h : expand a = .ok out) :
    ∀ br ∈ out, ∀ d ∈ br.spec.items, d.2 ∈ exprsIn a := by
  intro br hbr
  cases hl : a.loops with
  | none =>
    simp only [expand, hl, Res.ok.injEq] at h
    subst h
    simp only [List.mem_singleton] at hbr
    subst hbr
    cases hs : a.spec with
    | none => simp
    | some s =>
      intro d hd
      simp only [exprsIn, hl, hs, List.mem_append, Option.toList_some, List.flatMap_cons, List.flatMap_nil, List.append_nil]
      exact .inr (List.mem_map.2 ⟨d, hd, rfl⟩)
  | some ls =>
    rw [expand_loops_eq a ls hl] at h
    obtain ⟨i, hi⟩ := List.getElem?_of_mem hbr
    have hlt : i < (combinations (ls.map (·.2))).length := by
      rw [← mapRes_length h]
      exact lt_of_getElem? hi
    obtain ⟨br', h1, h2⟩ := Props.mapRes_getElem h i _ (List.getElem?_eq_getElem hlt)
    rw [hi] at h2
    cases h2
    have hm := combinations_picks (List.getElem_mem hlt)
    unfold rewriteFor at h1
    cases hj : loopSpecItems ls ((combinations (ls.map (·.2)))[i]) with
    | err e => rw [hj] at h1; cases h1
    | panic => rw [hj] at h1; cases h1
    | ok items =>
      rw [hj] at h1
      simp only [Res.map, Res.ok.injEq] at h1
      subst h1
      intro d hd
      simp only [exprsIn, hl, Option.getD_some, List.mem_append]
      cases hs : a.spec with
      | none => rw [hs] at hd; exact .inl (loopSpecItems_mem hm hj d hd)
      | some s =>
        rw [hs] at hd
        rcases List.mem_append.1 hd with hd | hd
        · exact .inl (loopSpecItems_mem hm hj d hd)
        · refine .inr ?_
          simp only [Option.toList_some, List.flatMap_cons, List.flatMap_nil, List.append_nil]
          exact List.mem_map.2 ⟨d, hd, rfl⟩

theorem iterations_mem {a : RawAst Str Expr (List Stmt)} {its : List (List (Str × Expr))} (h : iterations a = .ok its) :
    ∀ defs ∈ its, ∀ d ∈ defs, d.2 ∈ exprsIn a := by
  unfold iterations at h
  cases he : expand a with
  | err e => rw [he] at h; cases h
  | panic => rw [he] at h; cases h
  | ok out =>
    rw [he] at h
    cases h
    intro defs hd
    obtain ⟨br, hbr, rfl⟩ := List.mem_map.1 hd
    exact expand_mem he br hbr

theorem expansion_seed {W : World} {s s' : Nat} {sv : Service} {a : RawAst Str Expr (List Stmt)} (h : ∀ e ∈ exprsIn a, S "hash" ∉ calls e) :
    expansion W (Env.builtin s) sv a = expansion W (Env.builtin s') sv a := by
  unfold expansion
  cases hi : iterations a with
  | err e => rfl
  | panic => rfl
  | ok its =>
    simp only
    congr 1
    refine List.map_congr_left fun defs hd => ?_
    simp only [copyOf, outcome_seed (s' := s') fun d hd' => h _ (iterations_mem hi defs hd d hd')]

theorem joinAll_err {rs : List (Res Toks)} {x : Err} (h : joinAll rs = .err x) : .err x ∈ rs := by
  induction rs with
  | nil => cases h
  | cons r rs ih =>
    cases r with
    | ok ts =>
      simp only [joinAll] at h
      cases hr : joinAll rs with
      | ok u => rw [hr] at h; cases h
      | panic => rw [hr] at h; cases h
      | err e => rw [hr] at h; cases h; exact List.mem_cons_of_mem _ (ih hr)
    | err e => cases h; exact List.mem_cons_self
    | panic => cases h

theorem makeSpecItems_err {α ε : Type} {l : LoopAlias α} {v : LoopSourceValue ε} {x : Err} (h : makeSpecItems l v = .err x) :
    ∃ w, x = .typeError w ∧ Unmatched l v w := by
  match l, v with
  | .simple _, .value _ => cases h
  | .simple a, .tuple es => cases h; exact ⟨_, rfl, .simple a es⟩
  | .tuple as, .value e => cases h; exact ⟨_, rfl, .tuple as e⟩
  | .tuple as, .tuple es =>
    simp only [makeSpecItems, matchTuples_eq] at h
    split at h
    · cases h
    · rename_i hk
      cases h
      refine ⟨_, rfl, ?_⟩
      unfold tupleMismatch
      split
      · rename_i he
        refine .shape as es he fun hs => hk ?_
        rw [← Tup.kinds_map (fun _ => ()) as, ← Tup.kinds_map (fun _ => ()) es, ← shapes_eq_map, ← shapes_eq_map, hs]
      · rename_i he; exact .size as es he

theorem loopSpecItems_err {α ε : Type} {x : Err} : ∀ {ls : List (LoopAlias α × List (LoopSourceValue ε))} {vs : List (LoopSourceValue ε)},
    loopSpecItems ls vs = .err x → ∃ (i : Nat) (l : LoopAlias α × List (LoopSourceValue ε)) (v : LoopSourceValue ε) (w : Mismatch),
      ls[i]? = some l ∧ vs[i]? = some v ∧ Unmatched l.1 v w ∧ x = .typeError w
  | [], [], h => by cases h
  | [], _ :: _, h => by cases h
  | _ :: _, [], h => by cases h
  | l :: ls, v :: vs, h => by
    simp only [loopSpecItems, Res.bind_eq] at h
    cases h1 : makeSpecItems l.1 v with
    | panic => rw [h1] at h; cases h
    | err e =>
      rw [h1] at h
      cases h
      obtain ⟨w, h2, h3⟩ := makeSpecItems_err h1
      exact ⟨0, l, v, w, rfl, rfl, h3, h2⟩
    | ok i =>
      rw [h1, Res.bind_ok] at h
      cases h2 : loopSpecItems ls vs with
      | panic => rw [h2] at h; cases h
      | ok r => rw [h2] at h; cases h
      | err e =>
        rw [h2] at h
        cases h
        obtain ⟨i, l', v', w, h3, h4, h5⟩ := loopSpecItems_err h2
        exact ⟨i + 1, l', v', w, h3, h4, h5⟩

/-- If the loops fail, a value does not match its loop variable. -/
theorem expand_err {α ε β : Type} {a : RawAst α ε β} {x : Err} (h : expand a = .err x) :
    ∃ (loops : List (LoopAlias α × List (LoopSourceValue ε))) (vals : List (LoopSourceValue ε)) (i : Nat)
      (l : LoopAlias α × List (LoopSourceValue ε)) (v : LoopSourceValue ε) (w : Mismatch), a.loops = some loops ∧ vals ∈ combinations (loops.map (·.2)) ∧ loops[i]? = some l ∧ vals[i]? = some v ∧
      Unmatched l.1 v w ∧ x = .typeError w := by
  cases hl : a.loops with
  | none => simp [expand, hl] at h
  | some ls =>
    rw [expand_loops_eq a ls hl] at h
    have key : ∃ vs ∈ combinations (ls.map (·.2)), loopSpecItems ls vs = .err x := by
      generalize combinations (ls.map (·.2)) = xs at h
      induction xs with
      | nil => cases h
      | cons vs xs ih =>
        simp only [mapRes] at h
        cases h1 : rewriteFor ls a.spec a.block vs with
        | panic => rw [h1] at h; cases h
        | err e =>
          rw [h1] at h
          cases h
          unfold rewriteFor at h1
          cases h2 : loopSpecItems ls vs with
          | panic => rw [h2] at h1; cases h1
          | ok r => rw [h2] at h1; cases h1
          | err e => rw [h2] at h1; cases h1; exact ⟨vs, by simp, h2⟩
        | ok br =>
          rw [h1] at h
          cases h2 : mapRes (rewriteFor ls a.spec a.block) xs with
          | panic => rw [h2] at h; cases h
          | ok r => rw [h2] at h; cases h
          | err e =>
            rw [h2] at h
            cases h
            obtain ⟨vs', hm, h3⟩ := ih h2
            exact ⟨vs', by simp [hm], h3⟩
    obtain ⟨vs, hm, hv⟩ := key
    obtain ⟨i, l, v, w, h1, h2, h3, h4⟩ := loopSpecItems_err hv
    exact ⟨ls, vs, i, l, v, w, rfl, hm, h1, h2, h3, h4⟩

theorem mapRes_no_panic {γ δ : Type} {f : γ → Res δ} (hf : ∀ x, f x ≠ .panic) (xs : List γ) : mapRes f xs ≠ .panic := by
  induction xs with
  | nil => intro h; cases h
  | cons x xs ih =>
    intro h
    simp only [mapRes] at h
    cases h1 : f x with
    | panic => exact hf x h1
    | err e => rw [h1] at h; cases h
    | ok y =>
      rw [h1, Res.bind_ok] at h
      cases h2 : mapRes f xs with
      | panic => exact ih h2
      | err e => rw [h2] at h; cases h
      | ok ys => rw [h2] at h; cases h

theorem loopSpecItems_no_panic {α ε : Type} (ls : List (LoopAlias α × List (LoopSourceValue ε))) (vs : List (LoopSourceValue ε)) :
    loopSpecItems ls vs ≠ .panic := by
  induction ls generalizing vs with
  | nil => intro h; cases vs <;> cases h
  | cons l ls ih =>
    intro h
    cases vs with
    | nil => cases h
    | cons v vs =>
      simp only [loopSpecItems, Res.bind_eq] at h
      cases h1 : makeSpecItems l.1 v with
      | err e => rw [h1] at h; cases h
      | panic =>
        unfold makeSpecItems at h1
        split at h1
        · cases h1
        · unfold matchTuples at h1
          split at h1
          · cases h1
          · split at h1 <;> cases h1
        · cases h1
      | ok i =>
        rw [h1, Res.bind_ok] at h
        cases h2 : loopSpecItems ls vs with
        | panic => exact ih vs h2
        | ok r => rw [h2] at h; cases h
        | err e => rw [h2] at h; cases h

theorem expand_no_panic {α ε β : Type} (a : RawAst α ε β) : expand a ≠ .panic := by
  intro h
  cases hl : a.loops with
  | none => simp [expand, hl] at h
  | some ls =>
    rw [expand_loops_eq a ls hl] at h
    refine mapRes_no_panic (fun vs h1 => ?_) _ h
    unfold rewriteFor at h1
    cases h2 : loopSpecItems ls vs with
    | panic => exact loopSpecItems_no_panic ls vs h2
    | ok r => rw [h2] at h1; cases h1
    | err e => rw [h2] at h1; cases h1

theorem copyOf_no_warnings (W : World) (env : Env) {sv sv' : Service} (h : sv.warnings = []) (h' : sv'.warnings = []) (block : List Stmt)
    (defs : List (Str × Expr)) : copyOf W env sv block defs = copyOf W env sv' block defs := by
  unfold copyOf Service.emit
  rw [h, h']
  rfl

/-- Without warnings, the rest of the service does not matter. -/
theorem expansion_no_warnings (W : World) (env : Env) {sv sv' : Service} (h : sv.warnings = []) (h' : sv'.warnings = [])
    (a : RawAst Str Expr (List Stmt)) : expansion W env sv a = expansion W env sv' a := by
  unfold expansion
  rw [funext (copyOf_no_warnings W env h h' a.block)]

/-- The errors of an expansion. -/
inductive ExpansionErr (a : RawAst Str Expr (List Stmt)) : Err → Prop
  | type (w : Mismatch) : ExpansionErr a (.typeError w)
  | eval (vs : List Toks) : ExpansionErr a (.evalError vs)
  | substitution (o r : Str) : ExpansionErr a (.substitution o r)
  | undefined (n : Str) (h : builtinFuncs n = none) (e : Expr) (he : e ∈ exprsIn a) (hc : n ∈ calls e) : ExpansionErr a (.undefinedFunction n)
  | signature (n : Str) (fs : List Func) (h : builtinFuncs n = some fs) (e : Expr) (he : e ∈ exprsIn a) (hc : n ∈ calls e) :
      ExpansionErr a (refusal fs e)
  | redefined (n : Str) : ExpansionErr a (.redefined n)

theorem expansion_err {W : World} {s : Nat} {sv : Service} {a : RawAst Str Expr (List Stmt)} {x : Err}
    (h : expansion W (Env.builtin s) sv a = .err x) : ExpansionErr a x := by
  unfold expansion at h
  cases hi : iterations a with
  | panic => rw [hi] at h; cases h
  | err e =>
    rw [hi] at h
    cases h
    unfold iterations at hi
    cases he : expand a with
    | panic => rw [he] at hi; cases hi
    | ok o => rw [he] at hi; cases hi
    | err e => rw [he] at hi; cases hi; obtain ⟨_, _, _, _, _, w, -, -, -, -, -, rfl⟩ := expand_err he; exact .type w
  | ok its =>
    rw [hi] at h
    obtain ⟨defs, hd, hc⟩ := List.mem_map.1 (joinAll_err h)
    have hm := iterations_mem hi defs hd
    unfold copyOf at hc
    split at hc
    · split at hc
      · cases hc
      · rename_i hv
        cases hc
        obtain ⟨o, r, _, rfl⟩ := visitBlock_err hv
        exact .substitution o _
      · cases hc
    · rename_i ho
      cases hc
      rcases outcome_err ho with h' | ⟨vs, rfl⟩
      · cases h' with
        | type w => exact .type w
        | undefined n hn d hd hc => exact .undefined n hn d.2 (hm d hd) hc
        | signature n fs h' d hd hc => exact .signature n fs h' d.2 (hm d hd) hc
        | redefined n h => exact .redefined n
      · exact .eval vs
    · cases hc

end Verif
