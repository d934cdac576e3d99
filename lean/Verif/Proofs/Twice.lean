import Verif.Spec.Twice
import Verif.Proofs.NormalizeValue
import Verif.Proofs.BuiltinSound
/-! # A function applied to the result of another: proofs -/

namespace Verif
open Spec

/-! ## One argument -/

theorem check_target {T : Str → Option (List Func)} {Γ : TyEnv} {e : Expr} {t : Ty} {c : Nat} {te : TExpr} (h : check T Γ e (some t) = .ok (c, te)) :
    te.target = t := by
  cases e with
  | value j k =>
    simp only [check] at h
    split at h <;> cases h
    rfl
  | call i n args raw =>
    simp only [check] at h
    split at h
    · cases h
    · split at h <;> cases h
      rfl

theorem eval_ty {E : Ext} {seed : Nat} {ρ : Str → Option VKind} {te : TExpr} {v : VKind} (h : te.eval E seed ρ = .ok v) : v.ty = te.target := by
  cases te with
  | val k t =>
    rw [TExpr.eval.eq_def] at h
    simp only at h
    split at h
    · next hc => cases h; exact tryCast_ty hc
    · cases h
  | call f args t =>
    rw [TExpr.eval] at h
    simp only [Res.bind_eq] at h
    obtain ⟨vs, -, h⟩ := Res.bind_eq_ok.1 h
    obtain ⟨r, -, h⟩ := Res.bind_eq_ok.1 h
    exact tryCast_ty h

/-- A function with one parameter which is not `raw`. -/
theorem usable_one {Γ : TyEnv} {e : Expr} {raw : Option (Nat × Toks)} {expected : Option Ty} {f : Func} {t : Ty} (ha : f.args = [t])
    (ht : t.isVariadic = false) (hr : t ≠ .raw) :
    usable raw 1 expected (fun ps => checkArgs builtinFuncs Γ [e] ps) f =
      (outCost f.out expected).bind fun co => (check builtinFuncs Γ e (some t)).toOption.map fun p => ⟨co + p.1, f, [p.2]⟩ := by
  have hp : paramsFor f 1 = some [(t, 1)] := by
    unfold paramsFor
    have : f.variadicArg = none := by unfold Func.variadicArg; rw [ha]; cases t <;> first | rfl | cases ht
    rw [this, ha]
    rfl
  have ha : f.args ≠ [.raw] := by simp [ha, hr]
  cases ho : outCost f.out expected with
  | none => simp only [usable, ho, Option.bind_eq_bind, Option.bind_none]
  | some co =>
    simp only [usable, ho, hp, ha, if_false, Option.bind_eq_bind, Option.bind_some, checkArgs]
    cases check builtinFuncs Γ e (some t) <;> simp [Except.toOption]

theorem overflows_one {Γ : TyEnv} {e : Expr} {raw : Option (Nat × Toks)} {expected : Option Ty} {f : Func} {t : Ty} (ha : f.args = [t])
    (ht : t.isVariadic = false) (hr : t ≠ .raw) :
    (match outCost f.out expected, (if f.args = [.raw] then raw else none), paramsFor f 1 with
      | some co, none, some ps => overflowsArgs builtinFuncs Γ [e] ps co
      | _, _, _ => false) =
      (outCost f.out expected).any fun co => overflows builtinFuncs Γ e (some t) ||
        (check builtinFuncs Γ e (some t)).toOption.any fun p => decide (2 ^ 32 ≤ co + p.1) := by
  have hp : paramsFor f 1 = some [(t, 1)] := by
    unfold paramsFor
    have : f.variadicArg = none := by unfold Func.variadicArg; rw [ha]; cases t <;> first | rfl | cases ht
    rw [this, ha]
    rfl
  have ha : f.args ≠ [.raw] := by simp [ha, hr]
  rw [hp, if_neg ha]
  cases ho : outCost f.out expected with
  | none => rfl
  | some co =>
    simp only [overflowsArgs, Option.any_some]
    cases check builtinFuncs Γ e (some t) <;> simp [Except.toOption]

/-! ## Functions on words -/

/-- The overload for strings. -/
def strOf (id : Nat) (n : Str) (G : Ext → Str → Str) : Func where
  id
  name := n
  args := [.litStr]
  out := .litStr
  impl := fun E _ vs => match vs with
    | [.litStr _ s] => .ok (newLitStr E (G E s))
    | _ => .panic

/-- The overload for names. -/
def identOf (id : Nat) (n : Str) (G : Ext → Str → Str) : Func where
  id := id + 1
  name := n
  args := [.ident]
  out := .ident
  impl := fun E _ vs => match vs with
    | [.ident s] => newIdent E (G E s)
    | _ => .panic

theorem wordFunction_builtin {n : Str} {G : Ext → Str → Str} (h : WordFunction n G) : ∃ id, builtinFuncs n = some [strOf id n G, identOf id n G] := by
  cases h with
  | upper => exact ⟨0, builtin_upper⟩
  | lower => exact ⟨2, builtin_lower⟩
  | snake => exact ⟨4, builtin_snake⟩
  | camel => exact ⟨6, builtin_camel⟩
  | pascal => exact ⟨8, builtin_pascal⟩

/-- Which overload is taken (`true`: that for strings), at what cost, for what argument. -/
def wordChoice (expected : Option Ty) (rS rI : Option (Nat × TExpr)) : Option (Nat × Bool × TExpr) :=
  match (outCost .litStr expected).bind (fun co => rS.map fun p => (co + p.1, p.2)),
      (outCost .ident expected).bind (fun co => rI.map fun p => (co + p.1, p.2)) with
  | none, none => none
  | some a, none => some (a.1, true, a.2)
  | none, some b => some (b.1, false, b.2)
  | some a, some b => if b.1 < a.1 then some (b.1, false, b.2) else some (a.1, true, a.2)

theorem wordChoice_map (expected : Option Ty) (rS rI : Option (Nat × TExpr)) (gS gI : TExpr → TExpr) :
    wordChoice expected (rS.map fun p => (p.1, gS p.2)) (rI.map fun p => (p.1, gI p.2)) =
      (wordChoice expected rS rI).map fun p => (p.1, p.2.1, if p.2.1 then gS p.2.2 else gI p.2.2) := by
  unfold wordChoice
  cases outCost .litStr expected <;> cases outCost .ident expected <;> cases rS <;> cases rI <;> simp
  split <;> simp

theorem check_word {n : Str} {G : Ext → Str → Str} {id : Nat} (hb : builtinFuncs n = some [strOf id n G, identOf id n G]) (Γ : TyEnv) (i : Nat) (e : Expr)
    (raw : Option (Nat × Toks)) (expected : Option Ty) :
    check builtinFuncs Γ (.call i n [e] raw) expected =
      match wordChoice expected (check builtinFuncs Γ e (some .litStr)).toOption (check builtinFuncs Γ e (some .ident)).toOption with
      | some (c, true, te) => .ok (c, .call (strOf id n G) [te] (expected.getD .litStr))
      | some (c, false, te) => .ok (c, .call (identOf id n G) [te] (expected.getD .ident))
      | none => .error (refusal [strOf id n G, identOf id n G] (.call i n [e] raw)) := by
  simp only [check, hb, List.length_singleton, List.filterMap_cons, List.filterMap_nil]
  rw [usable_one (f := strOf id n G) rfl rfl (by decide), usable_one (f := identOf id n G) rfl rfl (by decide)]
  have h1 : (strOf id n G).out = .litStr := rfl
  have h2 : (identOf id n G).out = .ident := rfl
  have hbet : ∀ (a b : Nat) (x y : List TExpr), Choice.better ⟨b, identOf id n G, y⟩ ⟨a, strOf id n G, x⟩ ↔ b < a := by
    intro a b x y
    simp [Choice.better, identOf, strOf, Func.isVariadic, Ty.isVariadic]
    omega
  rw [h1, h2]
  unfold wordChoice
  cases outCost .litStr expected <;> cases outCost .ident expected <;> cases (check builtinFuncs Γ e (some .litStr)).toOption <;>
    cases (check builtinFuncs Γ e (some .ident)).toOption <;> simp [best, hbet, h1, h2]
  next a b p q => by_cases hlt : b + q.1 < a + p.1 <;> simp [hlt, h1, h2]

theorem overflows_word {n : Str} {G : Ext → Str → Str} {id : Nat} (hb : builtinFuncs n = some [strOf id n G, identOf id n G]) (Γ : TyEnv) (i : Nat) (e : Expr)
    (raw : Option (Nat × Toks)) (expected : Option Ty) :
    overflows builtinFuncs Γ (.call i n [e] raw) expected =
      (((outCost .litStr expected).any fun co => overflows builtinFuncs Γ e (some .litStr) ||
        (check builtinFuncs Γ e (some .litStr)).toOption.any fun p => decide (2 ^ 32 ≤ co + p.1)) ||
      ((outCost .ident expected).any fun co => overflows builtinFuncs Γ e (some .ident) ||
        (check builtinFuncs Γ e (some .ident)).toOption.any fun p => decide (2 ^ 32 ≤ co + p.1))) := by
  have h1 := overflows_one (Γ := Γ) (e := e) (raw := raw) (expected := expected) (f := strOf id n G) (t := .litStr) rfl rfl (by decide)
  have h2 := overflows_one (Γ := Γ) (e := e) (raw := raw) (expected := expected) (f := identOf id n G) (t := .ident) rfl rfl (by decide)
  simp only [overflows, hb, List.length_singleton, List.any_cons, List.any_nil, Bool.or_false]
  exact congr (congrArg _ h1) h2

/-- The inner call, where a string or a name is expected. -/
theorem check_inner {n : Str} {G : Ext → Str → Str} {id : Nat} (hb : builtinFuncs n = some [strOf id n G, identOf id n G]) (Γ : TyEnv) (i : Nat) (e : Expr)
    (raw : Option (Nat × Toks)) :
    (check builtinFuncs Γ (.call i n [e] raw) (some .litStr)).toOption =
      (check builtinFuncs Γ e (some .litStr)).toOption.map (fun p => (p.1, .call (strOf id n G) [p.2] .litStr)) ∧
    (check builtinFuncs Γ (.call i n [e] raw) (some .ident)).toOption =
      (check builtinFuncs Γ e (some .ident)).toOption.map (fun p => (p.1, .call (identOf id n G) [p.2] .ident)) := by
  rw [check_word hb, check_word hb]
  constructor
  · cases (check builtinFuncs Γ e (some .litStr)).toOption <;> cases (check builtinFuncs Γ e (some .ident)).toOption <;>
      simp [wordChoice, outCost, coercionCost, coercionCostBasic, Except.toOption]
  · cases (check builtinFuncs Γ e (some .litStr)).toOption <;> cases (check builtinFuncs Γ e (some .ident)).toOption <;>
      simp [wordChoice, outCost, coercionCost, coercionCostBasic, Except.toOption]

theorem wordChoice_from {expected : Option Ty} {rS rI : Option (Nat × TExpr)} {c : Nat} {b : Bool} {te : TExpr} (h : wordChoice expected rS rI = some (c, b, te)) :
    ∃ c', (if b then rS else rI) = some (c', te) := by
  unfold wordChoice at h
  cases ho : outCost .litStr expected <;> cases ho' : outCost .ident expected <;> cases rS <;> cases rI <;> simp [ho, ho'] at h <;>
    first
    | (obtain ⟨-, rfl, rfl⟩ := h; exact ⟨_, rfl⟩)
    | (split at h <;> cases h <;> exact ⟨_, rfl⟩)

theorem renumbered_interchangeable {E : Ext} {seed : Nat} {F : Str → Prop} {e e' : Expr} (h : Renumbered e e') : Interchangeable E seed F e e' :=
  exchanged_interchangeable (fun _ _ h => h.elim) h

theorem absorbed_interchangeable {E : Ext} {seed : Nat} {Fr : Str → Prop} {e e' : Expr} (h : Absorbed E e e') : Interchangeable E seed Fr e e' := by
  cases h with
  | @mk i j k f g F G raw raw' raw'' e e' he hf hg hc hi =>
    have hn : f ≠ S "raw" ∧ f ≠ S "normalize" := by cases hf <;> decide
    refine Interchangeable.trans ?_ (renumbered_interchangeable (.call k k f raw'' raw'' hn.1 hn.2 (.cons he .nil)))
    obtain ⟨idf, hbf⟩ := wordFunction_builtin hf
    obtain ⟨idg, hbg⟩ := wordFunction_builtin hg
    have hcs : ∀ r s, tryCast E (.litStr r s) .litStr = .ok (.litStr r s) := fun _ _ => tryCast_refl rfl
    have hci : ∀ s, tryCast E (.ident s) .ident = .ok (.ident s) := fun _ => tryCast_refl rfl
    constructor
    · refine ⟨fun Γ hΓ expected => ?_⟩
      have hin := check_inner hbg Γ j e raw
      rw [check_word hbf, check_word hbf, hin.1, hin.2, wordChoice_map (gS := fun te => .call (strOf idg g G) [te] .litStr) (gI := fun te => .call (identOf idg g G) [te] .ident)]
      cases hw : wordChoice expected (check builtinFuncs Γ e (some .litStr)).toOption (check builtinFuncs Γ e (some .ident)).toOption with
      | none => exact fun _ => blur_refusal _ _ _
      | some p =>
        obtain ⟨c, b, te⟩ := p
        obtain ⟨c', hr⟩ := wordChoice_from hw
        cases b with
        | true =>
          simp only [Option.map_some, if_true] at hr ⊢
          have ht : te.target = .litStr := by
            cases hck : check builtinFuncs Γ e (some .litStr) with
            | error x => rw [hck] at hr; cases hr
            | ok p => rw [hck] at hr; cases hr; exact check_target hck
          refine ⟨rfl, rfl, fun ρ _ => ?_⟩
          rw [TExpr.eval, TExpr.evalL, TExpr.evalL, TExpr.eval, TExpr.evalL, TExpr.evalL, TExpr.eval, TExpr.evalL, TExpr.evalL]
          cases hv : te.eval E seed ρ with
          | err x => rfl
          | panic => rfl
          | ok v =>
            have hty := (eval_ty hv).trans ht
            cases v <;> first | cases hty | skip
            simp only [Res.bind_eq, Res.bind_ok, strOf, newLitStr, hcs, hc]
        | false =>
          simp only [Option.map_some, Bool.false_eq_true, if_false] at hr ⊢
          have ht : te.target = .ident := by
            cases hck : check builtinFuncs Γ e (some .ident) with
            | error x => rw [hck] at hr; cases hr
            | ok p => rw [hck] at hr; cases hr; exact check_target hck
          refine ⟨rfl, rfl, fun ρ _ => ?_⟩
          rw [TExpr.eval, TExpr.evalL, TExpr.evalL, TExpr.eval, TExpr.evalL, TExpr.evalL, TExpr.eval, TExpr.evalL, TExpr.evalL]
          cases hv : te.eval E seed ρ with
          | err x => rfl
          | panic => rfl
          | ok v =>
            have hty := (eval_ty hv).trans ht
            cases v <;> first | cases hty | skip
            next s =>
              simp only [Res.bind_eq, Res.bind_ok, identOf, newIdent]
              by_cases hl : E.lexIdent (F E s) = true
              · simp only [hl, hi s hl, if_true, Res.bind_ok, hci, hc]
              · by_cases hl' : E.lexIdent (G E s) = true
                · simp only [hl, hl', if_true, Res.bind_ok, hci, hc, Bool.false_eq_true, if_false]
                · simp only [hl, hl', Bool.false_eq_true, if_false]
                  rfl
    · intro Γ hΓ expected
      have hin := check_inner hbg Γ j e raw
      rw [overflows_word hbf, overflows_word hbf, hin.1, hin.2, overflows_word hbg, overflows_word hbg]
      have h1 : outCost .litStr (some .litStr) = some 0 := rfl
      have h2 : outCost .ident (some .litStr) = none := rfl
      have h3 : outCost .litStr (some .ident) = none := rfl
      have h4 : outCost .ident (some .ident) = some 0 := rfl
      simp only [h1, h2, h3, h4, Option.any_some, Option.any_none, Bool.or_false, Bool.false_or]
      have key : ∀ (o : Option Nat) (b : Bool) (r : Option (Nat × TExpr)) (m : TExpr → TExpr),
          (o.any fun co => b || (r.any fun p => decide (2 ^ 32 ≤ 0 + p.1)) || (r.map fun p => (p.1, m p.2)).any fun p => decide (2 ^ 32 ≤ co + p.1)) =
            o.any fun co => b || r.any fun p => decide (2 ^ 32 ≤ co + p.1) := by
        intro o b r m
        cases o with
        | none => rfl
        | some co =>
          cases r with
          | none => simp
          | some p =>
            cases b with
            | true => rfl
            | false =>
              simp only [Option.any_some, Option.map_some, Bool.false_or]
              by_cases h : 2 ^ 32 ≤ co + p.1
              · simp [h]
              · have h' : ¬ 2 ^ 32 ≤ 0 + p.1 := by omega
                rw [decide_eq_false h, decide_eq_false h']
                rfl
      exact congr (congrArg _ (key _ _ _ fun te => .call (strOf idg g G) [te] .litStr)) (key _ _ _ fun te => .call (identOf idg g G) [te] .ident)

/-! ## `normalize2` -/

/-- The overloads of `normalize2`. -/
def normalize2Types : List (Nat × Ty) := [(11, .ident), (12, .litStr), (13, .litInt), (14, .path), (15, .type), (16, .expr), (17, .tokens)]

/-- The overloads whose parameter the argument fits. -/
def normalize2Fits (Γ : TyEnv) (e : Expr) : List Choice :=
  normalize2Types.filterMap fun p => (check builtinFuncs Γ e (some p.2)).toOption.map fun q => ⟨q.1, normalize2For p.1 p.2, [q.2]⟩

/-- A higher cost. -/
def Spec.Choice.plus (co : Nat) (ch : Choice) : Choice := ⟨co + ch.cost, ch.func, ch.args⟩

theorem best_plus (co : Nat) : ∀ l : List Choice, best (l.map (Choice.plus co)) = (best l).map (Choice.plus co)
  | [] => rfl
  | x :: l => by
    have ih := best_plus co l
    simp only [List.map_cons, best, ih]
    cases best l with
    | none => rfl
    | some y =>
      have : (y.plus co).better (x.plus co) ↔ y.better x := by simp [Choice.better, Choice.plus]
      simp only [Option.map_some, this]
      split <;> rfl

theorem best_among : ∀ {l : List Choice} {ch : Choice}, best l = some ch → ch ∈ l
  | x :: l, ch, h => by
    simp only [best] at h
    cases hb : best l with
    | none => rw [hb] at h; cases h; exact List.mem_cons_self
    | some y =>
      rw [hb] at h
      simp only at h
      split at h <;> cases h
      · exact List.mem_cons_of_mem _ (best_among hb)
      · exact List.mem_cons_self

theorem check_normalize2_any (Γ : TyEnv) (i : Nat) (e : Expr) (raw : Option (Nat × Toks)) (expected : Option Ty) :
    check builtinFuncs Γ (.call i (S "normalize2") [e] raw) expected =
      match (outCost .ident expected).bind fun co => (best (normalize2Fits Γ e)).map (Choice.plus co) with
      | some ch => .ok (ch.cost, .call ch.func ch.args (expected.getD ch.func.out))
      | none => .error (refusal (normalize2Types.map fun p => normalize2For p.1 p.2) (.call i (S "normalize2") [e] raw)) := by
  have hb : builtinFuncs (S "normalize2") = some (normalize2Types.map fun p => normalize2For p.1 p.2) := builtin_normalize2
  simp only [check, hb, List.length_singleton]
  have hu : ∀ l : List (Nat × Ty), (∀ p ∈ l, p.2.isVariadic = false ∧ p.2 ≠ .raw) →
      (l.map fun p => normalize2For p.1 p.2).filterMap (usable raw 1 expected fun ps => checkArgs builtinFuncs Γ [e] ps) =
      match outCost .ident expected with
      | none => []
      | some co => (l.filterMap fun p => (check builtinFuncs Γ e (some p.2)).toOption.map fun q => ⟨q.1, normalize2For p.1 p.2, [q.2]⟩).map (Choice.plus co) := by
    intro l hl
    induction l with
    | nil => cases outCost .ident expected <;> rfl
    | cons p l ih =>
      have hp := hl p List.mem_cons_self
      rw [List.map_cons, List.filterMap_cons, usable_one (f := normalize2For p.1 p.2) (t := p.2) rfl hp.1 hp.2, ih fun q hq => hl q (List.mem_cons_of_mem _ hq)]
      have ho : (normalize2For p.1 p.2).out = .ident := rfl
      rw [ho, List.filterMap_cons]
      cases outCost .ident expected with
      | none => rfl
      | some co => cases (check builtinFuncs Γ e (some p.2)).toOption <;> rfl
  rw [hu normalize2Types (by decide)]
  cases outCost .ident expected with
  | none => rfl
  | some co =>
    simp only [Option.bind_some]
    rw [best_plus]
    rfl

theorem normalize2Fits_mem {Γ : TyEnv} {e : Expr} {ch : Choice} (h : ch ∈ normalize2Fits Γ e) :
    ∃ id t te, ch.func = normalize2For id t ∧ ch.args = [te] ∧ te.target = t := by
  unfold normalize2Fits at h
  obtain ⟨p, -, h⟩ := List.mem_filterMap.1 h
  cases hc : check builtinFuncs Γ e (some p.2) with
  | error x => rw [hc] at h; cases h
  | ok q =>
    rw [hc] at h
    cases h
    exact ⟨_, _, _, rfl, rfl, check_target hc⟩

/-- What `normalize2` is applied to has a text for which normalizing twice is normalizing once. -/
def Settled (E : Ext) (seed : Nat) (F : Str → Prop) (Γ : TyEnv) (e : Expr) : Prop :=
  ∀ ch te, best (normalize2Fits Γ e) = some ch → ch.args = [te] → ∀ ρ, Free F ρ → ∀ v, te.eval E seed ρ = .ok v →
    normalize E.toCharClass (normalize E.toCharClass (normalize2Text E v)) = normalize E.toCharClass (normalize2Text E v)

/-- The choice for a call of `normalize2` as the argument of `normalize2`. -/
theorem best_nested {Γ : TyEnv} {e : Expr} {ch : Choice} (hb : best (normalize2Fits Γ e) = some ch) (j : Nat) (raw : Option (Nat × Toks)) :
    best (normalize2Fits Γ (.call j (S "normalize2") [e] raw)) = some ⟨ch.cost, normalize2For 11 .ident, [.call ch.func ch.args .ident]⟩ := by
  have hin : ∀ t, (check builtinFuncs Γ (.call j (S "normalize2") [e] raw) (some t)).toOption =
      (coercionCost .ident t).map fun c => (c + ch.cost, .call ch.func ch.args t) := by
    intro t
    rw [check_normalize2_any, hb]
    simp only [outCost]
    cases coercionCost .ident t <;> rfl
  unfold normalize2Fits normalize2Types
  simp only [hin, List.filterMap_cons, List.filterMap_nil]
  have hlt : ∀ n, ¬ n + ch.cost < ch.cost := by omega
  have hv : ∀ id t, (normalize2For id t).args = [t] := fun _ _ => rfl
  have hi : ∀ id t, (normalize2For id t).id = id := fun _ _ => rfl
  have hvar : ∀ id t, t.isVariadic = false → (normalize2For id t).isVariadic = false := by
    intro id t h
    simp [Func.isVariadic, hv, h]
  simp [coercionCost, coercionCostBasic, best, Choice.better, hlt, hv, hi]

theorem best_nested_none {Γ : TyEnv} {e : Expr} (hb : best (normalize2Fits Γ e) = none) (j : Nat) (raw : Option (Nat × Toks)) :
    best (normalize2Fits Γ (.call j (S "normalize2") [e] raw)) = none := by
  have : normalize2Fits Γ (.call j (S "normalize2") [e] raw) = [] := by
    unfold normalize2Fits
    refine List.filterMap_eq_nil_iff.2 fun p _ => ?_
    rw [check_normalize2_any, hb]
    cases outCost .ident (some p.2) <;> rfl
  rw [this]
  rfl

/-- The value of a call of `normalize2`. -/
theorem eval_normalize2 {E : Ext} {seed : Nat} {ρ : Str → Option VKind} {id : Nat} {t : Ty} {te : TExpr} (ht : te.target = t) (t' : Ty) :
    TExpr.eval E seed ρ (.call (normalize2For id t) [te] t') =
      (te.eval E seed ρ).bind fun v => (newIdent E (normalize E.toCharClass (normalize2Text E v))).bind fun r => tryCast E r t' := by
  rw [TExpr.eval, TExpr.evalL, TExpr.evalL]
  cases hv : te.eval E seed ρ with
  | err x => rfl
  | panic => rfl
  | ok v =>
    have hty := (eval_ty hv).trans ht
    simp only [Res.bind_eq, Res.bind_ok, normalize2For, hty, if_true]

theorem normalize2_twice {E : Ext} {seed : Nat} {F : Str → Prop} {Γ : TyEnv} {e e' : Expr} (hbb : best (normalize2Fits Γ e') = best (normalize2Fits Γ e))
    (hset : Settled E seed F Γ e) (i j k : Nat) (raw raw' raw'' : Option (Nat × Toks)) (expected : Option Ty) :
    AlikeChecks E seed F expected (check builtinFuncs Γ (.call i (S "normalize2") [.call j (S "normalize2") [e] raw] raw') expected)
      (check builtinFuncs Γ (.call k (S "normalize2") [e'] raw'') expected) := by
  rw [check_normalize2_any, check_normalize2_any Γ k e', hbb]
  cases hb : best (normalize2Fits Γ e) with
  | none =>
    rw [best_nested_none hb]
    cases outCost .ident expected <;> exact fun _ => blur_refusal _ _ _
  | some ch =>
    obtain ⟨id, t, te, h1, h2, h3⟩ := normalize2Fits_mem (best_among hb)
    rw [best_nested hb]
    cases outCost .ident expected with
    | none => exact fun _ => blur_refusal _ _ _
    | some co =>
      simp only [Option.bind_some, Option.map_some, Choice.plus]
      have ho : ∀ id t, (normalize2For id t).out = .ident := fun _ _ => rfl
      refine ⟨rfl, by rw [h1]; rfl, fun ρ hρ => ?_⟩
      rw [h1, h2, ho, ho, eval_normalize2 (t := .ident) rfl, eval_normalize2 h3, eval_normalize2 h3]
      cases hv : te.eval E seed ρ with
      | err x => rfl
      | panic => rfl
      | ok v =>
        have hid := hset ch te hb h2 ρ hρ v hv
        have hci : ∀ s, tryCast E (.ident s) .ident = .ok (.ident s) := fun _ => tryCast_refl rfl
        simp only [Res.bind_ok, newIdent]
        by_cases hl : E.lexIdent (normalize E.toCharClass (normalize2Text E v)) = true
        · simp only [hl, if_true, Res.bind_ok, hci]
          rw [show normalize2Text E (.ident (normalize E.toCharClass (normalize2Text E v))) = normalize E.toCharClass (normalize2Text E v) from rfl, hid]
          simp only [hl, if_true, Res.bind_ok]
        · simp only [hl, Bool.false_eq_true, if_false]
          rfl

theorem best_value {Γ : TyEnv} {j : Nat} {k : VKind} (hk : natural Γ k = k.ty) (hr : k.ty ≠ .raw) :
    best (normalize2Fits Γ (.value j k)) = some ⟨0, normalize2For (normalize2Id k.ty) k.ty, [.val k k.ty]⟩ := by
  have hin : ∀ t, (check builtinFuncs Γ (.value j k) (some t)).toOption = (coercionCost k.ty t).map fun c => (c, .val k t) := by
    intro t
    simp only [check, hk, Option.getD_some]
    cases coercionCost k.ty t <;> rfl
  unfold normalize2Fits normalize2Types
  simp only [hin, List.filterMap_cons, List.filterMap_nil]
  have hv : ∀ id t, (normalize2For id t).args = [t] := fun _ _ => rfl
  have hi : ∀ id t, (normalize2For id t).id = id := fun _ _ => rfl
  have hvar : ∀ id t, t.isVariadic = false → (normalize2For id t).isVariadic = false := by
    intro id t h
    simp [Func.isVariadic, hv, h]
  cases k <;> first
    | (exact absurd rfl hr)
    | simp [VKind.ty, coercionCost, coercionCostBasic, best, Choice.better, normalize2Id, hv, hi]

theorem normalizedTwice_same {E : Ext} {seed : Nat} {F : Str → Prop} {e e' : Expr} (h : NormalizedTwice E F e e') : SameMeaning E seed F e e' := by
  refine ⟨fun Γ hΓ expected => ?_⟩
  obtain ⟨i, j, k, l, l', hv, hF, h⟩ := h
  next v =>
  have hnat : natural Γ v = v.ty := by
    cases v with
    | ident s => simp only [natural, hΓ s (hF s rfl)]; rfl
    | _ => rfl
  refine normalize2_twice (by rw [best_value hnat hv, best_value hnat hv]) ?_ _ _ _ _ _ _ _
  intro ch te hb ha ρ hρ w hw
  rw [best_value hnat hv] at hb
  cases hb
  cases ha
  rw [eval_free_val fun s hs => hρ s (hF s hs)] at hw
  cases hw
  rw [normalize2Text_contents]
  exact h

/-! ## Casts -/

theorem castFunction_builtin {n : Str} {t : Ty} (h : CastFunction n t) :
    ∃ f, builtinFuncs n = some [f] ∧ f.args = [.tokens] ∧ f.out = t ∧ ∀ E seed ts, f.impl E seed [.tokens ts] = tryCast E (.tokens ts) t := by
  cases h with
  | ident => exact ⟨_, builtin_to_ident, rfl, rfl, fun _ _ _ => rfl⟩
  | path => exact ⟨_, builtin_to_path, rfl, rfl, fun _ _ _ => rfl⟩
  | type => exact ⟨_, builtin_to_type, rfl, rfl, fun _ _ _ => rfl⟩
  | expr => exact ⟨_, builtin_to_expr, rfl, rfl, fun _ _ _ => rfl⟩
  | str => exact ⟨_, builtin_to_str, rfl, rfl, fun _ _ _ => rfl⟩
  | int => exact ⟨_, builtin_to_int, rfl, rfl, fun _ _ _ => rfl⟩
  | tokens => exact ⟨_, builtin_to_tokens, rfl, rfl, fun E _ ts => (tryCast_refl rfl).symm⟩

theorem check_cast {n : Str} {f : Func} (hb : builtinFuncs n = some [f]) (ha : f.args = [.tokens]) (Γ : TyEnv) (i : Nat) (e : Expr) (raw : Option (Nat × Toks))
    (expected : Option Ty) :
    check builtinFuncs Γ (.call i n [e] raw) expected =
      match (outCost f.out expected).bind fun co => (check builtinFuncs Γ e (some .tokens)).toOption.map fun p => (co + p.1, p.2) with
      | some (c, te) => .ok (c, .call f [te] (expected.getD f.out))
      | none => .error (refusal [f] (.call i n [e] raw)) := by
  simp only [check, hb, List.length_singleton, List.filterMap_cons, List.filterMap_nil]
  rw [usable_one ha rfl (by decide)]
  cases outCost f.out expected <;> cases (check builtinFuncs Γ e (some .tokens)).toOption <;> rfl

/-- Casting again what has been cast. -/
theorem cast_again {E : Ext} {ts : Toks} {t : Ty} {w : VKind} {n : Str} (hn : CastFunction n t) (h : tryCast E (.tokens ts) t = .ok w) :
    tryCast E (.tokens w.toTokens) t = .ok w := by
  cases hn with
  | ident =>
    have hl : ∀ v : Str, litStrAsIdent E v = .ok w → tryCast E (.tokens w.toTokens) .ident = .ok w := by
      intro v h
      unfold litStrAsIdent parseStrIdent at h
      cases hx : E.lex v with
      | none => rw [hx] at h; cases h
      | some us =>
        rw [hx] at h
        simp only [Option.bind_some] at h
        cases hp : parseIdent us with
        | none => rw [hp] at h; cases h
        | some s =>
          rw [hp] at h
          cases h
          have : parseIdent [.ident s] = some s := by
            unfold parseIdent at hp
            split at hp
            · split at hp <;> cases hp
              simp only [parseIdent]; rw [if_neg (by assumption)]
            · cases hp
          simp [tryCast, VKind.ty, VKind.toTokens, parseLitStr, this, Res.ofOption, Res.map]
    simp only [tryCast, VKind.ty, VKind.toTokens, reduceCtorEq, if_false] at h
    split at h
    · exact hl _ h
    · cases hp : parseIdent ts with
      | none => rw [hp] at h; cases h
      | some s =>
        rw [hp] at h
        cases h
        have : parseIdent [.ident s] = some s := by
          unfold parseIdent at hp
          split at hp
          · split at hp <;> cases hp
            simp only [parseIdent]; rw [if_neg (by assumption)]
          · cases hp
        simp [tryCast, VKind.ty, VKind.toTokens, parseLitStr, this, Res.ofOption, Res.map]
  | path =>
    have h : (if E.isPath ts = true then Res.ok (VKind.path ts) else .err (castError .tokens .path)) = .ok w := h
    by_cases hp : E.isPath ts = true
    · rw [if_pos hp] at h; cases h; simp [tryCast, VKind.ty, VKind.toTokens, hp]
    · rw [if_neg hp] at h; cases h
  | type =>
    have h : (if E.isType ts = true then Res.ok (VKind.type ts) else .err (castError .tokens .type)) = .ok w := h
    by_cases hp : E.isType ts = true
    · rw [if_pos hp] at h; cases h; simp [tryCast, VKind.ty, VKind.toTokens, hp]
    · rw [if_neg hp] at h; cases h
  | expr =>
    have h : (if E.isExpr ts = true then Res.ok (VKind.expr ts) else .err (castError .tokens .expr)) = .ok w := h
    by_cases hp : E.isExpr ts = true
    · rw [if_pos hp] at h; cases h; simp [tryCast, VKind.ty, VKind.toTokens, hp]
    · rw [if_neg hp] at h; cases h
  | str =>
    simp only [tryCast, VKind.ty, VKind.toTokens, reduceCtorEq, if_false] at h
    split at h
    · cases h; rfl
    · cases hp : parseLitStr ts with
      | none => rw [hp] at h; cases h
      | some p => rw [hp] at h; cases h; rfl
  | int =>
    simp only [tryCast, VKind.ty, VKind.toTokens, reduceCtorEq, if_false] at h
    cases hp : parseLitInt ts with
    | none => rw [hp] at h; cases h
    | some p =>
      rw [hp] at h
      cases h
      obtain ⟨neg, r, v⟩ := p
      cases neg <;> rfl
  | tokens => cases h; rfl

/-! ## Higher costs -/

section
variable {E : Ext} {seed : Nat} {F : Str → Prop}

theorem Spec.ShiftedChecks.cases {d : Nat} {expected : Option Ty} {r r' : Except Err (Nat × TExpr)} (h : ShiftedChecks E seed F d expected r r') :
    (∃ c te te', r = .ok (c + d, te) ∧ r' = .ok (c, te') ∧ te.target = te'.target ∧ ∀ ρ, Free F ρ → te.eval E seed ρ = te'.eval E seed ρ) ∨
    ∃ x x', r = .error x ∧ r' = .error x' ∧ (expected = none → blur x = blur x') := by
  rcases r with x | ⟨c, te⟩ <;> rcases r' with x' | ⟨c', te'⟩
  · exact .inr ⟨x, x', rfl, rfl, h⟩
  · cases h
  · cases h
  · obtain ⟨rfl, h1, h2⟩ := h
    exact .inl ⟨c', te, te', rfl, rfl, h1, h2⟩

theorem Spec.SameMeaning.shifted {e e' : Expr} (h : SameMeaning E seed F e e') : Shifted E seed F 0 e e' := by
  intro Γ hΓ expected
  rcases AlikeChecks.cases (h.check Γ hΓ expected) with ⟨c, te, te', h1, h2, h3, h4⟩ | ⟨x, x', h1, h2, h3⟩
  · rw [h1, h2]; exact ⟨rfl, h3, h4⟩
  · rw [h1, h2]; exact h3

theorem Spec.Shifted.then {d : Nat} {e e' e'' : Expr} (h : Shifted E seed F d e e') (h' : SameMeaning E seed F e' e'') : Shifted E seed F d e e'' := by
  intro Γ hΓ expected
  have h' := h'.check Γ hΓ expected
  rcases ShiftedChecks.cases (h Γ hΓ expected) with ⟨c, te, te', h1, h2, h3, h4⟩ | ⟨x, x', h1, h2, h3⟩
  · rw [h2] at h'
    rw [h1]
    generalize check builtinFuncs Γ e'' expected = r at h' ⊢
    rcases r with x | ⟨c', te''⟩
    · cases h'
    · exact ⟨by rw [← h'.1], h3.trans h'.2.1, fun ρ hρ => (h4 ρ hρ).trans (h'.2.2 ρ hρ)⟩
  · rw [h2] at h'
    rw [h1]
    generalize check builtinFuncs Γ e'' expected = r at h' ⊢
    rcases r with x | ⟨c', te''⟩
    · exact fun hn => (h3 hn).trans (h' hn)
    · cases h'

theorem Spec.Shifted.value {d : Nat} {e e' : Expr} (h : Shifted E seed F d e e') : SameValue E seed F e e' := by
  intro Γ hΓ
  rcases ShiftedChecks.cases (h Γ hΓ none) with ⟨c, te, te', h1, h2, h3, h4⟩ | ⟨x, x', h1, h2, h3⟩
  · rw [h1, h2]; exact ⟨h3, h4⟩
  · rw [h1, h2]; exact h3 rfl

/-- Choices which differ in the arguments, and by `d` in the cost. -/
inductive ShiftedChoice (E : Ext) (seed : Nat) (F : Str → Prop) (d : Nat) : Choice → Choice → Prop
  | mk (c : Nat) (f : Func) {tes tes' : List TExpr} (h : AlikeArgs E seed F tes tes') : ShiftedChoice E seed F d ⟨c + d, f, tes⟩ ⟨c, f, tes'⟩

theorem best_shifted {d : Nat} {l l' : List Choice} (h : All2 (ShiftedChoice E seed F d) l l') : AlikeOpt (ShiftedChoice E seed F d) (best l) (best l') := by
  induction h with
  | nil => exact .none
  | @cons a b as bs hab hs ih =>
    simp only [best]
    generalize best as = x at ih
    generalize best bs = y at ih
    cases ih with
    | none => exact .some hab
    | @some p q hpq =>
      simp only
      have : p.better a ↔ q.better b := by
        cases hab; cases hpq
        simp only [Choice.better, Nat.add_lt_add_iff_right, Nat.add_right_cancel_iff]
      by_cases hb : p.better a
      · rw [if_pos hb, if_pos (this.1 hb)]; exact .some hpq
      · rw [if_neg hb, if_neg (fun h => hb (this.2 h))]; exact .some hab

/-- What higher costs of the arguments add up to. -/
def weigh : List Nat → List (Ty × Nat) → Nat
  | d :: ds, (_, m) :: ps => d * m + weigh ds ps
  | _, _ => 0

/-- Typed argument lists with their costs. -/
def ShiftedCosts (E : Ext) (seed : Nat) (F : Str → Prop) (d : Nat) (p q : Nat × List TExpr) : Prop := p.1 = q.1 + d ∧ AlikeArgs E seed F p.2 q.2

/-- Arguments, each with its higher cost. -/
def ShiftedArgs (E : Ext) (seed : Nat) (F : Str → Prop) (ds : List Nat) (es es' : List Expr) : Prop :=
  ∀ Γ, Free F Γ → ∀ ps, AlikeOpt (ShiftedCosts E seed F (weigh ds ps)) (checkArgs builtinFuncs Γ es ps) (checkArgs builtinFuncs Γ es' ps)

theorem shiftedArgs_cons {d : Nat} {ds : List Nat} {e e' : Expr} {es es' : List Expr} (h : Shifted E seed F d e e') (hs : ShiftedArgs E seed F ds es es') :
    ShiftedArgs E seed F (d :: ds) (e :: es) (e' :: es') := by
  intro Γ hΓ ps
  cases ps with
  | nil => simp only [checkArgs]; exact .some ⟨rfl, fun _ _ => rfl⟩
  | cons p ps =>
    obtain ⟨t, m⟩ := p
    have ih := hs Γ hΓ ps
    simp only [checkArgs]
    rcases ShiftedChecks.cases (h Γ hΓ (some t)) with ⟨c, te, te', h1, h2, -, h4⟩ | ⟨x, x', h1, h2, -⟩
    · rw [h1, h2]
      simp only
      generalize checkArgs builtinFuncs Γ es ps = x at ih
      generalize checkArgs builtinFuncs Γ es' ps = y at ih
      cases ih with
      | none => exact .none
      | some h =>
        refine .some ⟨?_, fun ρ hρ => ?_⟩
        · simp only [h.1, weigh, Nat.add_mul]; omega
        · simp only [TExpr.evalL, h4 ρ hρ, h.2 ρ hρ]
    · rw [h1, h2]; exact .none

theorem builtins_variadic : ∀ f ∈ builtins, (f.name ≠ c! "concat" → f.variadicArg = none) ∧
    (f.name = c! "concat" → f.variadicArg.isSome = true ∧ f.fixedArgs.length ≤ 1) := by
  decide +kernel

/-- What higher costs of the arguments add to the cost of a call. -/
def callShift (n : Str) (ds : List Nat) : Nat := if n = S "concat" then 2 * ds.sum else ds.sum

theorem weigh_const (m : Nat) : ∀ (ds : List Nat) (ps : List (Ty × Nat)), ds.length = ps.length → (∀ p ∈ ps, p.2 = m) → weigh ds ps = m * ds.sum
  | [], [], _, _ => rfl
  | d :: ds, (t, m') :: ps, h, hp => by
    have ih := weigh_const m ds ps (by simpa using h) fun p hp' => hp p (by simp [hp'])
    have : m' = m := hp (t, m') (by simp)
    simp only [weigh, ih, this, List.sum_cons, Nat.mul_add, Nat.mul_comm]

/-- All overloads weigh the arguments alike, except for the first argument of `concat`. -/
theorem weigh_params {n : Str} {f : Func} (hf : f ∈ builtins) (hn : f.name = n) {ds : List Nat} (hd : n = S "concat" → ∀ d ds', ds = d :: ds' → d = 0)
    {ps : List (Ty × Nat)} (hp : paramsFor f ds.length = some ps) : weigh ds ps = callShift n ds := by
  have hv := builtins_variadic f hf
  unfold paramsFor at hp
  unfold callShift
  by_cases hc : n = S "concat"
  · obtain ⟨h1, h2⟩ := hv.2 (hn.trans hc)
    rw [if_pos hc]
    cases hva : f.variadicArg with
    | none => rw [hva] at h1; cases h1
    | some t =>
      rw [hva] at hp
      simp only at hp
      split at hp <;> cases hp
      next hlen =>
      cases hfx : f.fixedArgs with
      | nil =>
        refine weigh_const 2 _ _ (by simp) fun p hp => ?_
        simp at hp
        exact hp.2 ▸ rfl
      | cons a as =>
        have : as = [] := by rw [hfx] at h2; simpa using h2
        subst this
        cases ds with
        | nil => rfl
        | cons d ds =>
          cases hd hc d ds rfl
          simp only [List.map_cons, List.map_nil, List.cons_append, List.nil_append, weigh, Nat.zero_mul, Nat.zero_add, List.length_cons, List.length_nil,
            Nat.add_sub_cancel, List.sum_cons]
          refine weigh_const 2 _ _ (by simp) fun p hp => ?_
          simp at hp
          exact hp.2 ▸ rfl
  · rw [if_neg hc]
    have h1 := hv.1 fun h => hc (hn.symm.trans h)
    rw [h1] at hp
    simp only at hp
    split at hp <;> cases hp
    next hlen =>
    have := weigh_const 1 ds (f.args.map (·, 1)) (by simp [hlen]) fun p hp => by
      obtain ⟨_, _, rfl⟩ := List.mem_map.1 hp; rfl
    rw [this, Nat.one_mul]

theorem shifted_call {n : Str} (hn : n ≠ S "raw") (hn' : n ≠ S "normalize") {ds : List Nat} {args args' : List Expr} (hl : args.length = ds.length)
    (hl' : args'.length = ds.length) (hd : n = S "concat" → ∀ d ds', ds = d :: ds' → d = 0) (hs : ShiftedArgs E seed F ds args args') (i i' : Nat)
    (raw raw' : Option (Nat × Toks)) : Shifted E seed F (callShift n ds) (.call i n args raw) (.call i' n args' raw') := by
  intro Γ hΓ expected
  simp only [check]
  cases hfs : builtinFuncs n with
  | none => exact fun _ => rfl
  | some fs =>
    simp only
    rw [hl, hl']
    have hu : All2 (ShiftedChoice E seed F (callShift n ds)) (fs.filterMap (usable raw ds.length expected fun ps => checkArgs builtinFuncs Γ args ps))
        (fs.filterMap (usable raw' ds.length expected fun ps => checkArgs builtinFuncs Γ args' ps)) := by
      have hr := exchangeable_not_raw hn hn' hfs
      have hm := fun f hf => (builtinFuncs_mem hfs (f := f)).1 hf
      clear hfs
      induction fs with
      | nil => exact .nil
      | cons f fs ih =>
        have ih := ih (fun f hf => hr f (by simp [hf])) fun f hf => hm f (by simp [hf])
        have : AlikeOpt (ShiftedChoice E seed F (callShift n ds)) (usable raw ds.length expected (fun ps => checkArgs builtinFuncs Γ args ps) f)
            (usable raw' ds.length expected (fun ps => checkArgs builtinFuncs Γ args' ps) f) := by
          unfold usable
          rw [if_neg (hr f (by simp)), if_neg (hr f (by simp))]
          cases outCost f.out expected with
          | none => exact .none
          | some co =>
            simp only [Option.bind_eq_bind, Option.bind_some]
            cases hp : paramsFor f ds.length with
            | none => exact .none
            | some ps =>
              simp only [Option.bind_some]
              have hw := weigh_params (hm f (by simp)).1 (hm f (by simp)).2 hd hp
              have := hs Γ hΓ ps
              rw [hw] at this
              generalize checkArgs builtinFuncs Γ args ps = x at this
              generalize checkArgs builtinFuncs Γ args' ps = y at this
              cases this with
              | none => exact .none
              | @some a b h =>
                obtain ⟨c, tes⟩ := a
                obtain ⟨c', tes'⟩ := b
                obtain ⟨h1, h2⟩ := h
                have h1 : c = c' + callShift n ds := h1
                subst h1
                simp only [Option.bind_some]
                rw [← Nat.add_assoc]
                exact .some (.mk _ _ h2)
        simp only [List.filterMap_cons]
        generalize usable raw ds.length expected _ f = x at this ⊢
        generalize usable raw' ds.length expected _ f = y at this ⊢
        cases this with
        | none => exact ih
        | some h => exact .cons h ih
    have := best_shifted hu
    generalize best (List.filterMap (usable raw ds.length expected fun ps => checkArgs builtinFuncs Γ args ps) fs) = x at this
    generalize best (List.filterMap (usable raw' ds.length expected fun ps => checkArgs builtinFuncs Γ args' ps) fs) = y at this
    cases this with
    | none => exact fun _ => blur_refusal _ _ _
    | some h =>
      cases h with
      | mk c f h =>
        refine ⟨rfl, rfl, fun ρ hρ => ?_⟩
        simp only [TExpr.eval, h ρ hρ]

theorem renumbered_same {e e' : Expr} (h : Renumbered e e') : SameMeaning E seed F e e' := exchanged_same (fun _ _ h => h.elim) h

theorem castTwice_shifted {e e' : Expr} (h : CastTwice e e') : ∃ d, Shifted E seed F d e e' := by
  obtain ⟨i, j, k, he, hn⟩ := h
  next n t raw raw' raw'' e e' =>
  have hnn : n ≠ S "raw" ∧ n ≠ S "normalize" := by cases hn <;> decide
  have hr := (renumbered_interchangeable (E := E) (seed := seed) (F := F) (.call k k n raw'' raw'' hnn.1 hnn.2 (.cons he .nil))).toSameMeaning
  suffices h : ∃ d, Shifted E seed F d (.call i n [.call j n [e] raw] raw') (.call k n [e] raw'') by
    obtain ⟨d, h⟩ := h
    exact ⟨d, h.then hr⟩
  clear hr he e'
  obtain ⟨f, hb, ha, ho, hi⟩ := castFunction_builtin hn
  have hco : ∃ c, coercionCost t .tokens = some c := by cases hn <;> exact ⟨_, rfl⟩
  obtain ⟨c0, hco⟩ := hco
  refine ⟨c0, fun Γ hΓ expected => ?_⟩
  rw [check_cast hb ha, check_cast hb ha, check_cast hb ha]
  have h1 : outCost f.out (some .tokens) = some c0 := by rw [ho]; exact hco
  rw [h1]
  cases outCost f.out expected with
  | none => exact fun _ => blur_refusal _ _ _
  | some co =>
    cases hc : check builtinFuncs Γ e (some .tokens) with
    | error x => exact fun _ => blur_refusal _ _ _
    | ok p =>
      obtain ⟨c, te⟩ := p
      have ht := check_target hc
      simp only [Except.toOption, Option.bind_some, Option.map_some, Option.getD_some]
      refine ⟨by omega, rfl, fun ρ hρ => ?_⟩
      rw [TExpr.eval, TExpr.evalL, TExpr.evalL, TExpr.eval, TExpr.evalL, TExpr.evalL, TExpr.eval, TExpr.evalL, TExpr.evalL]
      cases hv : te.eval E seed ρ with
      | err x => rfl
      | panic => rfl
      | ok v =>
        obtain ⟨ts, rfl⟩ : ∃ ts, v = .tokens ts := by
          have := (eval_ty hv).trans ht
          cases v <;> first | exact ⟨_, rfl⟩ | cases this
        simp only [Res.bind_eq, Res.bind_ok, hi]
        cases hw : tryCast E (.tokens ts) t with
        | err x => rfl
        | panic => rfl
        | ok w =>
          have hwt : tryCast E w .tokens = .ok (.tokens w.toTokens) := by cases w <;> rfl
          simp only [Res.bind_ok, hwt, hi, cast_again hn hw]

variable {B : Expr → Expr → Prop} (hB : ∀ e e', B e e' → ∃ d, Shifted E seed F d e e')
include hB

mutual
theorem within_shifted : ∀ {e e' : Expr}, Within B e e' → ∃ d, Shifted E seed F d e e'
  | _, _, .here h => hB _ _ h
  | _, _, .same h => ⟨0, (renumbered_same h).shifted⟩
  | _, _, .call i i' n raw raw' (args := []) (args' := []) hn hn' hc .nil =>
    ⟨_, shifted_call (ds := []) hn hn' rfl rfl (fun _ _ _ h => nomatch h) (fun _ _ ps => by cases ps <;> exact .some ⟨rfl, fun _ _ => rfl⟩) _ _ _ _⟩
  | _, _, .call i i' n raw raw' (args := a :: args) (args' := a' :: args') hn hn' hc (.cons h hs) => by
    obtain ⟨ds, h1, h2, h3⟩ := withinL_shifted hs
    obtain ⟨d, hd⟩ := within_shifted h
    by_cases hcn : n = S "concat"
    · refine ⟨_, shifted_call (ds := 0 :: ds) hn hn' (by simp [h1]) (by simp [h2]) (fun _ d ds' h => ?_) (shiftedArgs_cons (renumbered_same (hc hcn)).shifted h3) _ _ _ _⟩
      cases h; rfl
    · exact ⟨_, shifted_call (ds := d :: ds) hn hn' (by simp [h1]) (by simp [h2]) (fun h => absurd h hcn) (shiftedArgs_cons hd h3) _ _ _ _⟩
theorem withinL_shifted : ∀ {es es' : List Expr}, WithinL B es es' → ∃ ds, es.length = ds.length ∧ es'.length = ds.length ∧ ShiftedArgs E seed F ds es es'
  | _, _, .nil => ⟨[], rfl, rfl, fun _ _ ps => by cases ps <;> exact .some ⟨rfl, fun _ _ => rfl⟩⟩
  | _, _, .cons h hs => by
    obtain ⟨ds, h1, h2, h3⟩ := withinL_shifted hs
    obtain ⟨d, hd⟩ := within_shifted h
    exact ⟨d :: ds, by simp [h1], by simp [h2], shiftedArgs_cons hd h3⟩
end
end

end Verif
