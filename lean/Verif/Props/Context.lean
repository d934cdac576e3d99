import Verif.Proofs.WriteOutSafe
import Verif.Proofs.Reference
import Verif.Props.Whole
/-!
# Properties C73 and C74: what a call means does not depend on where it stands

Overloads are chosen by what they cost, and the costs depend on the arguments and on the type that is expected of the result. So the same call could
mean different things at different places, and a definition something else than its right-hand side. With the functions there are, that happens for
`hash` of a string.
-/

namespace Verif.Props
open Verif Spec

/-! ## C73 -/

mutual
/-- The overloads recorded for a call and the calls among its arguments, in the order of the text. -/
inductive Chosen (m : Metadata) : Expr → List Nat → Prop
  | value (id : Nat) (k : VKind) : Chosen m (.value id k) []
  | call (id : Nat) (name : Str) (args : List Expr) (raw : Option (Nat × Toks)) {md : CallMeta} {l : List Nat} (h : m.calls id = some md)
      (hs : ChosenL m md.args l) : Chosen m (.call id name args raw) (md.func.id :: l)
/-- The same for several expressions. -/
inductive ChosenL (m : Metadata) : List Expr → List Nat → Prop
  | nil : ChosenL m [] []
  | cons {e : Expr} {es : List Expr} {l l' : List Nat} (h : Chosen m e l) (hs : ChosenL m es l') : ChosenL m (e :: es) (l ++ l')
end

mutual
/-- The overloads of a typed expression. -/
def overloadsOf : TExpr → List Nat
  | .val _ _ => []
  | .call f args _ => f.id :: overloadsOfL args
def overloadsOfL : List TExpr → List Nat
  | [] => []
  | te :: tes => overloadsOf te ++ overloadsOfL tes
end

theorem overloadsOf_as (te : TExpr) (t : Ty) : overloadsOf (te.as t) = overloadsOf te := by
  cases te <;> simp [TExpr.as, overloadsOf]

mutual
theorem chosen_of_records {m : Metadata} : ∀ {e : Expr} {te : TExpr}, Records m e te → Chosen m e (overloadsOf te)
  | _, _, .value _ => by rw [overloadsOf]; exact .value _ _
  | _, _, .call h _ hs => by rw [overloadsOf]; exact .call _ _ _ _ h (chosenL_of_records hs)
theorem chosenL_of_records {m : Metadata} : ∀ {es : List Expr} {tes : List TExpr}, RecordsL m es tes → ChosenL m es (overloadsOfL tes)
  | _, _, .nil => by rw [overloadsOfL]; exact .nil
  | _, _, .cons h hs => by rw [overloadsOfL]; exact .cons (chosen_of_records h) (chosenL_of_records hs)
end

/-- What is recorded by a successful resolution. -/
theorem resolved {env : Env} (henv : env.funcs = builtinFuncs) {Γ : TyEnv} {sc sc' : Scope} {e : Expr} {expected : Option Ty} (hA : Agrees Γ sc)
    (hC : Clean sc.md (ids e)) (hN : (ids e).Nodup) (h : Expr.resolve env e expected sc = .ok sc') :
    ∃ c te, check builtinFuncs Γ e expected = .ok (c, te) ∧ Records sc'.md e te ∧ recordedCost e sc'.md = .ok c := by
  rcases resolve_spec e (env := env) (expected := expected) hA hC hN with ⟨h1, -⟩ | h1
  · rw [h] at h1; cases h1
  · rw [henv] at h1
    cases hc : check builtinFuncs Γ e expected with
    | error x => rw [hc] at h1; simp only at h1; rw [h] at h1; cases h1.1
    | ok p =>
      rw [hc] at h1
      obtain ⟨sc1, h2, hR⟩ := h1
      rw [h] at h2
      cases h2
      exact ⟨p.1, p.2, rfl, hR.records, hR.cost⟩

/-- **C73**, without `hash` of a string: the overloads chosen for an expression, and the calls in it, are the same whatever type is expected of it. A
type can be expected if and only if the type which the expression has without an expected type can be coerced to it, and the cost is that of the
coercion in addition. (What is missing: `C73_false`.) -/
theorem C73_partial {env : Env} (henv : env.funcs = builtinFuncs) {Γ : TyEnv} {e : Expr} (hh : noStrHash Γ e) {sc sc2 : Scope} (hA : Agrees Γ sc)
    (hC : Clean sc.md (ids e)) (hA2 : Agrees Γ sc2) (hC2 : Clean sc2.md (ids e)) (hN : (ids e).Nodup) {t : Ty} (ht : t.isVariadic = false) :
    (∀ sc', Expr.resolve env e none sc = .ok sc' → ∃ own c, recTy sc'.md e.id = some own ∧ recordedCost e sc'.md = .ok c ∧
      (∀ sc2', Expr.resolve env e (some t) sc2 = .ok sc2' → ∃ l co, Chosen sc'.md e l ∧ Chosen sc2'.md e l ∧ coercionCost own t = some co ∧
        recordedCost e sc2'.md = .ok (co + c)) ∧
      ∀ x, Expr.resolve env e (some t) sc2 = .err x → coercionCost own t = none) ∧
    ∀ x, Expr.resolve env e none sc = .err x → ∀ sc2', Expr.resolve env e (some t) sc2 ≠ .ok sc2' := by
  obtain ⟨o, ho⟩ := princ Γ e hh
  cases ho with
  | fails h =>
    constructor
    · intro sc' h1
      obtain ⟨c, te, h2, -⟩ := resolved henv hA hC hN h1
      obtain ⟨x, hx⟩ := h none (by intro t h; cases h)
      rw [hx] at h2; cases h2
    · intro x _ sc2' h1
      obtain ⟨c, te, h2, -⟩ := resolved henv hA2 hC2 hN h1
      obtain ⟨x, hx⟩ := h (some t) (by intro t' h; cases h; exact ht)
      rw [hx] at h2; cases h2
  | types c te h hs hn =>
    constructor
    · intro sc' h1
      rcases resolve_spec e (env := env) (expected := none) hA hC hN with ⟨h2, -⟩ | h2
      · rw [h1] at h2; cases h2
      rw [henv, h] at h2
      obtain ⟨sc1, h3, hR⟩ := h2
      rw [h1] at h3
      cases h3
      refine ⟨te.target, c, hR.ty, hR.cost, ?_, ?_⟩
      · intro sc2' h4
        obtain ⟨c2, te2, h5, h6, h7⟩ := resolved henv hA2 hC2 hN h4
        cases hco : coercionCost te.target t with
        | none => obtain ⟨x, hx⟩ := hn t ht hco; rw [hx] at h5; cases h5
        | some co =>
          rw [hs t co ht hco] at h5
          cases h5
          refine ⟨_, co, chosen_of_records hR.records, ?_, rfl, h7⟩
          have := chosen_of_records h6
          rwa [overloadsOf_as] at this
      · intro x h4
        cases hco : coercionCost te.target t with
        | none => rfl
        | some co =>
          rcases resolve_spec e (env := env) (expected := some t) hA2 hC2 hN with ⟨h5, -⟩ | h5
          · rw [h4] at h5; cases h5
          · rw [henv, hs t co ht hco] at h5
            obtain ⟨sc3, h6, -⟩ := h5
            rw [h4] at h6; cases h6
    · intro x h1
      rcases resolve_spec e (env := env) (expected := none) hA hC hN with ⟨h2, -⟩ | h2
      · rw [h1] at h2; cases h2
      · rw [henv, h] at h2
        obtain ⟨sc3, h6, -⟩ := h2
        rw [h1] at h6; cases h6

/-- **C73**, full statement, which is false: the overload does not depend on the expected type. `hash("a")` is a string by itself, but where an
identifier is expected the overload for tokens is used. -/
theorem C73_false : ∃ (e : Expr) (sc sc' : Scope), (ids e).Nodup ∧ Expr.resolve (Env.builtin 1) e none Scope.empty = .ok sc ∧
    Expr.resolve (Env.builtin 1) e (some .ident) Scope.empty = .ok sc' ∧ Chosen sc.md e [18] ∧ Chosen sc'.md e [20] := by
  refine ⟨.call 0 (c! "hash") [.value 1 (.litStr (c! "\"a\"") (c! "a"))] none, _, _, by decide, rfl, rfl, ?_, ?_⟩
  · exact .call _ _ _ _ (md := ⟨[.value 1 (.litStr (c! "\"a\"") (c! "a"))], (hashFuncs 18)[0], .litStr, 0⟩) rfl (.cons (.value _ _) .nil)
  · exact .call _ _ _ _ (md := ⟨[.value 1 (.litStr (c! "\"a\"") (c! "a"))], (hashFuncs 18)[2], .ident, 4⟩) rfl (.cons (.value _ _) .nil)

/-- How `hash` of a string is typed. -/
theorem hash_check {Γ : TyEnv} {arg : Expr} {c : Nat} {te : TExpr} (hp : Princ Γ arg (some (c, te))) (ht : te.target = .litStr) (i : Nat)
    (raw : Option (Nat × Toks)) (expected : Option Ty) (hv : simpleTy expected) :
    match expected with
    | some .litInt => ∃ x, check builtinFuncs Γ (.call i (c! "hash") [arg] raw) (some .litInt) = .error x
    | some t => if t = .litStr ∨ t = .tokens ∨ t = .raw
        then ∃ k, check builtinFuncs Γ (.call i (c! "hash") [arg] raw) (some t) = .ok (k, .call (hashFuncs 18)[0] [te.as .litStr] t)
        else ∃ k, check builtinFuncs Γ (.call i (c! "hash") [arg] raw) (some t) = .ok (k, .call (hashFuncs 18)[2] [te.as .tokens] t)
    | none => ∃ k, check builtinFuncs Γ (.call i (c! "hash") [arg] raw) none = .ok (k, .call (hashFuncs 18)[0] [te.as .litStr] .litStr) := by
  cases hp with
  | types _ _ h hs hn =>
    have h1 := hs .litStr 0 rfl (by rw [ht]; rfl)
    have h3 := hs .tokens 4 rfl (by rw [ht]; rfl)
    obtain ⟨x, h2⟩ := hn .ident rfl (by rw [ht]; rfl)
    have hb : builtinFuncs (c! "hash") = some [(hashFuncs 18)[0], (hashFuncs 18)[1], (hashFuncs 18)[2]] := rfl
    have u1 : ∀ {ex}, usable raw [arg].length ex (fun ps => checkArgs builtinFuncs Γ [arg] ps) (hashFuncs 18)[0] =
        (outCost .litStr ex).map fun co => ⟨co + c, (hashFuncs 18)[0], [te.as .litStr]⟩ := by
      intro ex
      have p : paramsFor (hashFuncs 18)[0] [arg].length = some [(.litStr, 1)] := rfl
      have a : checkArgs builtinFuncs Γ [arg] [(.litStr, 1)] = some (c, [te.as .litStr]) := by simp [checkArgs, h1]
      have o : (hashFuncs 18)[0].out = .litStr := rfl
      have r : (hashFuncs 18)[0].args ≠ [.raw] := by decide
      simp only [usable, p, o, if_neg r]
      cases outCost .litStr ex with
      | none => rfl
      | some co =>
        show ((checkArgs builtinFuncs Γ [arg] [(.litStr, 1)]).bind fun r => some (⟨co + r.1, (hashFuncs 18)[0], r.2⟩ : Choice)) = _
        rw [a]; rfl
    have u2 : ∀ {ex}, usable raw [arg].length ex (fun ps => checkArgs builtinFuncs Γ [arg] ps) (hashFuncs 18)[1] = none := by
      intro ex
      have p : paramsFor (hashFuncs 18)[1] [arg].length = some [(.ident, 1)] := rfl
      have a : checkArgs builtinFuncs Γ [arg] [(.ident, 1)] = none := by simp [checkArgs, h2]
      have r : (hashFuncs 18)[1].args ≠ [.raw] := by decide
      simp only [usable, p, if_neg r]
      cases outCost (hashFuncs 18)[1].out ex with
      | none => rfl
      | some co =>
        show ((checkArgs builtinFuncs Γ [arg] [(.ident, 1)]).bind fun r => some (⟨co + r.1, (hashFuncs 18)[1], r.2⟩ : Choice)) = _
        rw [a]; rfl
    have u3 : ∀ {ex}, usable raw [arg].length ex (fun ps => checkArgs builtinFuncs Γ [arg] ps) (hashFuncs 18)[2] =
        (outCost .ident ex).map fun co => ⟨co + (4 + c), (hashFuncs 18)[2], [te.as .tokens]⟩ := by
      intro ex
      have p : paramsFor (hashFuncs 18)[2] [arg].length = some [(.tokens, 1)] := rfl
      have a : checkArgs builtinFuncs Γ [arg] [(.tokens, 1)] = some (4 + c, [te.as .tokens]) := by simp [checkArgs, h3]
      have o : (hashFuncs 18)[2].out = .ident := rfl
      have r : (hashFuncs 18)[2].args ≠ [.raw] := by decide
      simp only [usable, p, o, if_neg r]
      cases outCost .ident ex with
      | none => rfl
      | some co =>
        show ((checkArgs builtinFuncs Γ [arg] [(.tokens, 1)]).bind fun r => some (⟨co + r.1, (hashFuncs 18)[2], r.2⟩ : Choice)) = _
        rw [a]; rfl
    have first : ∀ {k k'} {a a' : List TExpr}, k < k' → best [(⟨k, (hashFuncs 18)[0], a⟩ : Choice), ⟨k', (hashFuncs 18)[2], a'⟩] = some ⟨k, (hashFuncs 18)[0], a⟩ := by
      intro k k' a a' hk
      simp only [best]
      rw [if_neg]
      unfold Choice.better
      simp only
      omega
    have key : ∀ {ex ch}, best (((outCost .litStr ex).map fun co => (⟨co + c, (hashFuncs 18)[0], [te.as .litStr]⟩ : Choice)).toList ++
        ((outCost .ident ex).map fun co => (⟨co + (4 + c), (hashFuncs 18)[2], [te.as .tokens]⟩ : Choice)).toList) = some ch →
        check builtinFuncs Γ (.call i (c! "hash") [arg] raw) ex = .ok (ch.cost, .call ch.func ch.args (ex.getD ch.func.out)) := by
      intro ex ch hch
      simp only [check, hb]
      have : [(hashFuncs 18)[0], (hashFuncs 18)[1], (hashFuncs 18)[2]].filterMap (usable raw [arg].length ex (fun ps => checkArgs builtinFuncs Γ [arg] ps)) =
          ((outCost .litStr ex).map fun co => (⟨co + c, (hashFuncs 18)[0], [te.as .litStr]⟩ : Choice)).toList ++
          ((outCost .ident ex).map fun co => (⟨co + (4 + c), (hashFuncs 18)[2], [te.as .tokens]⟩ : Choice)).toList := by
        simp only [List.filterMap_cons, List.filterMap_nil]
        rw [u1, u2, u3]
        cases outCost .litStr ex <;> cases outCost .ident ex <;> rfl
      rw [this, hch]
    cases expected with
    | none => exact ⟨_, key (ex := none) (first (k := 0 + c) (k' := 0 + (4 + c)) (by omega))⟩
    | some t =>
      have hvt := hv t rfl
      cases t with
      | variadic => cases hvt
      | litInt =>
        simp only [check, hb]
        have : [(hashFuncs 18)[0], (hashFuncs 18)[1], (hashFuncs 18)[2]].filterMap (usable raw [arg].length (some .litInt) (fun ps => checkArgs builtinFuncs Γ [arg] ps)) = [] := by
          simp only [List.filterMap_cons, List.filterMap_nil]
          rw [u1, u2, u3]
          rfl
        rw [this]
        exact ⟨_, rfl⟩
      | ident => exact ⟨_, key (ch := ⟨0 + (4 + c), (hashFuncs 18)[2], [te.as .tokens]⟩) rfl⟩
      | path => exact ⟨_, key (ch := ⟨1 + (4 + c), (hashFuncs 18)[2], [te.as .tokens]⟩) rfl⟩
      | type => exact ⟨_, key (ch := ⟨2 + (4 + c), (hashFuncs 18)[2], [te.as .tokens]⟩) rfl⟩
      | expr => exact ⟨_, key (ch := ⟨3 + (4 + c), (hashFuncs 18)[2], [te.as .tokens]⟩) rfl⟩
      | litStr => exact ⟨_, key (ch := ⟨0 + c, (hashFuncs 18)[0], [te.as .litStr]⟩) rfl⟩
      | tokens => exact ⟨_, key (ex := some .tokens) (first (k := 4 + c) (k' := 4 + (4 + c)) (by omega))⟩
      | raw => exact ⟨_, key (ex := some .raw) (first (k := 5 + c) (k' := 5 + (4 + c)) (by omega))⟩

/-- **C73**, `hash` of a string exactly: where an identifier, a path, a type or an expression is expected the overload for tokens is used; where a string, tokens
or raw tokens are expected, or nothing, that for strings; an integer cannot be expected of it. (For an argument which is a string by the rules of the
reference.) -/
theorem C73_hash {env : Env} (henv : env.funcs = builtinFuncs) {Γ : TyEnv} {arg : Expr} (hty : HasType Γ arg .litStr) {i : Nat}
    {raw : Option (Nat × Toks)} {sc : Scope} (hA : Agrees Γ sc) (hC : Clean sc.md (ids (.call i (c! "hash") [arg] raw)))
    (hN : (ids (.call i (c! "hash") [arg] raw)).Nodup) {expected : Option Ty} (hv : ∀ t, expected = some t → t.isVariadic = false) :
    (∀ sc', Expr.resolve env (.call i (c! "hash") [arg] raw) expected sc = .ok sc' → ∃ md, sc'.md.calls i = some md ∧
      ((expected = none ∨ expected = some .litStr ∨ expected = some .tokens ∨ expected = some .raw) ∧ md.func.args = [.litStr] ∧ md.func.out = .litStr ∨
       (expected = some .ident ∨ expected = some .path ∨ expected = some .type ∨ expected = some .expr) ∧ md.func.args = [.tokens] ∧ md.func.out = .ident)) ∧
    ∀ x, Expr.resolve env (.call i (c! "hash") [arg] raw) expected sc = .err x → expected = some .litInt := by
  obtain ⟨c, te, hp, ht⟩ := hasType_princ hty
  have hk := hash_check hp ht i raw expected hv
  constructor
  · intro sc' h
    obtain ⟨c', te', hck, hr, -⟩ := resolved henv hA hC hN h
    have key : ∀ {f a s}, te' = .call f a s → ∃ md, sc'.md.calls i = some md ∧ md.func = f := by
      rintro f a s rfl
      cases hr with
      | call h _ _ => exact ⟨_, h, rfl⟩
    cases expected with
    | none =>
      obtain ⟨k, hk⟩ := hk
      rw [hk] at hck; cases hck
      obtain ⟨md, h1, h2⟩ := key rfl
      exact ⟨md, h1, .inl ⟨.inl rfl, by rw [h2]; exact ⟨rfl, rfl⟩⟩⟩
    | some t =>
      cases t with
      | variadic => cases hv _ rfl
      | litInt => obtain ⟨x, hx⟩ := hk; rw [hx] at hck; cases hck
      | _ =>
        obtain ⟨k, hk⟩ := hk
        rw [hk] at hck; cases hck
        obtain ⟨md, h1, h2⟩ := key rfl
        refine ⟨md, h1, ?_⟩
        rw [h2]
        simp [hashFuncs]
  · intro x h
    rcases resolve_spec (.call i (c! "hash") [arg] raw) (env := env) (expected := expected) hA hC hN with ⟨h2, -⟩ | h2
    · rw [h] at h2; cases h2
    · rw [henv] at h2
      cases expected with
      | none => obtain ⟨k, hk⟩ := hk; rw [hk] at h2; obtain ⟨_, h3, _⟩ := h2; rw [h] at h3; cases h3
      | some t =>
        cases t with
        | variadic => cases hv _ rfl
        | litInt => rfl
        | _ =>
          obtain ⟨k, hk⟩ := hk
          rw [hk] at h2; obtain ⟨_, h3, _⟩ := h2; rw [h] at h3; cases h3

/-- `C73_hash` applies to `hash("a")` in the beginning, with any expected type. -/
example : ∃ arg, HasType (fun _ => none) arg .litStr ∧ Agrees (fun _ => none) Scope.empty ∧
    Clean Scope.empty.md (ids (.call 0 (c! "hash") [arg] none)) ∧ (ids (.call 0 (c! "hash") [arg] none)).Nodup ∧
    (∃ sc, Expr.resolve (Env.builtin 1) (.call 0 (c! "hash") [arg] none) (some .tokens) Scope.empty = .ok sc) ∧
    (∃ sc, Expr.resolve (Env.builtin 1) (.call 0 (c! "hash") [arg] none) (some .type) Scope.empty = .ok sc) ∧
    ∃ x, Expr.resolve (Env.builtin 1) (.call 0 (c! "hash") [arg] none) (some .litInt) Scope.empty = .err x :=
  ⟨.value 1 (.litStr (c! "\"a\"") (c! "a")), .value _ _, agrees_empty, clean_empty _, by decide, ⟨_, rfl⟩, ⟨_, rfl⟩, ⟨_, rfl⟩⟩

/-- `concat(hash(x), upper("a"))` in the beginning. -/
def contextDemo : Expr := .call 0 (c! "concat") [.call 1 (c! "hash") [.value 2 (.ident (c! "x"))] none,
  .call 3 (c! "upper") [.value 4 (.litStr (c! "\"a\"") (c! "a"))] none] none

example : ∃ sc sc', noStrHash (fun _ => none) contextDemo ∧ Agrees (fun _ => none) Scope.empty ∧ Clean Scope.empty.md (ids contextDemo) ∧
    (ids contextDemo).Nodup ∧ Expr.resolve (Env.builtin 1) contextDemo none Scope.empty = .ok sc ∧
    Expr.resolve (Env.builtin 1) contextDemo (some .tokens) Scope.empty = .ok sc' := by
  refine ⟨_, _, ⟨fun h => absurd h (by decide), ⟨?_, trivial, trivial⟩, ⟨fun h => absurd h (by decide), trivial, trivial⟩, trivial⟩, agrees_empty, clean_empty _, by decide, rfl, rfl⟩
  intro _ a ha c te h
  simp only [List.mem_singleton] at ha
  subst ha
  cases h
  decide

/-! ## C74 -/

/-- If the copies agree in the iterations there are, the outputs agree. -/
theorem output_agree_inForce {W : World} {hist hist' : List (Invocation × Luck)} {inv inv' : Invocation} {l l' : Luck} {a a' : PAst}
    (hs : Scheduled W hist inv l) (ha : Reads W inv a) (hs' : Scheduled W hist' inv' l') (ha' : Reads W inv' a')
    (hal : SameSetting hist inv l a hist' inv' l' a') (hl : (tree a').loops = (tree a).loops)
    (hc : ∀ its, InForce a its → ∀ items, items ++ definitions a ∈ its → ∀ c c' sv, copyOf W (Env.builtin (l.ids 0)) sv a.block (items ++ definitions a) = .ok c →
      copyOf W (Env.builtin (l.ids 0)) sv a'.block (items ++ definitions a') = .ok c' → c = c')
    {ts ts' : Toks} (h : output W hist inv l = .tokens ts) (h' : output W hist' inv' l' = .tokens ts') : ts = ts' := by
  rw [setting_output hs' ha' hal] at h'
  rw [output_reads hs ha] at h
  have hb : loopBindings (tree a') = loopBindings (tree a) := by unfold loopBindings; rw [hl]
  unfold expansion at h h'
  rw [iterations_eq] at h h'
  rw [hb] at h'
  cases hi : loopBindings (tree a) with
  | err e => rw [hi] at h; cases h
  | panic => rw [hi] at h; cases h
  | ok its =>
    rw [hi] at h h'
    have hin : InForce a (its.map (· ++ definitions a)) := inForce_of_iterations (by rw [iterations_eq, hi]; rfl)
    replace hc := fun items hm => hc _ hin items (List.mem_map.2 ⟨items, hm, rfl⟩)
    clear hin
    simp only [Res.map, List.map_map] at h h'
    generalize hj : joinAll _ = r at h
    generalize hj' : joinAll _ = r' at h'
    cases r with
    | err e => cases h
    | panic => cases h
    | ok t =>
      cases h
      cases r' with
      | err e => cases h'
      | panic => cases h'
      | ok t' =>
        cases h'
        obtain ⟨cs, h1, rfl⟩ := joinAll_ok hj
        obtain ⟨cs', h1', rfl⟩ := joinAll_ok hj'
        have : cs = cs' := by
          clear hi hj hj'
          induction its generalizing cs cs' with
          | nil =>
            cases cs with
            | cons => cases h1
            | nil => cases cs' with
              | cons => cases h1'
              | nil => rfl
          | cons i its ih =>
            cases cs with
            | nil => cases h1
            | cons c cs =>
              cases cs' with
              | nil => cases h1'
              | cons c' cs' =>
                simp only [List.map_cons, Function.comp_apply, List.cons.injEq] at h1 h1'
                rw [hc _ List.mem_cons_self _ _ _ h1.1 h1'.1, ih (fun items hm => hc items (List.mem_cons_of_mem _ hm)) cs h1.2 cs' h1'.2]
        rw [this]

/-- If the copies agree, the outputs agree. -/
theorem output_agree {W : World} {hist hist' : List (Invocation × Luck)} {inv inv' : Invocation} {l l' : Luck} {a a' : PAst}
    (hs : Scheduled W hist inv l) (ha : Reads W inv a) (hs' : Scheduled W hist' inv' l') (ha' : Reads W inv' a')
    (hal : SameSetting hist inv l a hist' inv' l' a') (hl : (tree a').loops = (tree a).loops)
    (hc : ∀ items c c' sv, copyOf W (Env.builtin (l.ids 0)) sv a.block (items ++ definitions a) = .ok c →
      copyOf W (Env.builtin (l.ids 0)) sv a'.block (items ++ definitions a') = .ok c' → c = c')
    {ts ts' : Toks} (h : output W hist inv l = .tokens ts) (h' : output W hist' inv' l' = .tokens ts') : ts = ts' :=
  output_agree_inForce hs ha hs' ha' hal hl (fun _ _ items _ => hc items) h h'

/-- If all copies stay the same or give up, so does everything together. -/
theorem joinAll_safe {α : Type} {f g : α → Res Toks} : ∀ {its : List α} {ts : Toks}, (∀ i ∈ its, ∀ c, f i = .ok c → g i = .ok c ∨ GivesUp (g i)) →
    joinAll (its.map f) = .ok ts → joinAll (its.map g) = .ok ts ∨ GivesUp (joinAll (its.map g))
  | [], _, _, h => .inl h
  | i :: its, ts, hc, h => by
    simp only [List.map_cons] at h ⊢
    cases hf : f i with
    | err e => rw [hf] at h; cases h
    | panic => rw [hf] at h; cases h
    | ok c =>
      rw [hf] at h
      simp only [joinAll] at h
      cases hj : joinAll (its.map f) with
      | err e => rw [hj] at h; cases h
      | panic => rw [hj] at h; cases h
      | ok t =>
        rw [hj] at h
        rcases hc i List.mem_cons_self c hf with hg | ⟨xs, hg⟩ | hg
        · rw [hg]
          simp only [joinAll]
          rcases joinAll_safe (fun i hi => hc i (List.mem_cons_of_mem _ hi)) hj with hr | ⟨xs, hr⟩ | hr
          · rw [hr]; exact .inl h
          · rw [hr]; exact .inr (.inl ⟨xs, rfl⟩)
          · rw [hr]; exact .inr (.inr rfl)
        · rw [hg]; exact .inr (.inl ⟨xs, rfl⟩)
        · rw [hg]; exact .inr (.inr rfl)

/-- A copy stays the same or gives up if the values do. -/
theorem copyOf_safe {W : World} {env : Env} {sv : Service} {b : List Stmt} {defs defs' : List (Str × Expr)}
    (h : ∀ vs, outcome W.E env defs = .ok vs → outcome W.E env defs' = .ok vs ∨ GivesUp (outcome W.E env defs')) {c : Toks}
    (hc : copyOf W env sv b defs = .ok c) : copyOf W env sv b defs' = .ok c ∨ GivesUp (copyOf W env sv b defs') := by
  obtain ⟨vs, stmts, h1, h2, rfl⟩ := copyOf_ok.1 hc
  rcases h vs h1 with h' | ⟨xs, h'⟩ | h'
  · exact .inl (copyOf_ok.2 ⟨vs, stmts, h', h2, rfl⟩)
  · exact .inr (.inl ⟨xs, by unfold copyOf; rw [h']⟩)
  · exact .inr (.inr (by unfold copyOf; rw [h']))

/-- If the values stay the same or `concat` gives up, in the iterations there are, this is so for everything together. -/
theorem expansion_safe {W : World} {env : Env} {sv : Service} {a a' : PAst} (hl : (tree a').loops = (tree a).loops) (hb : a'.block = a.block)
    (hc : ∀ its, InForce a its → ∀ items, items ++ definitions a ∈ its → ∀ vs, outcome W.E env (items ++ definitions a) = .ok vs →
      outcome W.E env (items ++ definitions a') = .ok vs ∨ GivesUp (outcome W.E env (items ++ definitions a')))
    {ts : Toks} (h : expansion W env sv (tree a) = .ok ts) :
    expansion W env sv (tree a') = .ok ts ∨ GivesUp (expansion W env sv (tree a')) := by
  have hbd : loopBindings (tree a') = loopBindings (tree a) := by unfold loopBindings; rw [hl]
  unfold expansion at h ⊢
  rw [iterations_eq] at h ⊢
  rw [hbd]
  cases hi : loopBindings (tree a) with
  | err e => rw [hi] at h; cases h
  | panic => rw [hi] at h; cases h
  | ok its =>
    rw [hi] at h
    have hin : InForce a (its.map (· ++ definitions a)) := inForce_of_iterations (by rw [iterations_eq, hi]; rfl)
    replace hc := fun items hm => hc _ hin items (List.mem_map.2 ⟨items, hm, rfl⟩)
    simp only [Res.map, List.map_map] at h ⊢
    exact joinAll_safe (g := copyOf W env sv a'.block ∘ (· ++ definitions a')) (fun i hm c hcp => by
      rw [Function.comp_apply, hb]; exact copyOf_safe (hc i hm) hcp) h

/-- The same for the outputs, in both directions. -/
theorem output_safe {W : World} {hist hist' : List (Invocation × Luck)} {inv inv' : Invocation} {l l' : Luck} {a a' : PAst}
    (hs : Scheduled W hist inv l) (ha : Reads W inv a) (hs' : Scheduled W hist' inv' l') (ha' : Reads W inv' a')
    (hal : SameSetting hist inv l a hist' inv' l' a') (hl : (tree a').loops = (tree a).loops) (hb : a'.block = a.block)
    (hc : ∀ its, InForce a its → ∀ items, items ++ definitions a ∈ its →
      (∀ vs, outcome W.E (Env.builtin (l.ids 0)) (items ++ definitions a) = .ok vs →
        outcome W.E (Env.builtin (l.ids 0)) (items ++ definitions a') = .ok vs ∨ GivesUp (outcome W.E (Env.builtin (l.ids 0)) (items ++ definitions a'))) ∧
      ∀ vs, outcome W.E (Env.builtin (l.ids 0)) (items ++ definitions a') = .ok vs →
        outcome W.E (Env.builtin (l.ids 0)) (items ++ definitions a) = .ok vs ∨ GivesUp (outcome W.E (Env.builtin (l.ids 0)) (items ++ definitions a))) :
    (∀ ts, output W hist inv l = .tokens ts →
      output W hist' inv' l' = .tokens ts ∨ (∃ xs, output W hist' inv' l' = .compileError (.evalError xs)) ∨ output W hist' inv' l' = .panicked) ∧
    ∀ ts, output W hist' inv' l' = .tokens ts →
      output W hist inv l = .tokens ts ∨ (∃ xs, output W hist inv l = .compileError (.evalError xs)) ∨ output W hist inv l = .panicked := by
  rw [setting_output hs' ha' hal, output_reads hs ha]
  have back : ∀ {r r' : Res Toks}, (∀ ts, r = .ok ts → r' = .ok ts ∨ GivesUp r') → ∀ ts, Output.ofRes r = .tokens ts →
      Output.ofRes r' = .tokens ts ∨ (∃ xs, Output.ofRes r' = .compileError (.evalError xs)) ∨ Output.ofRes r' = .panicked := by
    intro r r' h ts hr
    cases r with
    | err e => cases hr
    | panic => cases hr
    | ok t =>
      cases hr
      rcases h ts rfl with rfl | ⟨xs, rfl⟩ | rfl
      · exact .inl rfl
      · exact .inr (.inl ⟨xs, rfl⟩)
      · exact .inr (.inr rfl)
  have inF : ∀ its', InForce a' its' → ∀ items, items ++ definitions a' ∈ its' → ∃ its, InForce a its ∧ items ++ definitions a ∈ its := by
    intro its' hi' items hm
    have h' := iterations_of_inForce hi'
    have hbd : loopBindings (tree a') = loopBindings (tree a) := by unfold loopBindings; rw [hl]
    rw [iterations_eq, hbd] at h'
    cases hi : loopBindings (tree a) with
    | err e => rw [hi] at h'; cases h'
    | panic => rw [hi] at h'; cases h'
    | ok bs =>
      rw [hi] at h'
      cases h'
      obtain ⟨b, hb, hbe⟩ := List.mem_map.1 hm
      have := List.append_cancel_right hbe
      subst this
      exact ⟨_, inForce_of_iterations (by rw [iterations_eq, hi]; rfl), List.mem_map.2 ⟨_, hb, rfl⟩⟩
  constructor
  · exact back fun ts h => expansion_safe hl hb (fun its hi items hm => (hc its hi items hm).1) h
  · refine back fun ts h => expansion_safe hl.symm hb.symm (fun its hi items hm => ?_) h
    obtain ⟨its', hi', hm'⟩ := inF its hi items hm
    exact (hc its' hi' items hm').2

/-- Wherever the definitions `ds` stand, with other definitions (from the loops) in front of them, `hash` is not called on a string in the expression
after them. -/
def HashesNoStrings (W : World) (l : Luck) (ds : List (Str × Expr)) (e : Expr) : Prop :=
  ∀ (items : List (Str × Expr)) (vs : Subs), outcome W.E (Env.builtin (l.ids 0)) (items ++ ds) = .ok vs →
    noStrHash (fun n => (vs.get n).map (·.ty)) e

mutual
theorem noStrHash_of_calls {Γ : TyEnv} : ∀ (e : Expr), S "hash" ∉ calls e → noStrHash Γ e
  | .value _ _, _ => trivial
  | .call _ n args _, h => by
    simp only [calls, List.mem_cons, not_or] at h
    exact ⟨fun hn => absurd hn.symm h.1, noStrHashL_of_calls args h.2⟩
theorem noStrHashL_of_calls {Γ : TyEnv} : ∀ (es : List Expr), S "hash" ∉ callsL es → noStrHashL Γ es
  | [], _ => trivial
  | e :: es, h => by
    simp only [callsL, List.mem_append, not_or] at h
    exact ⟨noStrHash_of_calls e h.1, noStrHashL_of_calls es h.2⟩
end

/-- Without `hash` there is no `hash` of a string. -/
theorem hashesNoStrings {W : World} {l : Luck} {ds : List (Str × Expr)} {e : Expr} (h : S "hash" ∉ calls e) : HashesNoStrings W l ds e :=
  fun _ _ _ => noStrHash_of_calls e h

/-- **C74**, without `hash` of a string: in a definition, the name of an earlier one may be replaced by its right-hand side (if that does not use names
which are defined in between): if the invocation succeeds in both cases the output is the same. (What is missing: `C74_false`.) -/
theorem C74_partial {W : World} (hE : PlainNames W.E) {hist hist' : List (Invocation × Luck)} {inv inv' : Invocation} {l l' : Luck} {a a' : PAst}
    (hs : Scheduled W hist inv l) (ha : Reads W inv a) (hs' : Scheduled W hist' inv' l') (ha' : Reads W inv' a')
    (hal : SameSetting hist inv l a hist' inv' l' a') (hl : (tree a').loops = (tree a).loops) (hb : a'.block = a.block)
    {x y : Str} {d e e' : Expr} {d1 d2 d3 : List (Str × Expr)} (hd : definitions a = d1 ++ (x, d) :: d2 ++ (y, e) :: d3)
    (hd' : definitions a' = d1 ++ (x, d) :: d2 ++ (y, e') :: d3) (hw : WritesOut x d e e') (hu : x ∉ used d)
    (hu2 : ∀ n ∈ d2.map (·.1), n ∉ used d) (hh : HashesNoStrings W l (d1 ++ (x, d) :: d2) d) (hh' : HashesNoStrings W l (d1 ++ (x, d) :: d2) e)
    {ts ts' : Toks} (h : output W hist inv l = .tokens ts) (h' : output W hist' inv' l' = .tokens ts') : ts = ts' := by
  refine output_agree hs ha hs' ha' hal hl ?_ h h'
  intro items c c' sv hc hc'
  have assoc : ∀ e, items ++ (d1 ++ (x, d) :: d2 ++ (y, e) :: d3) = (items ++ d1) ++ (x, d) :: d2 ++ (y, e) :: d3 := by intro e; simp
  rw [hd, assoc] at hc
  rw [hd', assoc, hb] at hc'
  obtain ⟨vs, stmts, h1, h2, rfl⟩ := copyOf_ok.1 hc
  obtain ⟨vs', stmts', h1', h2', rfl⟩ := copyOf_ok.1 hc'
  have := outcome_writeOut hE (env := Env.builtin (l.ids 0)) rfl hw hu hu2 (by
    intro vs hvs
    rw [List.append_assoc] at hvs
    exact ⟨hh items vs hvs, hh' items vs hvs⟩) h1 h1'
  subst this
  rw [h2] at h2'
  cases h2'
  rfl

/-- **C74**, one-sided: if one of the two invocations gives code, the other one gives the same code; or `concat` refuses its arguments in it (joined they
are not an identifier), or it panics (`C95` says exactly when). There is no other way in which the two can differ. (As above without `hash` of a string.) -/
theorem C74_or_refused_partial {W : World} (hE : PlainNames W.E) {hist hist' : List (Invocation × Luck)} {inv inv' : Invocation} {l l' : Luck} {a a' : PAst}
    (hs : Scheduled W hist inv l) (ha : Reads W inv a) (hs' : Scheduled W hist' inv' l') (ha' : Reads W inv' a')
    (hal : SameSetting hist inv l a hist' inv' l' a') (hl : (tree a').loops = (tree a).loops) (hb : a'.block = a.block)
    {x y : Str} {d e e' : Expr} {d1 d2 d3 : List (Str × Expr)} (hd : definitions a = d1 ++ (x, d) :: d2 ++ (y, e) :: d3)
    (hd' : definitions a' = d1 ++ (x, d) :: d2 ++ (y, e') :: d3) (hw : WritesOut x d e e') (hu : x ∉ used d)
    (hu2 : ∀ n ∈ d2.map (·.1), n ∉ used d) (hh : HashesNoStrings W l (d1 ++ (x, d) :: d2) d) (hh' : HashesNoStrings W l (d1 ++ (x, d) :: d2) e) :
    (∀ ts, output W hist inv l = .tokens ts →
      output W hist' inv' l' = .tokens ts ∨ (∃ xs, output W hist' inv' l' = .compileError (.evalError xs)) ∨ output W hist' inv' l' = .panicked) ∧
    ∀ ts, output W hist' inv' l' = .tokens ts →
      output W hist inv l = .tokens ts ∨ (∃ xs, output W hist inv l = .compileError (.evalError xs)) ∨ output W hist inv l = .panicked := by
  refine output_safe hs ha hs' ha' hal hl hb fun its _ items _ => ?_
  have assoc : ∀ e, items ++ (d1 ++ (x, d) :: d2 ++ (y, e) :: d3) = (items ++ d1) ++ (x, d) :: d2 ++ (y, e) :: d3 := by intro e; simp
  rw [hd, hd', assoc, assoc]
  exact outcome_writeOut_safe hE rfl hw hu hu2 (by
    intro vs hvs
    rw [List.append_assoc] at hvs
    exact ⟨hh items vs hvs, hh' items vs hvs⟩)

/-- `v` in place of `…` in `x = …, y = concat(…, b), { y }` -/
def writeDemo (d v : Toks) : Toks := [id' "x", eq'] ++ d ++ [comma, id' "y", eq', id' "concat", paren (v ++ [comma, id' "n"]), comma, brace [id' "y"]]

/-- `hash("a")` -/
def hashDemo : Toks := [id' "hash", paren [.lit (.str (c! "\"a\"") (c! "a"))]]

/-- `to_ident(to_ident(to_ident(f)))` -/
def keywordDemo : Toks := [id' "to_ident", paren [id' "to_ident", paren [id' "to_ident", paren [id' "f"]]]]

/-- The number of tokens put out. -/
def codeLength : Output → Option Nat
  | .tokens ts => some ts.length
  | _ => none

/-- **C74**, full statement, which is false: a name can be replaced by its definition. With `x = hash("a")`, `concat(x, n)` is a string followed by
a name, but `concat(hash("a"), n)` is a name. With `x = to_ident(to_ident(to_ident(f)))`, `concat(x, n)` is `fn`, but when the calls are written in
it another overload of `concat` is chosen, which does not give keywords. -/
theorem C74_false :
    codeLength (output demoWorld [] (.compose (writeDemo hashDemo [id' "x"])) (demoLuck 2 1)) = some 2 ∧
    codeLength (output demoWorld [] (.compose (writeDemo hashDemo hashDemo)) (demoLuck 2 1)) = some 1 ∧
    output demoWorld [] (.compose (writeDemo keywordDemo [id' "x"])) (demoLuck 2 1) = .tokens [id' "fn"] ∧
    output demoWorld [] (.compose (writeDemo keywordDemo keywordDemo)) (demoLuck 2 1) = .compileError (.evalError [[id' "f"], [id' "n"]]) := by
  decide +kernel

theorem demo_plain_names : PlainNames demoWorld.E where
  render s := by simp [demoWorld, Ext.demo, Tok.demoRenderL, Tok.demoRender]
  lex := by
    intro s h
    have h : CharClass.ascii.lexIdent s = true := h
    show demoLex s = _
    cases s with
    | nil => cases h
    | cons c cs =>
      have h' := h
      simp only [CharClass.lexIdent, CharClass.ascii, Bool.and_eq_true, Bool.or_eq_true, beq_iff_eq] at h'
      have hd : c.isDigit = false := by
        rcases h'.1 with rfl | ha
        · rfl
        · cases hd : c.isDigit with
          | false => rfl
          | true =>
            simp only [Char.isAlpha, Char.isUpper, Char.isLower, Char.isDigit, Bool.and_eq_true, Bool.or_eq_true, decide_eq_true_eq,
              ge_iff_le, UInt32.le_iff_toNat_le] at ha hd
            have e1 : 'A'.val.toNat = 65 := rfl
            have e2 : 'a'.val.toNat = 97 := rfl
            have e3 : '9'.val.toNat = 57 := rfl
            omega
      unfold demoLex
      split
      · rename_i hq
        cases hq
        exact absurd h'.1 (by decide)
      · simp [hd, h]

/-- `upper(p)` -/
def upperDemo : Toks := [id' "upper", paren [id' "p"]]

example : ∃ x y d e e' d1 d2 d3, definitions (demoParse (writeDemo upperDemo [id' "x"])) = d1 ++ (x, d) :: d2 ++ (y, e) :: d3 ∧
    definitions (demoParse (writeDemo upperDemo upperDemo)) = d1 ++ (x, d) :: d2 ++ (y, e') :: d3 ∧ WritesOut x d e e' ∧ x ∉ used d ∧
    (∀ n ∈ d2.map (·.1), n ∉ used d) ∧ HashesNoStrings demoWorld (demoLuck 2 1) (d1 ++ (x, d) :: d2) d ∧
    HashesNoStrings demoWorld (demoLuck 2 1) (d1 ++ (x, d) :: d2) e ∧
    (demoParse (writeDemo upperDemo upperDemo)).block = (demoParse (writeDemo upperDemo [id' "x"])).block ∧
    Reads demoWorld (.compose (writeDemo upperDemo [id' "x"])) (demoParse (writeDemo upperDemo [id' "x"])) ∧
    Reads demoWorld (.compose (writeDemo upperDemo upperDemo)) (demoParse (writeDemo upperDemo upperDemo)) ∧
    SameSetting [] (.compose (writeDemo upperDemo [id' "x"])) (demoLuck 2 1) (demoParse (writeDemo upperDemo [id' "x"])) []
      (.compose (writeDemo upperDemo upperDemo)) (demoLuck 2 1) (demoParse (writeDemo upperDemo upperDemo)) :=
  ⟨_, _, _, _, _, [], [], [], rfl, rfl, .call _ _ _ _ (by decide) (by decide) (.cons (.here _) (.cons (.same _) .nil)), by decide, by decide,
    hashesNoStrings (by decide), hashesNoStrings (by decide), rfl, reads_of_parse (ids := fun k => k) (k := 0) rfl,
    reads_of_parse (ids := fun k => k) (k := 0) rfl, .inl rfl, rfl, .inl rfl⟩

example : output demoWorld [] (.compose (writeDemo upperDemo [id' "x"])) (demoLuck 2 1) = .tokens [id' "Pn"] ∧
    output demoWorld [] (.compose (writeDemo upperDemo upperDemo)) (demoLuck 2 1) = .tokens [id' "Pn"] := by decide +kernel

/-- `C74_or_refused_partial` applies to `x = to_ident(to_ident(to_ident(f))), y = concat(x, n)` and to `y = concat(to_ident(to_ident(to_ident(f))), n)`.
The first one gives `fn`, and in the second one `concat` refuses `f` and `n`, since `fn` is a keyword: the second alternative occurs. -/
example : ∃ x y d e e' d1 d2 d3, definitions (demoParse (writeDemo keywordDemo [id' "x"])) = d1 ++ (x, d) :: d2 ++ (y, e) :: d3 ∧
    definitions (demoParse (writeDemo keywordDemo keywordDemo)) = d1 ++ (x, d) :: d2 ++ (y, e') :: d3 ∧ WritesOut x d e e' ∧ x ∉ used d ∧
    (∀ n ∈ d2.map (·.1), n ∉ used d) ∧ HashesNoStrings demoWorld (demoLuck 2 1) (d1 ++ (x, d) :: d2) d ∧
    HashesNoStrings demoWorld (demoLuck 2 1) (d1 ++ (x, d) :: d2) e ∧
    (tree (demoParse (writeDemo keywordDemo keywordDemo))).loops = (tree (demoParse (writeDemo keywordDemo [id' "x"]))).loops ∧
    (demoParse (writeDemo keywordDemo keywordDemo)).block = (demoParse (writeDemo keywordDemo [id' "x"])).block ∧
    Reads demoWorld (.compose (writeDemo keywordDemo [id' "x"])) (demoParse (writeDemo keywordDemo [id' "x"])) ∧
    Reads demoWorld (.compose (writeDemo keywordDemo keywordDemo)) (demoParse (writeDemo keywordDemo keywordDemo)) ∧
    SameSetting [] (.compose (writeDemo keywordDemo [id' "x"])) (demoLuck 2 1) (demoParse (writeDemo keywordDemo [id' "x"])) []
      (.compose (writeDemo keywordDemo keywordDemo)) (demoLuck 2 1) (demoParse (writeDemo keywordDemo keywordDemo)) ∧
    output demoWorld [] (.compose (writeDemo keywordDemo [id' "x"])) (demoLuck 2 1) = .tokens [id' "fn"] ∧
    output demoWorld [] (.compose (writeDemo keywordDemo keywordDemo)) (demoLuck 2 1) = .compileError (.evalError [[id' "f"], [id' "n"]]) :=
  ⟨_, _, _, _, _, [], [], [], rfl, rfl, .call _ _ _ _ (by decide) (by decide) (.cons (.here _) (.cons (.same _) .nil)), by decide, by decide,
    hashesNoStrings (by decide), hashesNoStrings (by decide), rfl, rfl, reads_of_parse (ids := fun k => k) (k := 0) rfl,
    reads_of_parse (ids := fun k => k) (k := 0) rfl, ⟨.inl rfl, rfl, .inl rfl⟩, by decide +kernel, by decide +kernel⟩

end Verif.Props
