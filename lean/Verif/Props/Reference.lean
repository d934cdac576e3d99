import Verif.Proofs.Reference
import Verif.Props.Context
/-!
# Property C78: types are those of the reference

The documentation describes the functions by tables: what they take, what they give, and which types are coerced to which. The code chooses overloads by
summing costs. Here the two are compared.
-/

namespace Verif.Props
open Verif Spec

/-! ## The tables -/

/-- **C78**: the functions of the code are the rows of the tables, each once, and the coercions are those of the table of coercions. -/
theorem C78_tables :
    (∀ r : Sig, r ∈ reference ↔ ∃ f ∈ builtins, f.name = r.name ∧ f.args = r.params ∧ f.out = r.out) ∧ builtins.length = reference.length ∧ reference.Nodup ∧
    ∀ s t : Ty, t.isVariadic = false → ((∃ c, coercionCost s t = some c) ↔ Converts s t) := by
  refine ⟨fun r => ⟨fun h => ?_, ?_⟩, by decide +kernel, by decide +kernel, fun s t ht => converts_iff ht⟩
  · obtain ⟨f, hf, rfl⟩ := reference_complete r h
    exact ⟨f, hf, rfl, rfl, rfl⟩
  · rintro ⟨f, hf, h1, h2, h3⟩
    have := reference_sound f hf
    rw [show r = f.sig by cases r; simp_all [Func.sig]]
    exact this

/-! ## Expressions -/

theorem princ_check {Γ : TyEnv} {e : Expr} {c te} (h : Princ Γ e (some (c, te))) : check builtinFuncs Γ e none = .ok (c, te) := by
  cases h with
  | types _ _ h _ _ => exact h

/-- **C78**: an expression which has a type by the tables is resolved (unless costs get too large), and that is the type recorded for it. A type can be
expected of it if and only if it is coerced to that type by the table of coercions. -/
theorem C78_type {env : Env} (henv : env.funcs = builtinFuncs) {Γ : TyEnv} {sc : Scope} {e : Expr} {t : Ty} (ht : HasType Γ e t) (hA : Agrees Γ sc)
    (hC : Clean sc.md (ids e)) (hN : (ids e).Nodup) :
    (∀ x, Expr.resolve env e none sc ≠ .err x) ∧ (∀ sc', Expr.resolve env e none sc = .ok sc' → recTy sc'.md e.id = some t) ∧
    ∀ t', t'.isVariadic = false →
      (∀ x, Expr.resolve env e (some t') sc = .err x → ¬ Converts t t') ∧
      ∀ sc', Expr.resolve env e (some t') sc = .ok sc' → Converts t t' ∧ recTy sc'.md e.id = some t' := by
  obtain ⟨c, te, hp, rfl⟩ := hasType_princ ht
  cases hp with
  | types _ _ h hs hn =>
    have h0 := resolve_spec e (env := env) (expected := none) hA hC hN
    rw [henv, h] at h0
    refine ⟨?_, ?_, fun t' hv => ?_⟩
    · intro x hx
      rcases h0 with ⟨h0, -⟩ | ⟨sc', h0, -⟩ <;> rw [hx] at h0 <;> cases h0
    · intro sc' hx
      rcases h0 with ⟨h0, -⟩ | ⟨sc2, h0, hR⟩
      · rw [hx] at h0; cases h0
      · rw [hx] at h0; cases h0; exact hR.ty
    · have h1 := resolve_spec e (env := env) (expected := some t') hA hC hN
      rw [henv] at h1
      cases hc : coercionCost te.target t' with
      | none =>
        have hno : ¬ Converts te.target t' := fun hcv => by
          obtain ⟨co, h2⟩ := (converts_iff hv).2 hcv
          rw [hc] at h2; cases h2
        obtain ⟨y, hy⟩ := hn t' hv hc
        rw [hy] at h1
        refine ⟨fun _ _ => hno, fun sc' hx => ?_⟩
        rcases h1 with ⟨h1, -⟩ | ⟨h1, -⟩ <;> rw [hx] at h1 <;> cases h1
      | some co =>
        rw [hs t' co hv hc] at h1
        refine ⟨fun x hx => ?_, fun sc' hx => ⟨(converts_iff hv).1 ⟨co, hc⟩, ?_⟩⟩
        · rcases h1 with ⟨h1, -⟩ | ⟨sc2, h1, -⟩ <;> rw [hx] at h1 <;> cases h1
        · rcases h1 with ⟨h1, -⟩ | ⟨sc2, h1, hR⟩
          · rw [hx] at h1; cases h1
          · rw [hx] at h1
            cases h1
            rw [hR.ty, TExpr.as_target]

/-- **C78**, conversely and without `hash` of a string: an expression which is resolved has a type by the tables, and one which is rejected has none.
(What is missing: `C78_false`.) -/
theorem C78_only_partial {env : Env} (henv : env.funcs = builtinFuncs) {Γ : TyEnv} {sc : Scope} {e : Expr} (hh : noStrHash Γ e) (hA : Agrees Γ sc)
    (hC : Clean sc.md (ids e)) (hN : (ids e).Nodup) :
    (∀ sc', Expr.resolve env e none sc = .ok sc' → ∃ t, HasType Γ e t ∧ recTy sc'.md e.id = some t) ∧
    ∀ x, Expr.resolve env e none sc = .err x → ∀ t, ¬ HasType Γ e t := by
  refine ⟨fun sc' h => ?_, fun x h t ht => (C78_type henv ht hA hC hN).1 x h⟩
  obtain ⟨c, te, h1, -⟩ := resolved henv hA hC hN h
  have ht := princ_hasType e hh h1
  exact ⟨_, ht, (C78_type henv ht hA hC hN).2.1 sc' h⟩

/-- **C78**: an expression has at most one type. -/
theorem C78_unique {Γ : TyEnv} {e : Expr} {t t' : Ty} (h : HasType Γ e t) (h' : HasType Γ e t') : t = t' := by
  obtain ⟨c, te, hp, rfl⟩ := hasType_princ h
  obtain ⟨c', te', hp', rfl⟩ := hasType_princ h'
  have := princ_check hp
  rw [princ_check hp'] at this
  cases this
  rfl

/-- Example: `concat(hash(x), upper("a"))` is an identifier, by the row `concat(ident, tokens...)`. -/
example : HasType (fun _ => none) contextDemo .ident ∧ Agrees (fun _ => none) Scope.empty ∧ Clean Scope.empty.md (ids contextDemo) ∧ (ids contextDemo).Nodup ∧
    noStrHash (fun _ => none) contextDemo := by
  have hh : noStrHash (fun _ => none) contextDemo := by
    refine ⟨fun h => absurd h (by decide), ⟨?_, trivial, trivial⟩, ⟨fun h => absurd h (by decide), trivial, trivial⟩, trivial⟩
    intro _ a ha c te h
    simp only [List.mem_singleton] at ha
    subst ha
    cases h
    decide
  have ht : ∃ c te, check builtinFuncs (fun _ => none) contextDemo none = .ok (c, te) ∧ te.target = .ident := ⟨_, _, rfl, rfl⟩
  obtain ⟨c, te, h1, h2⟩ := ht
  exact ⟨h2 ▸ princ_hasType contextDemo hh h1, agrees_empty, clean_empty _, by decide, hh⟩

/-- Example: `upper(concat(x))` with `x` an integer has no type: `concat` gives an integer, which `upper` does not take. -/
example : ∀ t, ¬ HasType (fun _ => some .litInt) (.call 0 (c! "upper") [.call 1 (c! "concat") [.value 2 (.ident (c! "x"))] none] none) t := by
  intro t h
  obtain ⟨c, te, hp, -⟩ := hasType_princ h
  cases princ_check hp

/-! ## Rows that fit exactly -/

/-- The arguments have exactly the types of the parameters. -/
inductive Exactly : List Ty → List Ty → Prop
  | nil : Exactly [] []
  | one {p : Ty} {ps ts : List Ty} (hp : p.isVariadic = false) (hs : Exactly ps ts) : Exactly (p :: ps) (p :: ts)
  | many {p t : Ty} {ts : List Ty} (h : ∀ s ∈ t :: ts, s = p) : Exactly [.variadic p] (t :: ts)

/-- The type of the first argument that a list of parameters asks for. -/
def firstTy : List Ty → Option Ty
  | .variadic t :: _ => some t
  | t :: _ => some t
  | [] => none

/-- Types to which no other type is coerced. -/
def strict (t : Ty) : Bool := t matches .ident | .litStr | .litInt

theorem Exactly.takes {ps ts : List Ty} (h : Exactly ps ts) : Takes ps ts := by
  induction h with
  | nil => exact .nil
  | one hp _ ih => exact .one hp (.same _) ih
  | many h => exact .many fun s hs => by rw [h s hs]; exact .same _

theorem Exactly.first {ps ts : List Ty} (h : Exactly ps ts) : firstTy ps = ts.head? := by
  cases h with
  | nil => rfl
  | @one p _ _ hp _ => cases p <;> simp_all [firstTy, Ty.isVariadic]
  | many h => simp [firstTy, h]

theorem takes_first {ps ts : List Ty} (h : Takes ps ts) {p : Ty} (hp : firstTy ps = some p) (hs : strict p = true) : ts.head? = some p := by
  cases h with
  | nil => cases hp
  | @one q t _ _ hq h _ =>
    have : q = p := by cases q <;> simp_all [firstTy, Ty.isVariadic]
    subst this
    cases h <;> simp_all [strict]
  | @many q t _ h =>
    have : q = p := by simpa [firstTy] using hp
    subst this
    have := h t (by simp)
    cases this <;> simp_all [strict]

theorem reference_pairs : ∀ r ∈ reference, ∀ r' ∈ reference, r'.name = r.name →
    r'.out = r.out ∨ r'.out = .tokens ∨ (r.name = c! "hash" ∧ r.params = [.litStr]) ∨
    (firstTy r'.params ≠ firstTy r.params ∧ (firstTy r'.params).any strict = true) := by decide +kernel

/-- **C78**: a call whose arguments have exactly the types of a row has the type of that row, except that this is not so for `hash` of a string. -/
theorem C78_exact_row_partial {Γ : TyEnv} {args : List Expr} {tys : List Ty} (hs : HasTypes Γ args tys) {r : Sig} (hr : r ∈ reference)
    (hx : Exactly r.params tys) (hh : ¬ (r.name = c! "hash" ∧ r.params = [.litStr])) (id : Nat) {raw : Option (Nat × Toks)}
    (hp : r.params = [.raw] → raw = none) : HasType Γ (.call id r.name args raw) r.out := by
  refine .call id hs hr hp hx.takes fun r' hr' hn ht => ?_
  rcases reference_pairs r hr r' hr' hn with h | h | h | ⟨h1, h2⟩
  · exact .inl h
  · exact .inr h
  · exact absurd h hh
  · cases h3 : firstTy r'.params with
    | none => rw [h3] at h2; cases h2
    | some p =>
      rw [h3] at h1 h2
      exact absurd (by rw [hx.first]; exact (takes_first ht h3 h2).symm) h1

/-- Example: `concat(x, _y)`, with the row `concat(ident...)`. -/
example : HasType (fun _ => none) (.call 0 (c! "concat") [.value 1 (.ident (c! "x")), .value 2 (.ident (c! "_y"))] none) .ident :=
  C78_exact_row_partial (r := ⟨c! "concat", [.variadic .ident], .ident⟩) (tys := [.ident, .ident])
    (.cons (.value 1 (.ident (c! "x"))) (.cons (.value 2 (.ident (c! "_y"))) .nil)) (by decide +kernel) (.many (by decide)) (by decide) 0 (by decide)

/-- `to_str(to_str(… (e)))` with `n` calls, which get the ids from `i` on. -/
def toStrs (e : Expr) (i : Nat) : Nat → Expr
  | 0 => e
  | n + 1 => .call (i + n) (c! "to_str") [toStrs e i n] none

/-- `hash(to_str(to_str(to_str(to_str(x)))))`. -/
def deepHash : Expr := .call 1 (c! "hash") [toStrs (.value 10 (.ident (c! "x"))) 11 4] none

/-- `hash(to_str(x))`. -/
def shallowHash : Expr := .call 1 (c! "hash") [toStrs (.value 10 (.ident (c! "x"))) 11 1] none

/-- `"b"`. -/
def strB : Expr := .value 2 (.litStr (c! "\"b\"") (c! "b"))

/-- **C78** is false for `hash` of a string: `hash(to_str(to_str(to_str(to_str(x)))))` and `"b"` are strings, and there is a row for `concat` of strings which
gives a string, but `concat(hash(to_str(to_str(to_str(to_str(x))))), "b")` is an identifier. With a single `to_str` it is a string. -/
theorem C78_false : ∃ sc1 sc2 sc3 sc4 sc5 : Scope,
    (⟨c! "concat", [.variadic .litStr], .litStr⟩ : Sig) ∈ reference ∧
    (Expr.resolve (Env.builtin 1) strB none Scope.empty = .ok sc1 ∧ recTy sc1.md strB.id = some .litStr) ∧
    (Expr.resolve (Env.builtin 1) deepHash none Scope.empty = .ok sc2 ∧ recTy sc2.md deepHash.id = some .litStr) ∧
    (Expr.resolve (Env.builtin 1) (.call 0 (c! "concat") [deepHash, strB] none) none Scope.empty = .ok sc3 ∧ recTy sc3.md 0 = some .ident) ∧
    (Expr.resolve (Env.builtin 1) shallowHash none Scope.empty = .ok sc4 ∧ recTy sc4.md shallowHash.id = some .litStr) ∧
    (Expr.resolve (Env.builtin 1) (.call 0 (c! "concat") [shallowHash, strB] none) none Scope.empty = .ok sc5 ∧ recTy sc5.md 0 = some .litStr) :=
  ⟨_, _, _, _, _, by decide +kernel, ⟨rfl, rfl⟩, ⟨rfl, rfl⟩, ⟨rfl, rfl⟩, ⟨rfl, rfl⟩, ⟨rfl, rfl⟩⟩

/-! ## Definitions -/

/-- The types of a list of definitions by the tables: each may use those before it. -/
inductive Declares : TyEnv → List (Str × Expr) → List (Str × Ty) → Prop
  | nil {Γ : TyEnv} : Declares Γ [] []
  | cons {Γ : TyEnv} {name : Str} {e : Expr} {t : Ty} {defs : List (Str × Expr)} {tys : List (Str × Ty)} (h : HasType Γ e t) (hn : Γ name = none)
      (hs : Declares (fun n => if n = name then some t else Γ n) defs tys) : Declares Γ ((name, e) :: defs) ((name, t) :: tys)

theorem declares_check {Γ : TyEnv} {defs : List (Str × Expr)} {tys : List (Str × Ty)} (h : Declares Γ defs tys) :
    ∃ tes, checkSpec builtinFuncs defs Γ = .ok tes ∧ tes.map (fun p => (p.1, p.2.target)) = tys := by
  induction h with
  | nil => exact ⟨[], rfl, rfl⟩
  | @cons Γ name e t defs tys h hn _ ih =>
    obtain ⟨tes, h1, rfl⟩ := ih
    obtain ⟨c, te, hp, rfl⟩ := hasType_princ h
    refine ⟨(name, te) :: tes, ?_, rfl⟩
    have h2 : checkSpec builtinFuncs defs (extend Γ name te.target) = .ok tes := h1
    simp only [checkSpec, princ_check hp, hn, Option.isSome_none, Bool.false_eq_true, if_false, h2]

/-- **C78**, for definitions: definitions which have types by the tables are not rejected when types are checked, and the values they stand for have those types. -/
theorem C78_values {E : Ext} {env : Env} {order : List (Alias × VKind) → List (Alias × VKind)} {items : List (Alias × Expr)} (henv : env.funcs = builtinFuncs)
    (hN : (specIds items).Nodup) (ho : IsOrder order) {tys : List (Str × Ty)} (hd : Declares (fun _ => none) (items.map fun i => (i.1.2, i.2)) tys) :
    (∀ x, resolveSpec env items Scope.empty ≠ .err x) ∧
    ∀ subs, makeSubstitutions E env order items = .ok subs → ∀ p ∈ tys, ∃ v, subs.get p.1 = some v ∧ v.ty = p.2 := by
  obtain ⟨tes, hc, rfl⟩ := declares_check hd
  constructor
  · intro x hx
    rcases resolveSpec_spec items (env := env) agrees_empty (clean_empty _) hN with ⟨h1, -⟩ | h1
    · rw [hx] at h1; cases h1
    · rw [henv] at h1
      rw [show named items = items.map fun i => (i.1.2, i.2) from rfl, hc] at h1
      obtain ⟨sc, h1, -⟩ := h1
      rw [hx] at h1; cases h1
  · intro subs hsub p hp
    obtain ⟨vs, hde, hg⟩ := same_denote_ok hN ho hsub
    have hnd := (denote_names hde).2
    unfold denote at hde
    rw [henv, show named items = items.map fun i => (i.1.2, i.2) from rfl, hc] at hde
    simp only at hde
    rcases evalSpecT_sound (E := E) (env := env) henv (by rw [henv]; exact hc) typed_empty with ⟨vs', hv, hty⟩ | ⟨x, hx, -⟩ | ⟨hx, -⟩
    · rw [hde] at hv
      cases hv
      rw [← hty] at hp
      obtain ⟨q, hq, rfl⟩ := List.mem_map.1 hp
      exact ⟨q.2, by rw [hg]; exact (Subs.get_eq_some hnd).2 hq, rfl⟩
    · rw [hde] at hx; cases hx
    · rw [hde] at hx; cases hx

/-- Example: `x = 1, y = concat(x, 2)` are integers. -/
example : ∃ (items : List (Alias × Expr)) (subs : Subs) (a b : IntLit), (specIds items).Nodup ∧
    Declares (fun _ => none) (items.map fun i => (i.1.2, i.2)) [(c! "x", .litInt), (c! "y", .litInt)] ∧
    makeSubstitutions Ext.demo (Env.builtin 0) id items = .ok subs ∧ subs.get (c! "x") = some (.litInt a) ∧ subs.get (c! "y") = some (.litInt b) := by
  refine ⟨[((0, c! "x"), .value 1 (.litInt ⟨false, c! "1", 1⟩)),
    ((2, c! "y"), .call 3 (c! "concat") [.value 4 (.ident (c! "x")), .value 5 (.litInt ⟨false, c! "2", 2⟩)] none)], _, ⟨false, c! "1", 1⟩, ⟨false, c! "12", 12⟩, by decide, ?_, rfl, rfl, rfl⟩
  refine .cons (.value 1 _) rfl (.cons ?_ (by decide) .nil)
  exact C78_exact_row_partial (r := ⟨c! "concat", [.variadic .litInt], .litInt⟩) (tys := [.litInt, .litInt])
    (.cons (.value 4 (.ident (c! "x"))) (.cons (.value 5 _) .nil)) (by decide +kernel) (.many (by decide)) (by decide) 3 (by decide)

end Verif.Props
