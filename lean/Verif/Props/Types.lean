import Verif.Proofs.Builtins
import Verif.Model.Demo
/-! # Properties C19–C21: coercions and casts -/

namespace Verif.Props
open Verif

/-- The implicit coercions of the documentation between types of single values. -/
inductive CoercesTo : Ty → Ty → Prop
  | same (t : Ty) : CoercesTo t t
  | identPath : CoercesTo .ident .path
  | identType : CoercesTo .ident .type
  | identExpr : CoercesTo .ident .expr
  | tokens (t : Ty) : CoercesTo t .tokens
  | raw (t : Ty) : CoercesTo t .raw

/-- The same, with variadic types coerced by element. -/
inductive CoercesToV : Ty → Ty → Prop
  | base {a b : Ty} : CoercesTo a b → CoercesToV a b
  | elems {a b : Ty} : CoercesTo a b → CoercesToV (.variadic a) (.variadic b)

theorem coercesTo_iff {a b : Ty} : (coercionCostBasic a b).isSome = true ↔ CoercesTo a b := by
  constructor
  · intro h
    unfold coercionCostBasic at h
    split at h
    · subst_vars; exact .same _
    · split at h <;> first | constructor | simp at h
  · intro h
    unfold coercionCostBasic
    cases h <;> (split <;> (try rfl)) <;> (try (split <;> simp_all)) <;> simp_all

/-- **C19**: what is accepted is exactly what is documented. -/
theorem C19_accepted_iff (a b : Ty) : (∃ c, coercionCost a b = some c) ↔ CoercesToV a b := by
  rw [← Option.isSome_iff_exists]
  constructor
  · intro h
    unfold coercionCost at h
    split at h
    · exact .elems (coercesTo_iff.1 h)
    · exact .base (coercesTo_iff.1 h)
  · intro h
    cases h with
    | base h =>
      unfold coercionCost
      split
      · cases h with
        | same => simp [coercionCostBasic]
      · exact coercesTo_iff.2 h
    | elems h => simpa [coercionCost] using coercesTo_iff.2 h

/-- **C19**: the costs order the coercions: none is free except the identity, and the nearer kind is preferred. -/
theorem C19_costs :
    (∀ t, coercionCost t t = some 0) ∧ (∀ a b, coercionCost a b = some 0 → a = b) ∧
    coercionCost .ident .path = some 1 ∧ coercionCost .ident .type = some 2 ∧ coercionCost .ident .expr = some 3 ∧
    (∀ t, t ≠ .tokens → coercionCost t .tokens = some 4) ∧ (∀ t, t ≠ .raw → coercionCost t .raw = some 5) := by
  refine ⟨?_, ?_, by decide, by decide, by decide, ?_, ?_⟩
  · intro t; cases t <;> simp [coercionCost, coercionCostBasic]
  · intro a b h
    unfold coercionCost at h
    split at h
    · unfold coercionCostBasic at h
      split at h
      · subst_vars; rfl
      · split at h <;> simp at h
    · unfold coercionCostBasic at h
      split at h
      · assumption
      · split at h <;> simp at h
  · intro t h; cases t <;> simp_all [coercionCost, coercionCostBasic]
  · intro t h; cases t <;> simp_all [coercionCost, coercionCostBasic]

/-- A coercion that is accepted, one that is not, and a variadic one. -/
example : coercionCost .litStr .tokens = some 4 ∧ coercionCost .litStr .ident = none ∧
    coercionCost (.variadic .ident) (.variadic .path) = some 1 ∧
    coercionCost (.variadic (.variadic .ident)) (.variadic (.variadic .path)) = none := by decide

/-- The identifier of a value, if it is an identifier, is not a keyword. -/
def NotKeyword (v : VKind) : Prop := ∀ s, v = .ident s → s ∉ keywords

/-- Rust grammar: a single identifier that is not a keyword is a type and an expression. -/
def PlainIdents (E : Ext) : Prop :=
  ∀ s, s ∉ keywords → E.isType [.ident s] = true ∧ E.isExpr [.ident s] = true

/-- **C20** (all values but keyword identifiers): an accepted coercion succeeds, has the requested type and keeps the
tokens. Missing: identifiers that are keywords (see `C20_coercions_succeed_false`); for these everything but the
coercions to types and expressions is `C20_coercions_succeed_other`. -/
theorem C20_coercions_succeed_partial {E : Ext} (hE : PlainIdents E) (v : VKind) (to : Ty)
    (hk : NotKeyword v) (h : CoercesToV v.ty to) :
    ∃ w, tryCast E v to = .ok w ∧ w.ty = to ∧ w.toTokens = v.toTokens := by
  unfold tryCast
  by_cases he : v.ty = to
  · exact ⟨v, by simp [he], he, rfl⟩
  · rw [if_neg he]
    cases v <;> simp only [VKind.ty] at h he <;> cases h with
    | base h => cases h <;> first
      | exact absurd rfl he
      | (have := hE _ (hk _ rfl); simp [this, VKind.ty, VKind.toTokens])
      | exact ⟨_, rfl, rfl, rfl⟩

/-- **C20**: coercions to anything but types and expressions succeed for every value. -/
theorem C20_coercions_succeed_other (E : Ext) (v : VKind) (to : Ty)
    (h : CoercesToV v.ty to) (ht : to ≠ .type) (hx : to ≠ .expr) :
    ∃ w, tryCast E v to = .ok w ∧ w.ty = to ∧ w.toTokens = v.toTokens := by
  unfold tryCast
  by_cases he : v.ty = to
  · exact ⟨v, by simp [he], he, rfl⟩
  · rw [if_neg he]
    cases v <;> simp only [VKind.ty] at h he <;> cases h with
    | base h => cases h <;> first
      | exact absurd rfl he
      | exact absurd rfl ht
      | exact absurd rfl hx
      | exact ⟨_, rfl, rfl, rfl⟩

theorem demo_plainIdents : PlainIdents Ext.demo := by
  intro s h
  have : keywords.contains s = false := by simpa [List.contains_iff_mem] using h
  simp [Ext.demo, demoPathSegs, h]

example : tryCast Ext.demo (.ident (S "Foo")) .type = .ok (.type [.ident (S "Foo")]) ∧
    NotKeyword (.ident (S "Foo")) := by
  refine ⟨by decide, ?_⟩
  intro s h; cases h; decide

/-- **C20** is false for identifiers that are keywords, which `concat` can make: the accepted coercion of `fn` to a
type is an error for every grammar in which `fn` is not a type. -/
theorem C20_coercions_succeed_false :
    ∃ (E : Ext), PlainIdents E ∧ E.isType [.ident (S "fn")] = false ∧
      (concatIdents 0).impl E 0 [.ident (S "f"), .ident (S "n")] = .ok (.ident (S "fn")) ∧
      CoercesToV (VKind.ident (S "fn")).ty .type ∧ tryCast E (.ident (S "fn")) .type = .err (castError .ident .type) :=
  ⟨Ext.demo, demo_plainIdents, by decide, by decide, .base .identType, by decide⟩

/-! ## C21: explicit casts -/

variable {E : Ext} {seed : Nat}

/-- **C21**: `to_path`, `to_type`, `to_expr` keep the tokens. -/
theorem C21_grammar_casts {f : Func} (hf : Builtin "to_path" f ∨ Builtin "to_type" f ∨ Builtin "to_expr" f)
    {ts : Toks} {w : VKind} (h : f.impl E seed [.tokens ts] = .ok w) : w.ty = f.out ∧ w.toTokens = ts := by
  simp only [builtin_iff builtin_to_path, builtin_iff builtin_to_type, builtin_iff builtin_to_expr,
    List.mem_singleton] at hf
  rcases hf with rfl | rfl | rfl
  all_goals
    simp only [castFunc, tryCast, VKind.ty, reduceCtorEq, if_false] at h
    split at h
    · cases h; exact ⟨rfl, rfl⟩
    · cases h

/-- **C21**: `to_int` keeps the tokens (of a minus sign, up to its spacing flag, which is never set before a literal). -/
theorem C21_to_int {f : Func} (hf : Builtin "to_int" f) {ts : Toks} {w : VKind}
    (hj : ∀ l, ts ≠ [.punct '-' true, l])
    (h : f.impl E seed [.tokens ts] = .ok w) : w.ty = f.out ∧ w.toTokens = ts := by
  simp only [builtin_iff builtin_to_int, List.mem_singleton] at hf
  subst hf
  simp only [castFunc, tryCast, VKind.ty, VKind.toTokens, reduceCtorEq, if_false] at h
  unfold parseLitInt at h
  split at h
  · cases h; exact ⟨rfl, rfl⟩
  · rename_i j r v
    cases h
    cases j with
    | false => exact ⟨rfl, rfl⟩
    | true => exact absurd rfl (hj _)
  · cases h

/-- **C21**: `to_ident` succeeds exactly on a non-keyword identifier, which is kept, and on a string literal whose text
is such an identifier, which gives that identifier. -/
theorem C21_to_ident {f : Func} (hf : Builtin "to_ident" f) (ts : Toks) (w : VKind) :
    f.impl E seed [.tokens ts] = .ok w ↔
      ∃ s, w = .ident s ∧ s ∉ keywords ∧
        (ts = [.ident s] ∨ ∃ r v, ts = [.lit (.str r v)] ∧ E.lex v = some [.ident s]) := by
  simp only [builtin_iff builtin_to_ident, List.mem_singleton] at hf
  subst hf
  have hid : ∀ us : Toks, ∀ s, parseIdent us = some s ↔ us = [.ident s] ∧ s ∉ keywords := by
    intro us s
    unfold parseIdent
    split
    · split <;> simp_all
      · rename_i h; intro e; subst e; exact h
      · rename_i h; intro e; subst e; exact h
    · rename_i h
      simp only [reduceCtorEq, false_iff, not_and]
      intro e; exact absurd e (h s)
  simp only [castFunc, tryCast, VKind.ty, VKind.toTokens, reduceCtorEq, if_false]
  cases hl : parseLitStr ts with
  | some p =>
    obtain ⟨r, v⟩ := p
    have : ts = [.lit (.str r v)] := by
      unfold parseLitStr at hl; split at hl <;> simp_all
    subst this
    simp only [litStrAsIdent, parseStrIdent]
    cases hx : E.lex v with
    | none => simp [Res.ofOption, Res.map, hx]
    | some us =>
      simp only [Option.bind_some]
      cases hp : parseIdent us with
      | none =>
        simp only [Res.ofOption, Res.map, reduceCtorEq, false_iff]
        rintro ⟨s, rfl, hk, h | ⟨r', v', h, h'⟩⟩
        · cases h
        · cases h; rw [hx] at h'; cases h'
          have := (hid _ s).2 ⟨rfl, hk⟩
          rw [hp] at this; cases this
      | some s =>
        obtain ⟨rfl, hk⟩ := (hid _ _).1 hp
        simp only [Res.ofOption, Res.map, Res.ok.injEq]
        constructor
        · rintro rfl; exact ⟨s, rfl, hk, Or.inr ⟨r, v, rfl, hx⟩⟩
        · rintro ⟨s', rfl, hk, h | ⟨r', v', h, h'⟩⟩
          · cases h
          · cases h; rw [hx] at h'; cases h'; rfl
  | none =>
    cases hp : parseIdent ts with
    | none =>
      simp only [Res.ofOption, Res.map, reduceCtorEq, false_iff]
      rintro ⟨s, rfl, hk, h | ⟨r', v', h, h'⟩⟩
      · have := (hid _ s).2 ⟨h, hk⟩
        rw [hp] at this; cases this
      · rw [h] at hl; cases hl
    | some s =>
      obtain ⟨rfl, hk⟩ := (hid _ _).1 hp
      simp only [Res.ofOption, Res.map, Res.ok.injEq]
      constructor
      · rintro rfl; exact ⟨s, rfl, hk, Or.inl rfl⟩
      · rintro ⟨s', rfl, hk, h | ⟨r', v', h, h'⟩⟩
        · cases h; rfl
        · cases h

/-- **C21**: `to_str` gives the name of an identifier or keeps a string literal; nothing else is accepted. -/
theorem C21_to_str {f : Func} (hf : Builtin "to_str" f) (ts : Toks) (w : VKind) :
    f.impl E seed [.tokens ts] = .ok w ↔
      (∃ s, ts = [.ident s] ∧ s ∉ keywords ∧ w = .litStr (E.strRepr s) s) ∨
      (∃ r v, ts = [.lit (.str r v)] ∧ w = .litStr r v) := by
  simp only [builtin_iff builtin_to_str, List.mem_singleton] at hf
  subst hf
  simp only [castFunc, tryCast, VKind.ty, VKind.toTokens, reduceCtorEq, if_false]
  unfold parseIdent
  split
  · rename_i h
    split at h
    · rename_i s
      split at h
      · cases h
      · cases h
        rename_i hk
        simp only [List.contains_iff_mem] at hk
        simp [newLitStr, hk, eq_comm]
    · cases h
  · rename_i h
    unfold parseLitStr
    split
    · simp only [Res.ofOption, Res.map, Res.ok.injEq, List.cons.injEq, reduceCtorEq, false_and, exists_false, false_or]
      constructor
      · rintro rfl; exact ⟨_, _, ⟨rfl, trivial⟩, rfl⟩
      · rintro ⟨_, _, ⟨h, -⟩, rfl⟩; cases h; rfl
    · rename_i h2
      simp only [Res.ofOption, Res.map, reduceCtorEq, false_iff, not_or, not_exists, not_and]
      refine ⟨?_, fun r v e => absurd e (h2 r v)⟩
      rintro s rfl hk
      simp [hk] at h

/-- **C21**, round trip: `to_str` then `to_ident` gives back every identifier the lexer reads as itself. -/
theorem C21_round_trip {f g : Func} (hf : Builtin "to_str" f) (hg : Builtin "to_ident" g) {s : Str}
    (hk : s ∉ keywords) (hx : E.lex s = some [.ident s]) :
    ∃ w, f.impl E seed [.tokens [.ident s]] = .ok w ∧ g.impl E seed [.tokens w.toTokens] = .ok (.ident s) := by
  refine ⟨.litStr (E.strRepr s) s, (C21_to_str hf _ _).2 (Or.inl ⟨s, rfl, hk, rfl⟩), ?_⟩
  exact (C21_to_ident hg _ _).2 ⟨s, rfl, hk, Or.inr ⟨_, _, rfl, hx⟩⟩

/-- **C21**: `to_tokens` and `raw` return the tokens. -/
theorem C21_to_tokens_raw (ts : Toks) :
    (∀ f, Builtin "to_tokens" f → f.impl E seed [.tokens ts] = .ok (.tokens ts)) ∧
    (∀ f, Builtin "raw" f → f.impl E seed [.raw ts] = .ok (.tokens ts)) := by
  refine ⟨fun f hf => ?_, fun f hf => ?_⟩
  · simp only [builtin_iff builtin_to_tokens, List.mem_singleton] at hf
    subst hf; rfl
  · simp only [builtin_iff builtin_raw, List.mem_singleton] at hf
    subst hf; rfl

example : Builtin "to_str" (castFunc 30 c! "to_str" .litStr) ∧ Builtin "to_ident" (castFunc 26 c! "to_ident" .ident) ∧
    Ext.demo.lex (S "foo") = some [.ident (S "foo")] ∧ S "foo" ∉ keywords :=
  ⟨⟨_, rfl, .head _⟩, ⟨_, rfl, .head _⟩, by decide, by decide⟩
example : Builtin "to_path" (castFunc 27 c! "to_path" .path) ∧
    (castFunc 27 c! "to_path" .path).impl Ext.demo 0 [.tokens [.ident (S "a")]] = .ok (.path [.ident (S "a")]) :=
  ⟨⟨_, rfl, .head _⟩, by decide⟩
example : Builtin "to_int" (castFunc 31 c! "to_int" .litInt) ∧
    (castFunc 31 c! "to_int" .litInt).impl Ext.demo 0 [.tokens [.punct '-' false, .lit (.int (S "7") 7)]]
      = .ok (.litInt ⟨true, S "7", 7⟩) :=
  ⟨⟨_, rfl, .head _⟩, by decide⟩
example : Builtin "raw" (rawFunc 33) ∧ Builtin "to_tokens" (toTokensFunc 32) := ⟨⟨_, rfl, .head _⟩, ⟨_, rfl, .head _⟩⟩

end Verif.Props
