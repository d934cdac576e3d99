import Verif.Proofs.Funcs
import Verif.Props.Normalize
import Verif.Model.Demo
/-! # Properties C30–C32 and C36: what the built-in functions compute -/

namespace Verif.Props
open Verif Spec

variable {E : Ext} {seed : Nat}

theorem lexIdent_iff {C : CharClass} {s : Str} : C.lexIdent s = true ↔ ValidIdent C s := by
  cases s with
  | nil => simp [CharClass.lexIdent, ValidIdent]
  | cons c cs =>
    simp only [CharClass.lexIdent, ValidIdent, Bool.and_eq_true, Bool.or_eq_true, beq_iff_eq, List.all_eq_true]
    constructor
    · rintro ⟨h1, h2⟩; exact ⟨c, cs, rfl, h1, h2⟩
    · rintro ⟨_, _, h, h1, h2⟩; cases h; exact ⟨h1, h2⟩

/-! ## C30: `concat` -/

/-- The overload of `concat` taking any number of values of one type. -/
def ConcatOf (t : Ty) (f : Func) : Prop := Builtin "concat" f ∧ f.args = [.variadic t]

/-- The overload of `concat` for an identifier and any tokens. -/
def ConcatMixed (f : Func) : Prop := Builtin "concat" f ∧ f.args = [.ident, .variadic .tokens]

theorem concatOf_ident {f : Func} (h : ConcatOf .ident f) : f = concatIdents 21 := by
  obtain ⟨h, ha⟩ := h
  simp only [builtin_iff builtin_concat, List.mem_cons, List.not_mem_nil, or_false] at h
  rcases h with rfl | rfl | rfl | rfl | rfl <;> first | rfl | (exact absurd ha (by decide))

theorem concatOf_litStr {f : Func} (h : ConcatOf .litStr f) : f = concatLitStrs 23 := by
  obtain ⟨h, ha⟩ := h
  simp only [builtin_iff builtin_concat, List.mem_cons, List.not_mem_nil, or_false] at h
  rcases h with rfl | rfl | rfl | rfl | rfl <;> first | rfl | (exact absurd ha (by decide))

theorem concatOf_litInt {f : Func} (h : ConcatOf .litInt f) : f = concatLitInts 24 := by
  obtain ⟨h, ha⟩ := h
  simp only [builtin_iff builtin_concat, List.mem_cons, List.not_mem_nil, or_false] at h
  rcases h with rfl | rfl | rfl | rfl | rfl <;> first | rfl | (exact absurd ha (by decide))

theorem concatOf_tokens {f : Func} (h : ConcatOf .tokens f) : f = concatTokens 25 := by
  obtain ⟨h, ha⟩ := h
  simp only [builtin_iff builtin_concat, List.mem_cons, List.not_mem_nil, or_false] at h
  rcases h with rfl | rfl | rfl | rfl | rfl <;> first | rfl | (exact absurd ha (by decide))

theorem concatMixed {f : Func} (h : ConcatMixed f) : f = concatIdentTokens 22 := by
  obtain ⟨h, ha⟩ := h
  simp only [builtin_iff builtin_concat, List.mem_cons, List.not_mem_nil, or_false] at h
  rcases h with rfl | rfl | rfl | rfl | rfl <;> first | rfl | (exact absurd ha (by decide))

/-- **C30**, identifiers: the result is the concatenation, provided that is an identifier. -/
theorem C30_concat_idents {f : Func} (hf : ConcatOf .ident f) (ss : List Str) (w : VKind) :
    f.impl E seed (ss.map .ident) = .ok w ↔ w = .ident ss.flatten ∧ ValidIdent E.toCharClass ss.flatten := by
  rw [concatOf_ident hf]
  simp only [concatIdents, Res.bind_eq, allOf_map (sel := VKind.asIdent) (mk := .ident) (fun _ => rfl), Res.bind_ok,
    newIdent_ok, concatStrs, lexIdent_iff]
  exact And.comm

/-- **C30**, strings: the value is the concatenation of the values. -/
theorem C30_concat_strings {f : Func} (hf : ConcatOf .litStr f) (ss : List (Str × Str)) :
    f.impl E seed (ss.map (fun p => .litStr p.1 p.2))
      = .ok (.litStr (E.strRepr (ss.map (·.2)).flatten) (ss.map (·.2)).flatten) := by
  rw [concatOf_litStr hf]
  have : ∀ ss : List (Str × Str), allOf VKind.asLitStr (ss.map (fun p => .litStr p.1 p.2)) = .ok (ss.map (·.2)) := by
    intro ss
    induction ss with
    | nil => rfl
    | cons p ss ih => simp [allOf, VKind.asLitStr, ih, Res.map]
  simp only [concatLitStrs, Res.bind_eq, this, Res.bind_ok, newLitStr, concatStrs]

/-- **C30**, tokens: the tokens of the arguments one after the other. -/
theorem C30_concat_tokens {f : Func} (hf : ConcatOf .tokens f) (tss : List Toks) :
    f.impl E seed (tss.map .tokens) = .ok (.tokens tss.flatten) := by
  rw [concatOf_tokens hf]
  simp only [concatTokens, Res.bind_eq, allOf_map (sel := VKind.asTokens) (mk := .tokens) (fun _ => rfl), Res.bind_ok]

/-- **C30**, an identifier and tokens: the printed texts are concatenated and must read as one identifier that is not
a keyword. -/
theorem C30_concat_mixed {f : Func} (hf : ConcatMixed f) (s : Str) (tss : List Toks) (w : VKind) :
    f.impl E seed (.ident s :: tss.map .tokens) = .ok w ↔
      ∃ t, w = .ident t ∧ E.lex (E.render [.ident s] ++ (tss.map E.render).flatten) = some [.ident t] ∧
        t ∉ keywords := by
  rw [concatMixed hf]
  simp only [concatIdentTokens, Res.bind_eq, allOf_map (sel := VKind.asTokens) (mk := .tokens) (fun _ => rfl),
    Res.bind_ok, VKind.toTokens, concatStrs, List.flatten_cons, parseStrIdent]
  cases hx : E.lex (E.render [.ident s] ++ (tss.map E.render).flatten) with
  | none => simp
  | some us =>
    simp only [Option.bind_some, Option.some.injEq]
    unfold parseIdent
    split
    · rename_i h
      split at h
      · split at h
        · cases h
        · cases h
          rename_i hk
          simp only [List.contains_iff_mem] at hk
          simp only [Res.ok.injEq, List.cons.injEq, Tok.ident.injEq, and_true]
          constructor
          · rintro rfl; exact ⟨_, rfl, rfl, hk⟩
          · rintro ⟨_, rfl, rfl, -⟩; rfl
      · cases h
    · rename_i h
      simp only [reduceCtorEq, false_iff, not_exists, not_and]
      rintro t rfl rfl hk
      simp [hk] at h

/-- **C30**, nested `concat`s can be flattened: identifiers, strings and tokens. (A nested value is the one computed by
the inner call.) -/
theorem C30_flatten :
    (∀ f, ConcatOf .ident f → ∀ (a b c : List Str) (w : VKind), f.impl E seed (b.map .ident) = .ok w →
      f.impl E seed (a.map .ident ++ w :: c.map .ident) = f.impl E seed ((a ++ b ++ c).map .ident)) ∧
    (∀ f, ConcatOf .litStr f → ∀ (a b c : List (Str × Str)) (w : VKind),
      f.impl E seed (b.map (fun p => .litStr p.1 p.2)) = .ok w →
      f.impl E seed (a.map (fun p => .litStr p.1 p.2) ++ w :: c.map (fun p => .litStr p.1 p.2))
        = f.impl E seed ((a ++ b ++ c).map (fun p => .litStr p.1 p.2))) ∧
    (∀ f, ConcatOf .tokens f → ∀ (a b c : List Toks) (w : VKind), f.impl E seed (b.map .tokens) = .ok w →
      f.impl E seed (a.map .tokens ++ w :: c.map .tokens) = f.impl E seed ((a ++ b ++ c).map .tokens)) := by
  refine ⟨?_, ?_, ?_⟩
  · intro f hf a b c w h
    obtain ⟨rfl, -⟩ := (C30_concat_idents hf _ _).1 h
    rw [show a.map VKind.ident ++ .ident b.flatten :: c.map .ident = (a ++ b.flatten :: c).map .ident by simp]
    rw [concatOf_ident hf]
    simp only [concatIdents, allOf_map (sel := VKind.asIdent) (mk := .ident) (fun _ => rfl), concatStrs]
    simp
  · intro f hf a b c w h
    rw [C30_concat_strings hf] at h
    cases h
    have := C30_concat_strings (E := E) (seed := seed) hf (a ++ (E.strRepr (b.map (·.2)).flatten, (b.map (·.2)).flatten) :: c)
    simp only [List.map_append, List.map_cons] at this
    rw [this, C30_concat_strings hf]
    simp
  · intro f hf a b c w h
    rw [C30_concat_tokens hf] at h
    cases h
    have := C30_concat_tokens (E := E) (seed := seed) hf (a ++ b.flatten :: c)
    simp only [List.map_append, List.map_cons] at this
    rw [this, C30_concat_tokens hf]
    simp

example : ConcatOf .ident (concatIdents 21) ∧ ConcatOf .litStr (concatLitStrs 23) ∧ ConcatOf .tokens (concatTokens 25) ∧
    ConcatOf .litInt (concatLitInts 24) ∧ ConcatMixed (concatIdentTokens 22) :=
  ⟨⟨(builtin_iff builtin_concat).2 (by simp), rfl⟩, ⟨(builtin_iff builtin_concat).2 (by simp), rfl⟩,
   ⟨(builtin_iff builtin_concat).2 (by simp), rfl⟩, ⟨(builtin_iff builtin_concat).2 (by simp), rfl⟩,
   ⟨(builtin_iff builtin_concat).2 (by simp), rfl⟩⟩
example : (concatIdents 21).impl Ext.demo 0 [.ident (S "a"), .ident (S "_1")] = .ok (.ident (S "a_1")) := by decide
example : (concatIdentTokens 22).impl Ext.demo 0 [.ident (S "a"), .tokens [.lit (.int (S "1") 1)]]
    = .ok (.ident (S "a1")) := by decide

/-! ## C31: `concat` of integers -/

/-- A nonnegative integer value. -/
def intVal (p : Str × Nat) : VKind := .litInt ⟨false, p.1, p.2⟩

/-- The digits of the arguments in order. -/
def digitsOf (l : List (Str × Nat)) : Str := (l.map (fun p => decimal p.2)).flatten

theorem digitsOf_isDigit {l : List (Str × Nat)} : ∀ c ∈ digitsOf l, c.isDigit = true := by
  intro c hc
  simp only [digitsOf, List.mem_flatten, List.mem_map] at hc
  obtain ⟨s, ⟨p, -, rfl⟩, h⟩ := hc
  exact decimal_digits c h

theorem digitsOf_ne_nil {l : List (Str × Nat)} (h : l ≠ []) : digitsOf l ≠ [] := by
  cases l with
  | nil => exact absurd rfl h
  | cons p l => simp [digitsOf, decimal_ne_nil]

/-- **C31**: nonnegative integers give the literal whose digits are the digits of the arguments in order. -/
theorem C31_concat_ints {f : Func} (hf : ConcatOf .litInt f) {l : List (Str × Nat)} (hne : l ≠ []) :
    f.impl E seed (l.map intVal) = .ok (.litInt ⟨false, digitsOf l, ofDecimal (digitsOf l)⟩) := by
  rw [concatOf_litInt hf]
  have : ∀ l : List (Str × Nat), allOf VKind.asLitInt (l.map intVal) = .ok (l.map (fun p => ⟨false, p.1, p.2⟩)) := by
    intro l
    induction l with
    | nil => rfl
    | cons p l ih => simp [allOf, VKind.asLitInt, intVal, ih, Res.map]
  have h2 : concatStrs ((l.map (fun p => (⟨false, p.1, p.2⟩ : IntLit))).map IntLit.digits) = digitsOf l := by
    simp [concatStrs, digitsOf, List.map_map, Function.comp_def, IntLit.digits]
  simp only [concatLitInts, Res.bind_eq, this, Res.bind_ok, h2,
    newLitInt_digits (digitsOf_ne_nil hne) digitsOf_isDigit]

theorem ofDecimal_append_all (a : Str) : ∀ b : Str, ofDecimal (a ++ b) = ofDecimal a * 10 ^ b.length + ofDecimal b := by
  suffices h : ∀ (n : Nat) (b : Str), b.length = n → ofDecimal (a ++ b) = ofDecimal a * 10 ^ n + ofDecimal b from fun b => h _ b rfl
  intro n
  induction n with
  | zero =>
    intro b hb
    rw [List.length_eq_zero_iff] at hb
    subst hb
    simp [ofDecimal]
  | succ n ih =>
    intro b hb
    have hne : b ≠ [] := by rintro rfl; simp at hb
    have hb' : b.dropLast ++ [b.getLast hne] = b := List.dropLast_concat_getLast hne
    have ih := ih b.dropLast (by simp [hb])
    rw [← hb', ← List.append_assoc, ofDecimal_append, ofDecimal_append, ih, Nat.pow_succ, Nat.mul_add, ← Nat.mul_assoc, Nat.mul_comm _ 10, Nat.add_assoc,
      Nat.mul_assoc, Nat.mul_left_comm]

/-- **C31**, the number: that of one integer is this integer; a further integer shifts the number by as many digits as it has, and is added. -/
theorem C31_number {f : Func} (hf : ConcatOf .litInt f) (l : List (Str × Nat)) (p : Str × Nat) :
    (∃ r, f.impl E seed [intVal p] = .ok (.litInt ⟨false, r, p.2⟩)) ∧
    (l ≠ [] → ∃ r r' v, f.impl E seed (l.map intVal) = .ok (.litInt ⟨false, r, v⟩) ∧
      f.impl E seed ((l ++ [p]).map intVal) = .ok (.litInt ⟨false, r', v * 10 ^ (Nat.toDigits 10 p.2).length + p.2⟩)) := by
  have one : ofDecimal (digitsOf [p]) = p.2 := by simp [digitsOf, ofDecimal_decimal]
  refine ⟨⟨digitsOf [p], ?_⟩, fun hl => ⟨_, digitsOf (l ++ [p]), _, C31_concat_ints hf hl, ?_⟩⟩
  · have := C31_concat_ints (E := E) (seed := seed) hf (l := [p]) (by simp)
    rw [one] at this
    exact this
  · rw [C31_concat_ints hf (by simp)]
    have e : digitsOf (l ++ [p]) = digitsOf l ++ decimal p.2 := by simp [digitsOf]
    rw [e, ofDecimal_append_all, ofDecimal_decimal]
    rfl

-- `concat(12, 0x3)` is 123
example : ConcatOf .litInt (concatLitInts 24) ∧ [(c! "12", 12)] ≠ [] ∧ (concatLitInts 24).impl Ext.demo 0 (([(c! "12", 12)] ++ [(c! "0x3", 3)]).map intVal) =
    .ok (.litInt ⟨false, c! "123", 12 * 10 ^ 1 + 3⟩) :=
  ⟨⟨(builtin_iff builtin_concat).2 (by simp), rfl⟩, nofun, by decide⟩

/-- **C31**, with signs: the first integer may be negative, and then so is the result; a negative integer after the first
makes `concat` crash. -/
theorem C31_concat_signed {f : Func} (hf : ConcatOf .litInt f) (i : IntLit) (l : List IntLit) :
    ((∀ j ∈ l, j.neg = false) → ∃ ds, ds = ((i :: l).map (fun j => Nat.toDigits 10 j.val)).flatten ∧
      f.impl E seed ((i :: l).map .litInt) = .ok (.litInt ⟨i.neg, ds, ofDecimal ds⟩)) ∧
    ((∃ j ∈ l, j.neg = true) → f.impl E seed ((i :: l).map .litInt) = .panic) := by
  rw [concatOf_litInt hf]
  simp only [concatLitInts, Res.bind_eq, allOf_map (sel := VKind.asLitInt) (mk := .litInt) (fun _ => rfl), Res.bind_ok]
  have hdig : ∀ l : List IntLit, (∀ j ∈ l, j.neg = false) →
      l.map IntLit.digits = l.map (fun j => Nat.toDigits 10 j.val) := by
    intro l h
    refine List.map_congr_left fun j hj => ?_
    simp [IntLit.digits, h j hj, decimal]
  have hall : ∀ l : List IntLit, ∀ c ∈ (l.map (fun j => Nat.toDigits 10 j.val)).flatten, c.isDigit = true := by
    intro l c hc
    simp only [List.mem_flatten, List.mem_map] at hc
    obtain ⟨s, ⟨j, -, rfl⟩, h⟩ := hc
    exact decimal_digits c h
  have hne : ∀ l : List IntLit, ((i :: l).map (fun j => Nat.toDigits 10 j.val)).flatten ≠ [] := by
    intro l h
    rw [List.map_cons, List.flatten_cons] at h
    exact decimal_ne_nil _ (List.append_eq_nil_iff.1 h).1
  constructor
  · intro h
    refine ⟨_, rfl, ?_⟩
    have hd : concatStrs ((i :: l).map IntLit.digits) =
        (if i.neg then ['-'] else []) ++ ((i :: l).map (fun j => Nat.toDigits 10 j.val)).flatten := by
      simp only [concatStrs, List.map_cons, List.flatten_cons, hdig l h]
      simp [IntLit.digits, decimal]
    rw [hd]
    cases hn : i.neg with
    | false => simp only [Bool.false_eq_true, if_false, List.nil_append, newLitInt_digits (hne l) (hall (i :: l)), Res.bind_ok]
    | true =>
      have h1 : (((i :: l).map (fun j => Nat.toDigits 10 j.val)).flatten).all Char.isDigit = true := List.all_eq_true.2 (hall (i :: l))
      have h2 : (((i :: l).map (fun j => Nat.toDigits 10 j.val)).flatten).isEmpty = false := by
        cases hx : ((i :: l).map (fun j => Nat.toDigits 10 j.val)).flatten with
        | nil => exact (hne l hx).elim
        | cons => rfl
      generalize ((i :: l).map (fun j => Nat.toDigits 10 j.val)).flatten = ds at h1 h2 ⊢
      simp only [newLitInt, if_true, List.cons_append, List.nil_append, h1, h2, Bool.not_false, Bool.and_self, Res.bind_ok]
  · rintro ⟨j, hj, hn⟩
    have hm : '-' ∈ concatStrs (l.map IntLit.digits) := by
      simp only [concatStrs, List.mem_flatten, List.mem_map]
      exact ⟨_, ⟨j, hj, rfl⟩, by simp [IntLit.digits, hn]⟩
    have key : ∀ ds : Str, '-' ∈ ds → ds.all Char.isDigit = false := by
      intro ds h
      rw [List.all_eq_false]
      exact ⟨_, h, by decide⟩
    have e : concatStrs ((i :: l).map IntLit.digits) = i.digits ++ concatStrs (l.map IntLit.digits) := by simp [concatStrs]
    rw [e]
    have hp : newLitInt (i.digits ++ concatStrs (l.map IntLit.digits)) = .panic := by
      obtain ⟨c, cs, hc⟩ : ∃ c cs, decimal i.val = c :: cs := by
        cases h : decimal i.val with
        | nil => exact (decimal_ne_nil _ h).elim
        | cons c cs => exact ⟨c, cs, rfl⟩
      have hcd : c ≠ '-' := by
        rintro rfl
        have := decimal_digits '-' (n := i.val) (by simp [hc])
        exact absurd this (by decide)
      cases hi : i.neg with
      | false =>
        have e2 : i.digits = c :: cs := by simp [IntLit.digits, hi, hc]
        rw [e2]
        simp only [newLitInt, List.cons_append]
        split
        · rename_i ds he; simp at he; exact (hcd he.1).elim
        · rw [key _ (by simp [hm])]
          simp
      | true =>
        have e2 : i.digits = '-' :: c :: cs := by simp [IntLit.digits, hi, hc]
        rw [e2]
        simp only [newLitInt, List.cons_append]
        rw [key _ (by simp [hm])]
        simp
    rw [hp]
    rfl

example : (concatLitInts 24).impl Ext.demo 0 [.litInt ⟨true, S "1", 1⟩, .litInt ⟨false, S "0x10", 16⟩] = .ok (.litInt ⟨true, S "116", 116⟩) := by
  decide

/-- **C31** (flattening, unless an inner concatenation of several integers starts with 0): nested `concat`s of integers
can be flattened. Missing: inner concatenations with a leading zero, see `C31_flatten_false`. -/
theorem C31_flatten_partial {f : Func} (hf : ConcatOf .litInt f) {a b c : List (Str × Nat)} (hb : b ≠ [])
    (h0 : (digitsOf b).head? ≠ some '0') {w : VKind} (h : f.impl E seed (b.map intVal) = .ok w) :
    f.impl E seed (a.map intVal ++ w :: c.map intVal) = f.impl E seed ((a ++ b ++ c).map intVal) := by
  rw [C31_concat_ints hf hb] at h
  cases h
  have h1 := C31_concat_ints (E := E) (seed := seed) hf (l := a ++ (digitsOf b, ofDecimal (digitsOf b)) :: c) (by simp)
  simp only [List.map_append, List.map_cons] at h1
  have h2 := C31_concat_ints (E := E) (seed := seed) hf (l := a ++ b ++ c) (by simp [hb])
  have hd : digitsOf (a ++ (digitsOf b, ofDecimal (digitsOf b)) :: c) = digitsOf (a ++ b ++ c) := by
    have := (decimal_ofDecimal _ (digitsOf_ne_nil hb) digitsOf_isDigit h0).2
    simp only [digitsOf, List.map_append, List.map_cons, List.flatten_append, List.flatten_cons] at this ⊢
    rw [this]; simp
  rw [h2, ← hd]
  exact h1

/-- **C31** is false for an inner concatenation with a leading zero: `concat(1, concat(0, 2))` is 12, not 102. -/
theorem C31_flatten_false :
    ∃ f, ConcatOf .litInt f ∧ ∀ E seed, ∃ w,
      f.impl E seed [intVal (S "0", 0), intVal (S "2", 2)] = .ok w ∧
      f.impl E seed [intVal (S "1", 1), w] = .ok (.litInt ⟨false, S "12", 12⟩) ∧
      f.impl E seed [intVal (S "1", 1), intVal (S "0", 0), intVal (S "2", 2)] = .ok (.litInt ⟨false, S "102", 102⟩) :=
  ⟨concatLitInts 24, ⟨(builtin_iff builtin_concat).2 (by simp), rfl⟩, fun _ _ => ⟨_, rfl, rfl, rfl⟩⟩

example : (digitsOf [(S "1", 1), (S "0x10", 16)]) = S "116" ∧
    (digitsOf [(S "1", 1), (S "0x10", 16)]).head? ≠ some '0' := by decide

/-! ## C32: `hash` -/

/-- An overload of `hash`. -/
def HashOf (t : Ty) (f : Func) : Prop := Builtin "hash" f ∧ f.args = [t]

/-- The characters identifiers may contain include `_` and the decimal digits. -/
def DigitsContinue (C : CharClass) : Prop := C.xidContinue '_' = true ∧ ∀ c, c.isDigit = true → C.xidContinue c = true

/-- **C32**: for each text and seed there is one number below 2^64 such that `hash` of a string with this text is that
number in decimal and `hash` of an identifier or of tokens with this text is a valid identifier made of `__` and
the same digits. In particular equal texts have equal hashes. -/
theorem C32_hash {E : Ext} (hC : DigitsContinue E.toCharClass) (seed : Nat) (s : Str) :
    ∃ n, n < 2 ^ 64 ∧
      (∀ f r, HashOf .litStr f → f.impl E seed [.litStr r s] = .ok (.litStr (E.strRepr (decimal n)) (decimal n))) ∧
      (∀ f, HashOf .ident f → f.impl E seed [.ident s] = .ok (.ident (S "__" ++ decimal n))) ∧
      (∀ f ts, HashOf .tokens f → E.render ts = s → f.impl E seed [.tokens ts] = .ok (.ident (S "__" ++ decimal n))) ∧
      ValidIdent E.toCharClass (S "__" ++ decimal n) := by
  have hv := lexIdent_hash hC.1 hC.2 seed s
  refine ⟨hash64 seed s, hash64_lt _ _, ?_, ?_, ?_, lexIdent_iff.1 hv⟩
  · rintro f r ⟨hf, ha⟩
    simp only [builtin_iff builtin_hash, hashFuncs, List.mem_cons, List.not_mem_nil, or_false] at hf
    rcases hf with rfl | rfl | rfl <;> first | rfl | exact absurd ha (by decide)
  · rintro f ⟨hf, ha⟩
    simp only [builtin_iff builtin_hash, hashFuncs, List.mem_cons, List.not_mem_nil, or_false] at hf
    rcases hf with rfl | rfl | rfl <;> first | exact newIdent_ok.2 ⟨hv, rfl⟩ | exact absurd ha (by decide)
  · rintro f ts ⟨hf, ha⟩ rfl
    simp only [builtin_iff builtin_hash, hashFuncs, List.mem_cons, List.not_mem_nil, or_false] at hf
    rcases hf with rfl | rfl | rfl <;> first | exact newIdent_ok.2 ⟨hv, rfl⟩ | exact absurd ha (by decide)

/-- The hash is the one of the standard library: the three results pinned by the repository's tests
(`src/interpreter/tests/funcs/hash.rs`). -/
theorem C32_test_vectors :
    hashStr 1 (S "FooBar") = S "1864179433826574950" ∧ hashStr 1 (S "foo") = S "10172337927241793445" ∧
    hashStr 1 (S "let x = 1 ;") = S "18050448427594546802" := by decide +kernel

/-- Value of bytes, least significant first. -/
def leValue : List UInt8 → Nat
  | [] => 0
  | b :: bs => b.toNat + 256 * leValue bs

theorem leBytes_unique (k : Nat) : ∀ (bs : List UInt8), bs.length = k → leBytes (leValue bs) k = bs := by
  induction k with
  | zero => intro bs h; cases bs <;> simp_all [leBytes]
  | succ k ih =>
    intro bs h
    cases bs with
    | nil => simp at h
    | cons b bs =>
      have hb : b.toNat < 256 := b.toNat_lt
      have h1 : (b.toNat + 256 * leValue bs) % 256 = b.toNat := by omega
      have h2 : (b.toNat + 256 * leValue bs) / 256 = leValue bs := by omega
      simp only [leBytes, leValue, h1, h2, ih bs (by simpa using h)]
      simp

/-- **C32**, what is hashed: the eight bytes of the seed, least significant first, the UTF-8 bytes of the text and
`0xff`. -/
theorem C32_hashed_bytes (bs : List UInt8) (h : bs.length = 8) (s : Str) :
    hash64 (leValue bs) s = (sipHash13 (bs ++ s.flatMap String.utf8EncodeChar ++ [0xff])).toNat := by
  rw [hash64, leBytes_unique 8 bs h]; rfl

example : hashStr (leValue [0x40, 0x42, 0x0f, 0, 0, 0, 0, 0]) (S "żółw") = S "13586795335230155209" := by decide +kernel

theorem ascii_digitsContinue : DigitsContinue CharClass.ascii :=
  ⟨by decide, fun c h => by simp [CharClass.ascii, Char.isAlphanum, h]⟩

example : DigitsContinue Ext.demo.toCharClass := ascii_digitsContinue
example : ∃ f, HashOf .ident f := ⟨_, (builtin_iff builtin_hash).2 (.tail _ (.head _)), rfl⟩

/-! ## C36: which functions can crash -/

/-- Plain identifiers: lexically identifiers, not raw (`r#...`). -/
def Plain (E : Ext) : VKind → Prop
  | .ident s => ValidIdent E.toCharClass s
  | .litInt i => i.neg = false
  | _ => True

/-- The values of the arguments have the declared types (what the checking phase ensures, see C35). -/
def ArgsFit (f : Func) (vs : List VKind) : Prop :=
  match f.args with
  | [.variadic t] => vs ≠ [] ∧ ∀ v ∈ vs, v.ty = t
  | [t, .variadic u] => ∃ v ws, vs = v :: ws ∧ ws ≠ [] ∧ v.ty = t ∧ ∀ w ∈ ws, w.ty = u
  | [t] => ∃ v, vs = [v] ∧ v.ty = t
  | _ => False

theorem asIdent_of {v : VKind} (h : v.ty = .ident) : ∃ s, v = .ident s := by cases v <;> simp_all [VKind.ty]
theorem asLitStr_of {v : VKind} (h : v.ty = .litStr) : ∃ r s, v = .litStr r s := by cases v <;> simp_all [VKind.ty]
theorem asLitInt_of {v : VKind} (h : v.ty = .litInt) : ∃ i, v = .litInt i := by cases v <;> simp_all [VKind.ty]
theorem asTokens_of {v : VKind} (h : v.ty = .tokens) : ∃ ts, v = .tokens ts := by cases v <;> simp_all [VKind.ty]
theorem asRaw_of {v : VKind} (h : v.ty = .raw) : ∃ ts, v = .raw ts := by cases v <;> simp_all [VKind.ty]

/-- **C36**, `concat`: no crash if the identifiers are not raw and the integers not negative. Missing: those, see
`C36_crashes_false`. -/
theorem C36_concat_partial {f : Func} (hf : Builtin "concat" f) {vs : List VKind} (hv : ArgsFit f vs)
    (hu : E.xidContinue '_' = true) (hs : ∀ c, E.xidStart c = true → E.xidContinue c = true)
    (hp : ∀ v ∈ vs, Plain E v) : f.impl E seed vs ≠ .panic := by
  simp only [builtin_iff builtin_concat, List.mem_cons, List.not_mem_nil, or_false] at hf
  rcases hf with rfl | rfl | rfl | rfl | rfl
  · obtain ⟨hne, hv⟩ := hv
    obtain ⟨ss, rfl⟩ : ∃ ss : List Str, vs = ss.map .ident := by
      clear hp hne
      induction vs with
      | nil => exact ⟨[], rfl⟩
      | cons v vs ih =>
        obtain ⟨ss, rfl⟩ := ih (fun w hw => hv w (by simp [hw]))
        obtain ⟨s, rfl⟩ := asIdent_of (hv v (by simp))
        exact ⟨s :: ss, rfl⟩
    have h : E.lexIdent ss.flatten = true := by
      apply lexIdent_flatten hu hs (by simpa using hne)
      intro s hs
      exact lexIdent_iff.2 (hp (.ident s) (by simp [hs]))
    simp [concatIdents, allOf_map (sel := VKind.asIdent) (mk := .ident) (fun _ => rfl), concatStrs, newIdent, h]
  · obtain ⟨v, ws, rfl, -, -, hw⟩ := hv
    obtain ⟨l, hl⟩ := allOf_ok_of (sel := VKind.asTokens) (vs := ws)
      (fun w h => by obtain ⟨ts, rfl⟩ := asTokens_of (hw w h); rfl)
    simp only [concatIdentTokens, hl, Res.bind_eq, Res.bind_ok]
    split <;> simp
  · obtain ⟨hne, hv⟩ := hv
    obtain ⟨l, hl⟩ := allOf_ok_of (sel := VKind.asLitStr) (vs := vs)
      (fun w h => by obtain ⟨r, s, rfl⟩ := asLitStr_of (hv w h); rfl)
    simp [concatLitStrs, hl]
  · obtain ⟨hne, hv⟩ := hv
    obtain ⟨l, rfl⟩ : ∃ l : List (Str × Nat), vs = l.map intVal := by
      clear hne
      induction vs with
      | nil => exact ⟨[], rfl⟩
      | cons v vs ih =>
        obtain ⟨l, rfl⟩ := ih (fun w hw => hp w (by simp [hw])) (fun w hw => hv w (by simp [hw]))
        obtain ⟨⟨n, r, k⟩, rfl⟩ := asLitInt_of (hv v (by simp))
        have : n = false := hp _ (List.mem_cons_self ..)
        subst this
        exact ⟨(r, k) :: l, rfl⟩
    have := C31_concat_ints (E := E) (seed := seed) (f := concatLitInts 24)
      ⟨(builtin_iff builtin_concat).2 (by simp), rfl⟩ (l := l) (by simpa using hne)
    rw [this]; simp
  · obtain ⟨hne, hv⟩ := hv
    obtain ⟨l, hl⟩ := allOf_ok_of (sel := VKind.asTokens) (vs := vs)
      (fun w h => by obtain ⟨s, rfl⟩ := asTokens_of (hv w h); rfl)
    simp [concatTokens, hl]

/-- **C36**, case functions: a crash happens exactly when the converted identifier is not an identifier. -/
theorem C36_case_functions {f : Func} (g : Str → Str)
    (hf : (Builtin "upper" f ∧ g = E.toUppercase) ∨ (Builtin "lower" f ∧ g = E.toLowercase) ∨
      (Builtin "snake_case" f ∧ g = E.snake) ∨ (Builtin "camel_case" f ∧ g = E.lowerCamel) ∨
      (Builtin "pascal_case" f ∧ g = E.pascal)) {v : VKind} (hv : ArgsFit f [v]) :
    (∃ r s, v = .litStr r s ∧ f.impl E seed [v] = .ok (.litStr (E.strRepr (g s)) (g s))) ∨
    (∃ s, v = .ident s ∧ (f.impl E seed [v] = .panic ↔ ¬ ValidIdent E.toCharClass (g s)) ∧
      (ValidIdent E.toCharClass (g s) → f.impl E seed [v] = .ok (.ident (g s)))) := by
  have key : ∀ id n (G : Ext → Str → Str), f ∈ strFuncs id n G → g = G E →
      (∃ r s, v = .litStr r s ∧ f.impl E seed [v] = .ok (.litStr (E.strRepr (g s)) (g s))) ∨
      (∃ s, v = .ident s ∧ (f.impl E seed [v] = .panic ↔ ¬ ValidIdent E.toCharClass (g s)) ∧
        (ValidIdent E.toCharClass (g s) → f.impl E seed [v] = .ok (.ident (g s)))) := by
    intro id n G hm hg
    simp only [strFuncs, List.mem_cons, List.not_mem_nil, or_false] at hm
    rcases hm with rfl | rfl
    · obtain ⟨w, hw, ht⟩ := hv
      cases hw
      obtain ⟨r, s, rfl⟩ := asLitStr_of ht
      exact Or.inl ⟨r, s, rfl, by rw [hg]; rfl⟩
    · obtain ⟨w, hw, ht⟩ := hv
      cases hw
      obtain ⟨s, rfl⟩ := asIdent_of ht
      refine Or.inr ⟨s, rfl, ?_, ?_⟩
      · simp only [newIdent, ← hg, ← lexIdent_iff]; split <;> simp_all
      · intro h; simp only [newIdent, ← hg, lexIdent_iff.2 h, if_true]
  rcases hf with ⟨h, hg⟩ | ⟨h, hg⟩ | ⟨h, hg⟩ | ⟨h, hg⟩ | ⟨h, hg⟩
  · exact key _ _ _ ((builtin_iff builtin_upper).1 h) hg
  · exact key _ _ _ ((builtin_iff builtin_lower).1 h) hg
  · exact key _ _ _ ((builtin_iff builtin_snake).1 h) hg
  · exact key _ _ _ ((builtin_iff builtin_camel).1 h) hg
  · exact key _ _ _ ((builtin_iff builtin_pascal).1 h) hg

/-- **C36**, `hash`: never a crash. -/
theorem C36_hash {f : Func} (hf : Builtin "hash" f) (hC : DigitsContinue E.toCharClass) {vs : List VKind}
    (hv : ArgsFit f vs) : ∃ w, f.impl E seed vs = .ok w := by
  simp only [builtin_iff builtin_hash, hashFuncs, List.mem_cons, List.not_mem_nil, or_false] at hf
  rcases hf with rfl | rfl | rfl
  · obtain ⟨w, rfl, ht⟩ := hv
    obtain ⟨r, s, rfl⟩ := asLitStr_of ht
    exact ⟨_, rfl⟩
  · obtain ⟨w, rfl, ht⟩ := hv
    obtain ⟨s, rfl⟩ := asIdent_of ht
    exact ⟨_, newIdent_ok.2 ⟨lexIdent_hash hC.1 hC.2 _ _, rfl⟩⟩
  · obtain ⟨w, rfl, ht⟩ := hv
    obtain ⟨s, rfl⟩ := asTokens_of ht
    exact ⟨_, newIdent_ok.2 ⟨lexIdent_hash hC.1 hC.2 _ _, rfl⟩⟩

/-- `s` is the text that stands for the value: the name of an identifier, the contents of a string, the value of a number in base ten, tokens as
they are printed. -/
inductive TextOf (E : Ext) : VKind → Str → Prop
  | ident (s : Str) : TextOf E (.ident s) s
  | litStr (r s : Str) : TextOf E (.litStr r s) s
  | nat (r : Str) (n : Nat) : TextOf E (.litInt ⟨false, r, n⟩) (Nat.toDigits 10 n)
  | neg (r : Str) (n : Nat) : TextOf E (.litInt ⟨true, r, n⟩) ('-' :: Nat.toDigits 10 n)
  | path (ts : Toks) : TextOf E (.path ts) (E.render ts)
  | type (ts : Toks) : TextOf E (.type ts) (E.render ts)
  | expr (ts : Toks) : TextOf E (.expr ts) (E.render ts)
  | tokens (ts : Toks) : TextOf E (.tokens ts) (E.render ts)
  | raw (ts : Toks) : TextOf E (.raw ts) (E.render ts)

theorem normalize2Text_of {v : VKind} {s : Str} (h : TextOf E v s) : normalize2Text E v = s := by
  cases h <;> rfl

/-- **C36**, `normalize` and `normalize2`: no crash on texts whose letters and digits are identifier characters.
Missing: other texts, see `C36_crashes_false`. -/
theorem C36_normalize_partial {f : Func} (hf : Builtin "normalize" f ∨ Builtin "normalize2" f) {v : VKind}
    (hv : ArgsFit f [v]) (hu : E.alnum '_' = false) (h_ : E.xidContinue '_' = true)
    {s : Str} (ht : TextOf E v s)
    (hs : ∀ c ∈ s, E.alnum c = true → E.xidContinue c = true ∧ (E.numeric c = false → E.xidStart c = true)) :
    f.impl E seed [v] = .ok (.ident (normalized E.toCharClass s)) := by
  have e := normalize2Text_of ht
  subst e
  rw [← normalize_eq hu]
  have hn : E.lexIdent (normalize E.toCharClass (normalize2Text E v)) = true :=
    lexIdent_iff.2 (C01_normalize_identifier_partial hu h_ _ hs)
  rcases hf with hf | hf
  · simp only [builtin_iff builtin_normalize, List.mem_singleton] at hf
    subst hf
    obtain ⟨w, hw, ht⟩ := hv
    cases hw
    obtain ⟨ts, rfl⟩ := asRaw_of ht
    exact newIdent_ok.2 ⟨hn, rfl⟩
  · simp only [builtin_iff builtin_normalize2, List.mem_cons, List.not_mem_nil, or_false] at hf
    rcases hf with rfl | rfl | rfl | rfl | rfl | rfl | rfl
    all_goals
      obtain ⟨w, hw, ht⟩ := hv
      cases hw
      simp only [normalize2For, ht, if_true]
      exact newIdent_ok.2 ⟨hn, rfl⟩

/-- **C36** is false: crashes on a raw identifier (`concat`, and `lower`, which leaves it as it is), on an identifier a
case function empties or leaves starting with a digit, on a negative integer and on a character such as `²`. -/
theorem C36_crashes_false :
    ∃ E : Ext, E.Lawful ∧ DigitsContinue E.toCharClass ∧
      (concatIdents 21).impl E 0 [.ident (S "r#type"), .ident (S "x")] = .panic ∧
      (∃ f, Builtin "lower" f ∧ f.impl E 0 [.ident (S "r#type")] = .panic) ∧
      (∃ f, Builtin "camel_case" f ∧ f.impl E 0 [.ident (S "_")] = .panic) ∧
      (∃ f, Builtin "camel_case" f ∧ f.impl E 0 [.ident (S "_1")] = .panic) ∧
      (concatLitInts 24).impl E 0 [.litInt ⟨false, S "1", 1⟩, .litInt ⟨true, S "2", 2⟩] = .panic ∧
      (∃ f, Builtin "normalize2" f ∧ f.impl E 0 [.litStr (S "\"x²\"") (S "x²")] = .panic) := by
  refine ⟨Ext.demo, CharClass.ascii_lawful, ascii_digitsContinue, by decide, ?_, ?_, ?_, by decide, ?_⟩
  · exact ⟨_, (builtin_iff builtin_lower).2 (.tail _ (.head _)), by decide⟩
  · exact ⟨_, (builtin_iff builtin_camel).2 (.tail _ (.head _)), by decide⟩
  · exact ⟨_, (builtin_iff builtin_camel).2 (.tail _ (.head _)), by decide⟩
  · exact ⟨_, (builtin_iff builtin_normalize2).2 (.tail _ (.head _)), by decide⟩

example : ArgsFit (concatIdents 21) [.ident (S "a"), .ident (S "b")] ∧ Plain Ext.demo (.ident (S "a")) := by
  refine ⟨⟨by simp, by simp [VKind.ty]⟩, ?_⟩
  exact lexIdent_iff.1 (by decide)
example : ArgsFit (concatIdentTokens 22) [.ident (S "a"), .tokens []] := ⟨_, _, rfl, by simp, rfl, by simp [VKind.ty]⟩
example : ∃ f, Builtin "upper" f ∧ ArgsFit f [.ident (S "a")] ∧
    f.impl Ext.demo 0 [.ident (S "a")] = .ok (.ident (S "A")) :=
  ⟨_, (builtin_iff builtin_upper).2 (.tail _ (.head _)), ⟨_, rfl, rfl⟩, by decide⟩
example : ∃ f, Builtin "normalize2" f ∧ ArgsFit f [.litStr [] (S "a-b")] ∧
    f.impl Ext.demo 0 [.litStr [] (S "a-b")] = .ok (.ident (S "a_b")) :=
  ⟨_, (builtin_iff builtin_normalize2).2 (.tail _ (.head _)), ⟨_, rfl, rfl⟩, by decide⟩

end Verif.Props
