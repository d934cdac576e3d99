import Verif.Proofs.Invariant
import Verif.Proofs.Principal
import Verif.Proofs.Normalize
import Verif.Props.Funcs
/-! # The built-in functions on ordinary values -/

namespace Verif
open Spec

section
variable {I : Str → Prop} {J : Char → Prop}

theorem toksFine_append {a b : List Tok} : ToksFine I J (a ++ b) ↔ ToksFine I J a ∧ ToksFine I J b := by
  induction a with
  | nil => simp [ToksFine]
  | cons t a ih => simp [ToksFine, ih, and_assoc]

theorem toksFine_flatten {l : List Toks} (h : ∀ ts ∈ l, ToksFine I J ts) : ToksFine I J l.flatten := by
  induction l with
  | nil => simp [ToksFine]
  | cons a l ih => exact toksFine_append.2 ⟨h a (by simp), ih fun ts hts => h ts (by simp [hts])⟩

theorem valueFine_tokens {v : VKind} (h : ValueFine I J v) : ToksFine I J v.toTokens := by
  cases v with
  | litInt i => simp only [ValueFine] at h; simp [VKind.toTokens, IntLit.toTokens, h.1, ToksFine, TokFine, PlainLiteral, h.2]
  | litStr r s => simpa [VKind.toTokens, ToksFine, TokFine, PlainLiteral, ValueFine] using h
  | ident s => simpa [VKind.toTokens, ToksFine, TokFine, ValueFine] using h
  | _ => exact h

theorem fine_closed : Closed (ValueFine I J) := fun _ h => ⟨valueFine_tokens h, valueFine_tokens h⟩

variable {I' : Str → Prop} {J' : Char → Prop}
mutual
theorem tokFine_mono (hI : ∀ s, I s → I' s) (hJ : ∀ c, J c → J' c) : ∀ (t : Tok), TokFine I J t → TokFine I' J' t
  | .ident s, h => hI s h
  | .punct c _, h => hJ c h
  | .lit _, h => h
  | .group _ ts, h => toksFine_mono hI hJ ts h
theorem toksFine_mono (hI : ∀ s, I s → I' s) (hJ : ∀ c, J c → J' c) : ∀ (ts : List Tok), ToksFine I J ts → ToksFine I' J' ts
  | [], _ => trivial
  | t :: ts, h => ⟨tokFine_mono hI hJ t h.1, toksFine_mono hI hJ ts h.2⟩
end
end

theorem plainText_append {a b : Str} (ha : PlainText a) (hb : PlainText b) : PlainText (a ++ b) := by
  intro c hc
  rcases List.mem_append.1 hc with h | h
  · exact ha c h
  · exact hb c h

theorem plainText_flatten {l : List Str} (h : ∀ s ∈ l, PlainText s) : PlainText l.flatten := by
  intro c hc
  obtain ⟨s, hs, hc⟩ := List.mem_flatten.1 hc
  exact h s hs c hc

theorem plainChar_digit {c : Char} (h : c.isDigit = true) : PlainChar c := by
  simp only [Char.isDigit, Bool.and_eq_true, decide_eq_true_eq] at h
  refine ⟨?_, ?_⟩
  · have := UInt32.le_iff_toNat_le.1 h.2
    change c.val.toNat < 128
    have h9 : ('9' : Char).val.toNat = 57 := rfl
    omega
  · rintro rfl
    exact absurd h.1 (by decide)

theorem plainText_decimal (n : Nat) : PlainText (decimal n) := fun c hc => plainChar_digit (decimal_digits c hc)

theorem normalize_chars {C : CharClass} (hu : C.alnum '_' = false) {s : Str} {c : Char} (h : c ∈ normalize C s) : c = '_' ∨ c ∈ s := by
  rw [normalize_eq hu] at h
  by_cases ha : C.alnum c = true
  · right
    have : c ∈ (normalized C s).filter C.alnum := List.mem_filter.2 ⟨h, ha⟩
    rw [normalized_filter hu] at this
    exact (List.mem_filter.1 this).1
  · left
    rcases normalized_shape (C := C) s with ⟨h1, -⟩ | ⟨d, cs, hd, hcs, -, h1⟩
    · rw [h1] at h; simpa using h
    · rw [h1] at h
      simp only [List.mem_append, List.mem_cons] at h
      rcases h with h | rfl | h
      · split at h <;> simp at h; exact h
      · exact absurd hd ha
      · have := hcs c h
        simpa [keepable, ha] using this

/-- Functions with one variadic parameter. -/
theorem typesFit_variadic {f : Func} {t : Ty} (ha : f.args = [.variadic t]) {vs : List VKind} (h : TypesFit f vs) :
    vs ≠ [] ∧ ∀ v ∈ vs, v.ty = t := by
  obtain ⟨ps, h1, h2⟩ := h
  obtain ⟨h3, rfl⟩ := paramsFor_variadic ha h1
  refine ⟨by rintro rfl; simp at h3, fun v hv => ?_⟩
  have : v.ty ∈ vs.map (·.ty) := List.mem_map.2 ⟨v, hv, rfl⟩
  rw [h2] at this
  simp only [List.map_replicate, List.mem_replicate] at this
  exact this.2

theorem typesFit_ident_tokens {f : Func} (ha : f.args = [.ident, .variadic .tokens]) {vs : List VKind} (h : TypesFit f vs) :
    ∃ s ws, vs = .ident s :: ws ∧ ∀ w ∈ ws, w.ty = .tokens := by
  obtain ⟨ps, h1, h2⟩ := h
  obtain ⟨m, -, rfl⟩ := paramsFor_ident_tokens ha h1
  cases vs with
  | nil => cases h2
  | cons v ws =>
    simp only [List.map_cons, List.cons.injEq, List.map_replicate] at h2
    obtain ⟨s, rfl⟩ := Props.asIdent_of h2.1
    refine ⟨s, ws, rfl, fun w hw => ?_⟩
    have : w.ty ∈ ws.map (·.ty) := List.mem_map.2 ⟨w, hw, rfl⟩
    rw [h2.2] at this
    exact (List.mem_replicate.1 this).2

/-- What the functions `allowed` ask of a class of identifiers and one of punctuation characters, in order not to leave them. -/
structure NameClass (E : Ext) (seed : Nat) (allowed : Str → Prop) (I : Str → Prop) (J : Char → Prop) : Prop where
  plain : ∀ s, I s → PlainName E.toCharClass s
  plainJ : ∀ c, J c → PlainChar c
  join : ∀ ss : List Str, ss ≠ [] → (∀ s ∈ ss, I s) → I ss.flatten
  upper : allowed (S "upper") → ∀ s, I s → I (E.toUppercase s)
  lower : allowed (S "lower") → ∀ s, I s → I (E.toLowercase s)
  snake : allowed (S "snake_case") → ∀ s, I s → I (E.snake s)
  camel : allowed (S "camel_case") → ∀ s, I s → I (E.lowerCamel s)
  pascal : allowed (S "pascal_case") → ∀ s, I s → I (E.pascal s)
  norm : allowed (S "normalize") ∨ allowed (S "normalize2") → ∀ s, PlainText s → I (normalize E.toCharClass s)
  hash : allowed (S "hash") → ∀ s, I (c! "__" ++ hashStr seed s)
  toIdent : allowed (S "to_ident") → ∀ s i, PlainText s → E.lex s = some [.ident i] → I i
  glue : ∀ s t i, I s → PlainText t → E.lex (s ++ t) = some [.ident i] → I i
  toInt : allowed (S "to_int") → ¬ J '-'

/-- The function neither panics nor leaves the class. -/
def SafeOn (E : Ext) (seed : Nat) (P : VKind → Prop) (f : Func) : Prop :=
  ∀ vs, TypesFit f vs → (∀ v ∈ vs, P v) → f.impl E seed vs ≠ .panic ∧ ∀ r, f.impl E seed vs = .ok r → P r

section
variable {E : Ext} {seed : Nat} {allowed : Str → Prop} {I : Str → Prop} {J : Char → Prop}

theorem newIdent_fine (hN : NameClass E seed allowed I J) {s : Str} (h : I s) :
    newIdent E s ≠ .panic ∧ ∀ r, newIdent E s = .ok r → ValueFine I J r := by
  have : E.lexIdent s = true := Props.lexIdent_iff.2 (hN.plain s h).2
  unfold newIdent
  rw [if_pos this]
  refine ⟨by simp, fun r hr => ?_⟩
  cases hr
  exact h

theorem parseStrIdent_lex {s i : Str} (h : parseStrIdent E s = some i) : E.lex s = some [.ident i] := by
  unfold parseStrIdent at h
  rw [Option.bind_eq_some_iff] at h
  obtain ⟨ts, h1, h2⟩ := h
  unfold parseIdent at h2
  split at h2
  · split at h2
    · cases h2
    · cases h2; exact h1
  · cases h2

theorem toksFine_render (hE : AsciiExt E) (hN : NameClass E seed allowed I J) {ts : Toks} (h : ToksFine I J ts) : PlainText (E.render ts) :=
  hE.render ts (toksFine_mono (fun s hs => (hN.plain s hs).1) hN.plainJ ts h)

theorem text_plain (hE : AsciiExt E) (hN : NameClass E seed allowed I J) {v : VKind} (h : ValueFine I J v) : PlainText (normalize2Text E v) := by
  cases v with
  | ident s => exact (hN.plain s h).1
  | litStr r s => exact h.2
  | litInt i =>
    simp only [normalize2Text, IntLit.digits, h.1, Bool.false_eq_true, if_false, List.nil_append]
    exact plainText_decimal _
  | _ => exact toksFine_render hE hN h

theorem tryCast_fine (hE : AsciiExt E) (hN : NameClass E seed allowed I J) {ts : Toks} (h : ToksFine I J ts) {t : Ty}
    (hi : t = .ident → allowed (S "to_ident")) (hz : t = .litInt → allowed (S "to_int")) {r : VKind}
    (hr : tryCast E (.tokens ts) t = .ok r) : ValueFine I J r := by
  have hid : ∀ i, parseIdent ts = some i → I i := by
    intro i hp
    unfold parseIdent at hp
    split at hp
    · split at hp
      · cases hp
      · cases hp; simpa [ToksFine, TokFine] using h
    · cases hp
  have hstr : ∀ p, parseLitStr ts = some p → PlainText p.1 ∧ PlainText p.2 := by
    intro p hp
    unfold parseLitStr at hp
    split at hp
    · cases hp; simpa [ToksFine, TokFine, PlainLiteral] using h
    · cases hp
  cases t with
  | ident =>
    simp only [tryCast, VKind.ty, reduceCtorEq, if_false, VKind.toTokens] at hr
    split at hr
    · rename_i r' s hp
      unfold litStrAsIdent at hr
      cases hl : parseStrIdent E s with
      | none => rw [hl] at hr; cases hr
      | some i =>
        rw [hl] at hr
        cases hr
        exact hN.toIdent (hi rfl) s i (hstr _ hp).2 (parseStrIdent_lex hl)
    · cases hl : parseIdent ts with
      | none => rw [hl] at hr; cases hr
      | some i =>
        rw [hl] at hr
        cases hr
        exact hid i hl
  | path =>
    simp only [tryCast, VKind.ty, reduceCtorEq, if_false] at hr
    split at hr <;> cases hr
    exact h
  | type =>
    simp only [tryCast, VKind.ty, reduceCtorEq, if_false] at hr
    split at hr <;> cases hr
    exact h
  | expr =>
    simp only [tryCast, VKind.ty, reduceCtorEq, if_false] at hr
    split at hr <;> cases hr
    exact h
  | litStr =>
    simp only [tryCast, VKind.ty, reduceCtorEq, if_false, VKind.toTokens] at hr
    split at hr
    · rename_i s hp
      cases hr
      have := (hN.plain s (hid s hp)).1
      exact ⟨hE.strRepr s this, this⟩
    · cases hl : parseLitStr ts with
      | none => rw [hl] at hr; cases hr
      | some p =>
        rw [hl] at hr
        cases hr
        exact hstr p hl
  | litInt =>
    simp only [tryCast, VKind.ty, reduceCtorEq, if_false, VKind.toTokens] at hr
    cases hl : parseLitInt ts with
    | none => rw [hl] at hr; cases hr
    | some p =>
      rw [hl] at hr
      cases hr
      unfold parseLitInt at hl
      split at hl
      · cases hl
        simpa [ToksFine, TokFine, PlainLiteral, ValueFine] using h
      · cases hl
        simp only [ToksFine, TokFine] at h
        exact absurd h.1 (hN.toInt (hz rfl))
      · cases hl
  | tokens =>
    simp only [tryCast, VKind.ty, if_true] at hr
    cases hr
    exact h
  | raw =>
    simp only [tryCast, VKind.ty, reduceCtorEq, if_false, VKind.toTokens] at hr
    cases hr
    exact h
  | variadic t => simp only [tryCast, VKind.ty, reduceCtorEq, if_false] at hr

theorem tryCast_no_panic {v : VKind} {t : Ty} : tryCast E v t ≠ .panic := by
  have key : ∀ {α : Type} (y : Err) (o : Option α) (f : α → VKind), (Res.ofOption y o).map f ≠ .panic := by
    intro α y o f h
    cases o <;> cases h
  intro h
  unfold tryCast at h
  split at h
  · cases h
  · split at h
    all_goals first
      | (cases h; done)
      | exact key _ _ _ h
      | (split at h <;> first | (cases h; done) | exact key _ _ _ h)

theorem allOf_fine {α : Type} {sel : VKind → Option α} {mk : α → VKind} (hs : ∀ v a, sel v = some a → v = mk a) {vs : List VKind} {l : List α}
    (h : allOf sel vs = .ok l) : vs = l.map mk := by
  induction vs generalizing l with
  | nil => cases h; rfl
  | cons v vs ih =>
    simp only [allOf] at h
    split at h
    · rename_i a ha
      cases hr : allOf sel vs with
      | ok l' => rw [hr] at h; cases h; simp [ih hr, hs v a ha]
      | err e => rw [hr] at h; cases h
      | panic => rw [hr] at h; cases h
    · cases h

theorem concat_idents_fine (hN : NameClass E seed allowed I J) (id : Nat) : SafeOn E seed (ValueFine I J) (concatIdents id) := by
  intro vs hfit hv
  obtain ⟨hne, ht⟩ := typesFit_variadic (t := .ident) rfl hfit
  obtain ⟨l, hl⟩ := allOf_ok_of (sel := VKind.asIdent) (vs := vs) (fun w h => by obtain ⟨s, rfl⟩ := Props.asIdent_of (ht w h); rfl)
  have hm := allOf_fine (mk := .ident) (fun v a h => by cases v <;> simp_all [VKind.asIdent]) hl
  subst hm
  simp only [concatIdents, hl, Res.bind_eq, Res.bind_ok]
  exact newIdent_fine hN (hN.join l (by simpa using hne) fun s hs => hv (.ident s) (by simp [hs]))

theorem concat_ident_tokens_fine (hE : AsciiExt E) (hN : NameClass E seed allowed I J) (id : Nat) :
    SafeOn E seed (ValueFine I J) (concatIdentTokens id) := by
  intro vs hfit hv
  obtain ⟨s, ws, rfl, ht⟩ := typesFit_ident_tokens rfl hfit
  obtain ⟨l, hl⟩ := allOf_ok_of (sel := VKind.asTokens) (vs := ws) (fun w h => by obtain ⟨s, rfl⟩ := Props.asTokens_of (ht w h); rfl)
  have hm := allOf_fine (mk := .tokens) (fun v a h => by cases v <;> simp_all [VKind.asTokens]) hl
  subst hm
  simp only [concatIdentTokens, hl, Res.bind_eq, Res.bind_ok]
  split
  · rename_i i hp
    refine ⟨by simp, fun r hr => ?_⟩
    cases hr
    have hlex := parseStrIdent_lex hp
    simp only [concatStrs, List.flatten_cons, VKind.toTokens, hE.renderIdent] at hlex
    refine hN.glue s _ i (hv (.ident s) (by simp)) (plainText_flatten fun t h => ?_) hlex
    obtain ⟨ts, hts, rfl⟩ := List.mem_map.1 h
    exact toksFine_render hE hN (hv (.tokens ts) (by simp [hts]))
  · exact ⟨by simp, by simp⟩

theorem concat_strs_fine (hE : AsciiExt E) (id : Nat) : SafeOn E seed (ValueFine I J) (concatLitStrs id) := by
  intro vs hfit hv
  obtain ⟨hne, ht⟩ := typesFit_variadic (t := .litStr) rfl hfit
  obtain ⟨l, hl⟩ := allOf_ok_of (sel := VKind.asLitStr) (vs := vs) (fun w h => by obtain ⟨r, s, rfl⟩ := Props.asLitStr_of (ht w h); rfl)
  simp only [concatLitStrs, hl, Res.bind_eq, Res.bind_ok]
  refine ⟨by simp, fun r hr => ?_⟩
  cases hr
  have : PlainText (concatStrs l) := by
    refine plainText_flatten fun s hs => ?_
    clear hne hfit
    induction vs generalizing l with
    | nil => cases hl; cases hs
    | cons v vs ih =>
      obtain ⟨r, s', rfl⟩ := Props.asLitStr_of (ht v (by simp))
      simp only [allOf, VKind.asLitStr] at hl
      cases hr : allOf VKind.asLitStr vs with
      | err e => rw [hr] at hl; cases hl
      | panic => rw [hr] at hl; cases hl
      | ok l' =>
        rw [hr] at hl
        cases hl
        rcases List.mem_cons.1 hs with rfl | hs
        · exact (hv _ (List.mem_cons_self ..)).2
        · exact ih (fun v h => hv v (by simp [h])) (fun v h => ht v (by simp [h])) l' hr hs
  exact ⟨hE.strRepr _ this, this⟩

theorem concat_ints_fine (id : Nat) : SafeOn E seed (ValueFine I J) (concatLitInts id) := by
  intro vs hfit hv
  obtain ⟨hne, ht⟩ := typesFit_variadic (t := .litInt) rfl hfit
  obtain ⟨l, hl⟩ := allOf_ok_of (sel := VKind.asLitInt) (vs := vs) (fun w h => by obtain ⟨i, rfl⟩ := Props.asLitInt_of (ht w h); rfl)
  have hm := allOf_fine (mk := .litInt) (fun v a h => by cases v <;> simp_all [VKind.asLitInt]) hl
  subst hm
  have hneg : ∀ i ∈ l, i.neg = false := fun i hi => (hv (.litInt i) (by simp [hi])).1
  have hd : ∀ c ∈ concatStrs (l.map IntLit.digits), c.isDigit = true := by
    intro c hc
    obtain ⟨t, h1, h2⟩ := List.mem_flatten.1 hc
    obtain ⟨i, hi, rfl⟩ := List.mem_map.1 h1
    simp only [IntLit.digits, hneg i hi, Bool.false_eq_true, if_false, List.nil_append] at h2
    exact decimal_digits c h2
  have hne' : concatStrs (l.map IntLit.digits) ≠ [] := by
    cases l with
    | nil => simp at hne
    | cons i l => simp [concatStrs, IntLit.digits, decimal_ne_nil]
  simp only [concatLitInts, hl, Res.bind_eq, Res.bind_ok, newLitInt_digits hne' hd]
  refine ⟨by simp, fun r hr => ?_⟩
  cases hr
  exact ⟨rfl, fun c hc => plainChar_digit (hd c hc)⟩

theorem concat_tokens_fine (id : Nat) : SafeOn E seed (ValueFine I J) (concatTokens id) := by
  intro vs hfit hv
  obtain ⟨hne, ht⟩ := typesFit_variadic (t := .tokens) rfl hfit
  obtain ⟨l, hl⟩ := allOf_ok_of (sel := VKind.asTokens) (vs := vs) (fun w h => by obtain ⟨s, rfl⟩ := Props.asTokens_of (ht w h); rfl)
  have hm := allOf_fine (mk := .tokens) (fun v a h => by cases v <;> simp_all [VKind.asTokens]) hl
  subst hm
  simp only [concatTokens, hl, Res.bind_eq, Res.bind_ok]
  refine ⟨by simp, fun r hr => ?_⟩
  cases hr
  exact toksFine_flatten fun ts hts => hv (.tokens ts) (by simp [hts])

theorem strFuncs_fine {id : Nat} {n : Str} {G : Ext → Str → Str} (hE : AsciiExt E) (hN : NameClass E seed allowed I J)
    (hp : ∀ s, PlainText s → PlainText (G E s)) (hi : ∀ s, I s → I (G E s)) : ∀ f ∈ strFuncs id n G, SafeOn E seed (ValueFine I J) f := by
  intro f hm vs hfit hv
  simp only [strFuncs, List.mem_cons, List.not_mem_nil, or_false] at hm
  rcases hm with rfl | rfl
  · obtain ⟨v, rfl, ht⟩ := typesFit_one (t := .litStr) rfl rfl hfit
    obtain ⟨r, s, rfl⟩ := Props.asLitStr_of ht
    refine ⟨by simp, fun r hr => ?_⟩
    cases hr
    have := hp s (hv _ (List.mem_singleton.2 rfl)).2
    exact ⟨hE.strRepr _ this, this⟩
  · obtain ⟨v, rfl, ht⟩ := typesFit_one (t := .ident) rfl rfl hfit
    obtain ⟨s, rfl⟩ := Props.asIdent_of ht
    exact newIdent_fine hN (hi s (hv _ (List.mem_singleton.2 rfl)))

/-- The built-in functions which are allowed are safe. -/
theorem builtins_safe (hE : AsciiExt E) (hN : NameClass E seed allowed I J) {f : Func} (hf : f ∈ builtins) (ha : allowed f.name) :
    SafeOn E seed (ValueFine I J) f := by
  have hn2 : ∀ id t, t.isVariadic = false → f = normalize2For id t → SafeOn E seed (ValueFine I J) f := by
    rintro id t ht rfl vs hfit hv
    obtain ⟨v, rfl, h⟩ := typesFit_one (t := t) rfl ht hfit
    simp only [normalize2For, h, if_true]
    exact newIdent_fine hN (hN.norm (.inr ha) _ (text_plain hE hN (hv v (by simp))))
  have hcast : ∀ id n t, f = castFunc id n t → (t = .ident → n = S "to_ident") → (t = .litInt → n = S "to_int") →
      SafeOn E seed (ValueFine I J) f := by
    rintro id n t rfl h1 h2 vs hfit hv
    obtain ⟨v, rfl, h⟩ := typesFit_one (t := .tokens) rfl rfl hfit
    obtain ⟨ts, rfl⟩ := Props.asTokens_of h
    refine ⟨tryCast_no_panic, fun r hr => ?_⟩
    refine tryCast_fine hE hN (ts := ts) (hv _ (List.mem_singleton.2 rfl)) (fun h => ?_) (fun h => ?_) hr
    · rw [← h1 h]; exact ha
    · rw [← h2 h]; exact ha
  have hc := hE.cases
  simp only [builtins, List.mem_append, List.mem_cons, List.not_mem_nil, or_false] at hf
  have names : ∀ id n G, f ∈ strFuncs id n G → allowed n := by
    intro id n G h
    simp only [strFuncs, List.mem_cons, List.not_mem_nil, or_false] at h
    rcases h with rfl | rfl <;> exact ha
  rcases hf with (((((((h | h) | h) | h) | h) | h) | h) | h)
  · exact strFuncs_fine hE hN (fun s hs => (hc s hs).1) (hN.upper (names _ _ _ h)) f h
  · exact strFuncs_fine hE hN (fun s hs => (hc s hs).2.1) (hN.lower (names _ _ _ h)) f h
  · exact strFuncs_fine hE hN (fun s hs => (hc s hs).2.2.1) (hN.snake (names _ _ _ h)) f h
  · exact strFuncs_fine hE hN (fun s hs => (hc s hs).2.2.2.1) (hN.camel (names _ _ _ h)) f h
  · exact strFuncs_fine hE hN (fun s hs => (hc s hs).2.2.2.2) (hN.pascal (names _ _ _ h)) f h
  · rcases h with rfl | h | h | h | h | h | h | h
    · intro vs hfit hv
      obtain ⟨v, rfl, h⟩ := typesFit_one (t := .raw) rfl rfl hfit
      obtain ⟨ts, rfl⟩ := Props.asRaw_of h
      exact newIdent_fine hN (hN.norm (.inl ha) _ (toksFine_render hE hN (hv _ (List.mem_singleton.2 rfl))))
    all_goals exact hn2 _ _ rfl h
  · simp only [hashFuncs, List.mem_cons, List.not_mem_nil, or_false] at h
    intro vs hfit hv
    rcases h with rfl | rfl | rfl
    · obtain ⟨v, rfl, h⟩ := typesFit_one (t := .litStr) rfl rfl hfit
      obtain ⟨r, s, rfl⟩ := Props.asLitStr_of h
      refine ⟨by simp, fun r hr => ?_⟩
      cases hr
      have := plainText_decimal (hash64 seed s)
      exact ⟨hE.strRepr _ this, this⟩
    · obtain ⟨v, rfl, h⟩ := typesFit_one (t := .ident) rfl rfl hfit
      obtain ⟨s, rfl⟩ := Props.asIdent_of h
      exact newIdent_fine hN (hN.hash ha s)
    · obtain ⟨v, rfl, h⟩ := typesFit_one (t := .tokens) rfl rfl hfit
      obtain ⟨ts, rfl⟩ := Props.asTokens_of h
      exact newIdent_fine hN (hN.hash ha _)
  · rcases h with rfl | rfl | rfl | rfl | rfl | h | h | h | h | h | h | rfl | rfl
    · exact concat_idents_fine hN _
    · exact concat_ident_tokens_fine hE hN _
    · exact concat_strs_fine hE _
    · exact concat_ints_fine _
    · exact concat_tokens_fine _
    · exact hcast _ _ _ h (fun _ => rfl) (by simp)
    · exact hcast _ _ _ h (by simp) (by simp)
    · exact hcast _ _ _ h (by simp) (by simp)
    · exact hcast _ _ _ h (by simp) (by simp)
    · exact hcast _ _ _ h (by simp) (by simp)
    · exact hcast _ _ _ h (by simp) (fun _ => rfl)
    · intro vs hfit hv
      obtain ⟨v, rfl, h⟩ := typesFit_one (t := .tokens) rfl rfl hfit
      obtain ⟨ts, rfl⟩ := Props.asTokens_of h
      refine ⟨by simp [toTokensFunc], fun r hr => ?_⟩
      cases hr
      exact hv _ (List.mem_singleton.2 rfl)
    · intro vs hfit hv
      obtain ⟨v, rfl, h⟩ := typesFit_one (t := .raw) rfl rfl hfit
      obtain ⟨ts, rfl⟩ := Props.asRaw_of h
      refine ⟨by simp [rawFunc], fun r hr => ?_⟩
      cases hr
      exact hv (.raw ts) (List.mem_singleton.2 rfl)
end

/-- Identifiers in ASCII: for the functions other than those of `heck`. -/
theorem plainNames {E : Ext} (hE : AsciiExt E) {seed : Nat} {allowed : Str → Prop} (hs : ¬ allowed (S "snake_case"))
    (hc : ¬ allowed (S "camel_case")) (hp : ¬ allowed (S "pascal_case")) {J : Char → Prop} (hJ : ∀ c, J c → PlainChar c)
    (hz : allowed (S "to_int") → ¬ J '-') : NameClass E seed allowed (PlainName E.toCharClass) J where
  plain _ h := h
  plainJ := hJ
  join ss hne h := ⟨plainText_flatten fun s hs => (h s hs).1, Props.lexIdent_iff.1 (lexIdent_flatten hE.lawful.underscore_continue
    hE.lawful.start_continue hne fun s hs => Props.lexIdent_iff.2 (h s hs).2)⟩
  upper _ s h := (hE.names s h).1
  lower _ s h := (hE.names s h).2
  snake h := absurd h hs
  camel h := absurd h hc
  pascal h := absurd h hp
  norm _ s h := by
    have hu := hE.lawful.underscore_not_alnum
    refine ⟨fun c hc => ?_, Props.C01_normalize_identifier_partial hu hE.lawful.underscore_continue s fun c hc => hE.chars c (h c hc).1⟩
    rcases normalize_chars hu hc with rfl | hc
    · decide
    · exact h c hc
  hash _ s := by
    refine ⟨plainText_append (by decide) (plainText_decimal _), Props.lexIdent_iff.1 (lexIdent_hash hE.lawful.underscore_continue hE.digits seed s)⟩
  toIdent _ s i hs hl := hE.lex s i hs hl
  glue s t i hs ht hl := hE.lex _ i (plainText_append hs.1 ht) hl
  toInt := hz

/-- Identifiers in ASCII which start with a letter: for the functions which do not make others. -/
theorem letterNames {E : Ext} (hE : AsciiExt E) {seed : Nat} {allowed : Str → Prop} (hh : ¬ allowed (S "hash"))
    (hn : ¬ allowed (S "normalize")) (hn2 : ¬ allowed (S "normalize2")) (ht : ¬ allowed (S "to_ident")) {J : Char → Prop}
    (hJ : ∀ c, J c → PlainChar c) (hz : allowed (S "to_int") → ¬ J '-') : NameClass E seed allowed (LetterName E.toCharClass) J where
  plain _ h := h.1
  plainJ := hJ
  join ss hne h := by
    refine ⟨⟨plainText_flatten fun s hs => (h s hs).1.1, Props.lexIdent_iff.1 (lexIdent_flatten hE.lawful.underscore_continue
      hE.lawful.start_continue hne fun s hs => Props.lexIdent_iff.2 (h s hs).1.2)⟩, ?_⟩
    cases ss with
    | nil => exact absurd rfl hne
    | cons s ss =>
      obtain ⟨c, cs, rfl, hc⟩ := (h s (by simp)).2
      exact ⟨c, cs ++ ss.flatten, rfl, hc⟩
  upper _ s h := (hE.letters s h).1
  lower _ s h := (hE.letters s h).2.1
  snake _ s h := (hE.letters s h).2.2.1
  camel _ s h := (hE.letters s h).2.2.2.1
  pascal _ s h := (hE.letters s h).2.2.2.2
  norm h := h.elim (fun h => absurd h hn) (fun h => absurd h hn2)
  hash h := absurd h hh
  toIdent h := absurd h ht
  glue s t i hs ht hl := by
    obtain ⟨⟨h1, -⟩, c, cs, rfl, hc⟩ := hs
    exact hE.lexLetter c (cs ++ t) i (plainText_append h1 ht) hc hl
  toInt := hz

end Verif
