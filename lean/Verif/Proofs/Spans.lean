import Verif.Spec.Spans
import Verif.Proofs.Eval
import Verif.Proofs.BuiltinSound
import Verif.Proofs.Located
import Verif.Proofs.Subst
/-! # Where generated code points -/

namespace Verif
open Spec

variable {σ : Type}

/-! ## Tokens -/

@[simp] theorem eraseL_nil : STok.eraseL ([] : SToks σ) = [] := by rw [STok.eraseL]
@[simp] theorem eraseL_cons (t : STok σ) (ts : SToks σ) : STok.eraseL (t :: ts) = t.erase :: STok.eraseL ts := by rw [STok.eraseL]
@[simp] theorem erase_ident (s : Str) (sp : σ) : (STok.ident s sp).erase = .ident s := by rw [STok.erase]
@[simp] theorem erase_punct (c : Char) (j : Bool) (sp : σ) : (STok.punct c j sp).erase = .punct c j := by rw [STok.erase]
@[simp] theorem erase_lit (l : Lit) (sp : σ) : (STok.lit l sp).erase = .lit l := by rw [STok.erase]
@[simp] theorem erase_group (d : Delim) (ts : SToks σ) (sp : σ) : (STok.group d ts sp).erase = .group d (STok.eraseL ts) := by rw [STok.erase]

theorem eraseL_eq_map (ts : SToks σ) : STok.eraseL ts = ts.map STok.erase := by
  induction ts with
  | nil => simp
  | cons t ts ih => simp [ih]

@[simp] theorem eraseL_append (ts us : SToks σ) : STok.eraseL (ts ++ us) = STok.eraseL ts ++ STok.eraseL us := by simp [eraseL_eq_map]
@[simp] theorem eraseL_len (ts : SToks σ) : (STok.eraseL ts).length = ts.length := by simp [eraseL_eq_map]

mutual
theorem erase_at (sp : σ) : ∀ t : Tok, (t.at_ sp).erase = t
  | .ident s => by rw [Tok.at_, erase_ident]
  | .punct c j => by rw [Tok.at_, erase_punct]
  | .lit l => by rw [Tok.at_, erase_lit]
  | .group d ts => by rw [Tok.at_, erase_group, eraseL_at sp ts]
theorem eraseL_at (sp : σ) : ∀ ts : Toks, STok.eraseL (Tok.atL sp ts) = ts
  | [] => by rw [Tok.atL, eraseL_nil]
  | t :: ts => by rw [Tok.atL, eraseL_cons, erase_at sp t, eraseL_at sp ts]
end

@[simp] theorem spans_nil : spans ([] : SToks σ) = [] := by rw [spans]
@[simp] theorem spans_cons (t : STok σ) (ts : SToks σ) : spans (t :: ts) = spansTok t ++ spans ts := by rw [spans]
@[simp] theorem spans_append (ts us : SToks σ) : spans (ts ++ us) = spans ts ++ spans us := by
  induction ts with
  | nil => simp
  | cons t ts ih => simp [ih]
@[simp] theorem spansTok_ident (s : Str) (sp : σ) : spansTok (.ident s sp) = [sp] := by rw [spansTok]
@[simp] theorem spansTok_punct (c : Char) (j : Bool) (sp : σ) : spansTok (.punct c j sp) = [sp] := by rw [spansTok]
@[simp] theorem spansTok_lit (l : Lit) (sp : σ) : spansTok (.lit l sp) = [sp] := by rw [spansTok]

theorem mem_spans_flatMap {α : Type} (f : α → SToks σ) {sp : σ} : ∀ {l : List α}, sp ∈ spans (l.flatMap f) ↔ ∃ a ∈ l, sp ∈ spans (f a)
  | [] => by simp
  | a :: l => by simp [List.flatMap_cons, mem_spans_flatMap f (l := l)]

/-! ## Values -/

theorem erase_ty (v : SVal σ) : v.erase.ty = v.ty := by cases v <;> rfl

theorem erase_toTokens (v : SVal σ) : STok.eraseL v.toTokens = v.erase.toTokens := by
  cases v <;> simp [SVal.toTokens, SVal.erase, VKind.toTokens, IntLit.toTokens]
  split <;> simp

@[simp] theorem erase_mk (sp : σ) (k : VKind) : (SVal.mk sp k).erase = k := by
  cases k <;> simp [SVal.mk, SVal.erase, eraseL_at]

theorem parseIdentS_erase (ts : SToks σ) : (parseIdentS ts).map (·.1) = parseIdent (STok.eraseL ts) := by
  unfold parseIdentS
  split
  · simp only [eraseL_cons, erase_ident, eraseL_nil, parseIdent]; split <;> rfl
  · rename_i h
    match ts with
    | [] => rfl
    | [.ident s sp] => exact absurd rfl (h s sp)
    | [.punct c j sp] => simp [parseIdent]
    | [.lit l sp] => simp [parseIdent]
    | [.group d us sp] => simp [parseIdent]
    | t :: u :: us => simp [parseIdent]

theorem parseLitStrS_erase (ts : SToks σ) : (parseLitStrS ts).map (fun p => (p.1, p.2.1)) = parseLitStr (STok.eraseL ts) := by
  unfold parseLitStrS
  split
  · simp [parseLitStr]
  · rename_i h
    match ts with
    | [] => rfl
    | [.ident s sp] => simp [parseLitStr]
    | [.punct c j sp] => simp [parseLitStr]
    | [.lit (.str r v) sp] => exact absurd rfl (h r v sp)
    | [.lit (.int r v) sp] => simp [parseLitStr]
    | [.lit (.other r) sp] => simp [parseLitStr]
    | [.group d us sp] => simp [parseLitStr]
    | t :: u :: us => simp [parseLitStr]

theorem parseLitIntS_erase (P : SpanOps σ) (ts : SToks σ) : (parseLitIntS P ts).map (·.1) = parseLitInt (STok.eraseL ts) := by
  unfold parseLitIntS
  split
  · simp [parseLitInt]
  · simp [parseLitInt]
  · rename_i h1 h2
    unfold parseLitInt
    split
    · rename_i r v h
      match ts with
      | [.lit l sp] => simp at h; subst h; exact absurd rfl (h1 r v sp)
      | [] => simp at h
      | [.ident s sp] => simp at h
      | [.punct c j sp] => simp at h
      | [.group d us sp] => simp at h
      | t :: u :: us => simp at h
    · rename_i j r v h
      match ts with
      | [.punct c k sp, .lit l sq] => simp at h; obtain ⟨⟨rfl, rfl⟩, rfl⟩ := h; exact absurd rfl (h2 _ sp r v sq)
      | [] => simp at h
      | [t] => simp at h
      | t :: u :: w :: us => simp at h
      | [.ident s sp, u] => simp at h
      | [.lit s sp, u] => simp at h
      | [.group d us sp, u] => simp at h
      | [.punct c k sp, .ident s sq] => simp at h
      | [.punct c k sp, .punct s i sq] => simp at h
      | [.punct c k sp, .group s i sq] => simp at h
    · rfl

theorem map_map {α β γ : Type} (f : α → β) (g : β → γ) (r : Res α) : (r.map f).map g = r.map (fun a => g (f a)) := by cases r <;> rfl

theorem ofOption_map {α β : Type} (e : Err) (f : α → β) (o : Option α) : (Res.ofOption e o).map f = Res.ofOption e (o.map f) := by cases o <;> rfl

theorem litStrAsIdentS_erase (E : Ext) (P : SpanOps σ) (v : Str) : (litStrAsIdentS E P v).map SVal.erase = litStrAsIdent E v := by
  unfold litStrAsIdentS litStrAsIdent
  rw [map_map]; rfl

theorem tryCastS_erase (E : Ext) (P : SpanOps σ) (v : SVal σ) (to : Ty) : (tryCastS E P v to).map SVal.erase = tryCast E v.erase to := by
  unfold tryCastS tryCast
  rw [erase_ty]
  split
  · rfl
  · have hid := parseIdentS_erase v.toTokens
    have hstr := parseLitStrS_erase v.toTokens
    have hint := parseLitIntS_erase P v.toTokens
    rw [erase_toTokens] at hid hstr hint
    have herr : ∀ t, castError v.ty t = castError v.erase.ty t := fun t => by rw [erase_ty]
    cases to with
    | ident =>
      cases v <;> first | exact litStrAsIdentS_erase E P _ | skip
      all_goals
        simp only [SVal.erase] at hid hstr herr ⊢
        simp only [← hstr, ← hid, ← herr]
        split
        · rename_i h; simp [h, litStrAsIdentS_erase]
        · rename_i h
          simp only [h, Option.map_none, ← ofOption_map, map_map]
          rfl
    | path =>
      cases v
      case ident => simp [SVal.erase, Res.map]
      all_goals
        simp only [erase_toTokens, herr]
        simp only [SVal.erase]
        split <;> (rename_i h; simp only [h, if_true, if_false, Res.map, SVal.erase, erase_toTokens, Bool.false_eq_true])
    | type =>
      cases v
      case ident => simp only [SVal.erase]; split <;> simp [Res.map, SVal.erase]
      all_goals
        simp only [erase_toTokens, herr]
        simp only [SVal.erase]
        split <;> (rename_i h; simp only [h, if_true, if_false, Res.map, SVal.erase, erase_toTokens, Bool.false_eq_true])
    | expr =>
      cases v
      case ident => simp only [SVal.erase]; split <;> simp [Res.map, SVal.erase]
      all_goals
        simp only [erase_toTokens, herr]
        simp only [SVal.erase]
        split <;> (rename_i h; simp only [h, if_true, if_false, Res.map, SVal.erase, erase_toTokens, Bool.false_eq_true])
    | litStr =>
      cases v
      case ident => simp only [SVal.erase, map_map]
      all_goals
        simp only [SVal.erase] at hid hstr herr ⊢
        simp only [← hstr, ← hid, ← herr]
        split
        · rename_i h; simp [h, newLitStr, Res.map, SVal.erase]
        · rename_i h
          simp only [h, Option.map_none, ← ofOption_map, map_map]
          rfl
    | litInt =>
      cases v
      all_goals
        simp only [SVal.erase] at hint herr ⊢
        simp only [← hint, ← herr, ← ofOption_map, map_map]
        rfl
    | tokens => cases v <;> simp [Res.map, SVal.erase, erase_toTokens]
    | raw => cases v <;> simp [Res.map, SVal.erase, erase_toTokens]
    | variadic t => cases v <;> simp [Res.map, SVal.erase, SVal.ty, VKind.ty]

/-! ## Functions -/

mutual
theorem spansTok_at (sp : σ) : ∀ (t : Tok) {sq : σ}, sq ∈ spansTok (t.at_ sp) → sq = sp
  | .ident s, sq, h => by simpa [Tok.at_, spansTok] using h
  | .punct c j, sq, h => by simpa [Tok.at_, spansTok] using h
  | .lit l, sq, h => by simpa [Tok.at_, spansTok] using h
  | .group d ts, sq, h => by
    have ih := @spans_at sp ts sq
    rw [Tok.at_, spansTok, List.mem_cons] at h
    exact h.elim id ih
theorem spans_at (sp : σ) : ∀ (ts : Toks) {sq : σ}, sq ∈ spans (Tok.atL sp ts) → sq = sp
  | [], sq, h => by simp [Tok.atL] at h
  | t :: ts, sq, h => by
    have ih1 := @spansTok_at sp t sq
    have ih2 := @spans_at sp ts sq
    rw [Tok.atL, spans_cons, List.mem_append] at h
    exact h.elim ih1 ih2
end

theorem spans_mk {sp sq : σ} {k : VKind} (h : sq ∈ spans (SVal.mk sp k).toTokens) : sq = sp := by
  cases k <;> simp only [SVal.mk, SVal.toTokens] at h
  case litInt i => cases hn : i.neg <;> simp_all
  all_goals first | exact spans_at sp _ h | simpa using h

theorem map_mk (sp : σ) (r : Res VKind) : (r.map (SVal.mk sp)).map SVal.erase = r := by
  cases r <;> simp [Res.map]

theorem spans_map_mk {sp sq : σ} {r : Res VKind} {v : SVal σ} (hv : r.map (SVal.mk sp) = .ok v) (h : sq ∈ spans v.toTokens) : sq = sp := by
  cases r <;> simp only [Res.map, Res.ok.injEq, reduceCtorEq] at hv
  subst hv
  exact spans_mk h

theorem parseIdentS_spans {ts : SToks σ} {p : Str × σ} (h : parseIdentS ts = some p) : spans ts = [p.2] := by
  unfold parseIdentS at h
  split at h
  · split at h
    · cases h
    · cases h; simp
  · cases h

theorem parseLitStrS_spans {ts : SToks σ} {p : Str × Str × σ} (h : parseLitStrS ts = some p) : ts = [.lit (.str p.1 p.2.1) p.2.2] := by
  unfold parseLitStrS at h
  split at h
  · cases h; rfl
  · cases h

theorem parseLitIntS_spans {P : SpanOps σ} {ts : SToks σ} {p : IntLit × σ} (h : parseLitIntS P ts = some p) :
    (p.1.neg = false ∧ ∃ r v, ts = [.lit (.int r v) p.2]) ∨ ∃ j sp r v sq, ts = [.punct '-' j sp, .lit (.int r v) sq] ∧ p.2 = P.join sp sq := by
  unfold parseLitIntS at h
  split at h
  · cases h; exact .inl ⟨rfl, _, _, rfl⟩
  · cases h; exact .inr ⟨_, _, _, _, _, rfl, rfl⟩
  · cases h

/-- Casts that are no parsing keep all tokens. -/
theorem tryCastS_keeps {E : Ext} {P : SpanOps σ} {v w : SVal σ} {t : Ty} (hp : Plainly v.ty t) (h : tryCastS E P v t = .ok w) : w.toTokens = v.toTokens := by
  unfold tryCastS at h
  split at h
  · cases h; rfl
  · rename_i hne
    rcases hp with hp | rfl | rfl
    · exact absurd hp hne
    · cases v <;> (simp only [Res.ok.injEq] at h; subst h; rfl)
    · cases v <;> (simp only [Res.ok.injEq] at h; subst h; rfl)

/-- Why the result of a built-in function has its spans. -/
inductive Cause (P : SpanOps σ) (f : Func) (call : σ) (args : List (SVal σ)) : SToks σ → Prop
  | letters {a u ts} : f.name ∈ caseFunctions → args = [a] → a.toTokens = [u] → spans ts = spans [u] → Cause P f call args ts
  | made {ts} : f.name ∈ makingFunctions → (∀ sp ∈ spans ts, sp = call) → Cause P f call args ts
  | concat {ty ts} : f.name = c! "concat" → f.args = [.variadic ty] → ty ∈ [.ident, .litStr, .litInt] → (∀ sp ∈ spans ts, sp = call) → Cause P f call args ts
  | mixed {ts} : f.name = c! "concat" → f.args = [.ident, .variadic .tokens] → (∀ sp ∈ spans ts, sp = P.callSite) → Cause P f call args ts
  | pasted {ts} : f.name = c! "concat" → f.args = [.variadic .tokens] → ts = args.flatMap SVal.toTokens → Cause P f call args ts
  | passed {a ts} : f.name ∈ passingFunctions → args = [a] → spans ts = spans a.toTokens → (f.name = c! "to_ident" → ∀ r s sp, a.toTokens ≠ [.lit (.str r s) sp]) →
      (f.name = c! "to_int" → ∀ j sp r n sq, a.toTokens ≠ [.punct '-' j sp, .lit (.int r n) sq]) → Cause P f call args ts
  | parsed {a r s sp n} : f.name = c! "to_ident" → args = [a] → a.toTokens = [.lit (.str r s) sp] → Cause P f call args [.ident n P.callSite]
  | joined {a j sp r n sq ts} : f.name = c! "to_int" → args = [a] → a.toTokens = [.punct '-' j sp, .lit (.int r n) sq] → (∀ s ∈ spans ts, s = P.join sp sq) →
      Cause P f call args ts
  | raw {a} : f.name = c! "raw" → args = [a] → Cause P f call args a.toTokens

/-- What is to be shown of a function. -/
def ImplOk (E : Ext) (P : SpanOps σ) (seed : Nat) (f : Func) (call : σ) (args : List (SVal σ)) : Prop :=
  (f.implS E P seed call args).map SVal.erase = f.impl E seed (args.map SVal.erase) ∧
  ∀ r, f.implS E P seed call args = .ok r → Cause P f call args r.toTokens

section
variable {E : Ext} {P : SpanOps σ} {seed : Nat} {f : Func} {call : σ} {args : List (SVal σ)}

theorem implOk_call (hr : f.spanRule = .call) (hc : ∀ ts, (∀ sp ∈ spans ts, sp = call) → Cause P f call args ts) : ImplOk E P seed f call args := by
  unfold ImplOk Func.implS
  rw [hr]
  exact ⟨map_mk _ _, fun r h => hc _ (fun sp hsp => spans_map_mk h hsp)⟩

theorem implOk_callSite (hr : f.spanRule = .callSite) (hc : ∀ ts, (∀ sp ∈ spans ts, sp = P.callSite) → Cause P f call args ts) : ImplOk E P seed f call args := by
  unfold ImplOk Func.implS
  rw [hr]
  exact ⟨map_mk _ _, fun r h => hc _ (fun sp hsp => spans_map_mk h hsp)⟩

theorem implOk_argument (hr : f.spanRule = .argument) (hn : f.name ∈ caseFunctions)
    (hp : ∀ vs, (∀ s, vs ≠ [.ident s]) → (∀ r s, vs ≠ [.litStr r s]) → f.impl E seed vs = .panic)
    (hi : ∀ vs v, f.impl E seed vs = .ok v → (∃ s, v = .ident s) ∨ ∃ r s, v = .litStr r s) : ImplOk E P seed f call args := by
  unfold ImplOk Func.implS
  rw [hr]
  match args with
  | [] => exact ⟨by rw [hp _ (by simp) (by simp)]; rfl, by simp⟩
  | _ :: _ :: _ => exact ⟨by rw [hp _ (by simp) (by simp)]; rfl, by simp⟩
  | [a] =>
    simp only
    cases hs : a.span? with
    | none =>
      refine ⟨?_, by simp⟩
      rw [hp]
      · rfl
      all_goals cases a <;> simp [SVal.span?, SVal.erase] at hs ⊢
    | some sp =>
      refine ⟨map_mk _ _, fun r h => ?_⟩
      have hu : ∃ u, a.toTokens = [u] ∧ spans [u] = [sp] := by
        cases a with
        | ident s sq => simp only [SVal.span?, Option.some.injEq] at hs; subst hs; exact ⟨_, rfl, by simp⟩
        | litStr q s sq => simp only [SVal.span?, Option.some.injEq] at hs; subst hs; exact ⟨_, rfl, by simp⟩
        | litInt i sq => rw [hp _ (by simp [SVal.erase]) (by simp [SVal.erase])] at h; simp [Res.map] at h
        | _ => simp [SVal.span?] at hs
      obtain ⟨u, hu1, hu2⟩ := hu
      refine .letters hn rfl hu1 ?_
      rw [hu2]
      cases hv : f.impl E seed ([a].map SVal.erase) with
      | err x => rw [hv] at h; simp [Res.map] at h
      | panic => rw [hv] at h; simp [Res.map] at h
      | ok v =>
        rw [hv] at h
        simp only [Res.map, Res.ok.injEq] at h
        subst h
        rcases hi _ _ hv with ⟨s, rfl⟩ | ⟨q, s, rfl⟩ <;> simp [SVal.mk, SVal.toTokens]

theorem implOk_keep (hr : f.spanRule = .keep) (hc : f.impl E seed (args.map SVal.erase) ≠ .panic → Cause P f call args (args.flatMap SVal.toTokens))
    (hi : ∀ vs v, f.impl E seed vs = .ok v → v = .tokens (vs.flatMap VKind.toTokens)) : ImplOk E P seed f call args := by
  unfold ImplOk Func.implS
  rw [hr]
  cases hv : f.impl E seed (args.map SVal.erase) with
  | ok v =>
    refine ⟨?_, fun r h => ?_⟩
    · simp only [Res.map, Res.ok.injEq]
      rw [hi _ _ hv]
      simp only [SVal.erase, VKind.tokens.injEq]
      clear hv hc
      induction args with
      | nil => simp
      | cons a args ih => simp [List.flatMap_cons, erase_toTokens, ih]
    · simp only [Res.map, Res.ok.injEq] at h
      subst h
      exact hc (by simp [hv])
  | err e => exact ⟨rfl, by simp [Res.map]⟩
  | panic => exact ⟨rfl, by simp [Res.map]⟩

theorem ofOption_map_ok {α β : Type} {e : Err} {o : Option α} {g : α → β} {b : β} (h : (Res.ofOption e o).map g = .ok b) : ∃ a, o = some a ∧ g a = b := by
  cases o with
  | none => simp [Res.ofOption, Res.map] at h
  | some a => exact ⟨a, rfl, by simpa [Res.ofOption, Res.map] using h⟩

/-- Where the result of casting tokens points. -/
theorem tryCastS_tokens {ts : SToks σ} {t : Ty} {v : SVal σ} (h : tryCastS E P (.tokens ts) t = .ok v) :
    (spans v.toTokens = spans ts ∧ (t = .ident → ∀ r s sp, ts ≠ [.lit (.str r s) sp]) ∧ (t = .litInt → ∀ j sp r n sq, ts ≠ [.punct '-' j sp, .lit (.int r n) sq])) ∨
    (t = .ident ∧ ∃ r s sp n, ts = [.lit (.str r s) sp] ∧ v.toTokens = [.ident n P.callSite]) ∨
    (t = .litInt ∧ ∃ j sp r n sq, ts = [.punct '-' j sp, .lit (.int r n) sq] ∧ ∀ s ∈ spans v.toTokens, s = P.join sp sq) := by
  have other : t ≠ .ident → t ≠ .litInt → spans v.toTokens = spans ts →
    (spans v.toTokens = spans ts ∧ (t = .ident → ∀ r s sp, ts ≠ [.lit (.str r s) sp]) ∧ (t = .litInt → ∀ j sp r n sq, ts ≠ [.punct '-' j sp, .lit (.int r n) sq])) :=
    fun h1 h2 h3 => ⟨h3, fun h => absurd h h1, fun h => absurd h h2⟩
  unfold tryCastS at h
  split at h
  · rename_i hty
    cases h
    refine .inl (other ?_ ?_ rfl) <;> (rw [← hty]; simp [SVal.ty])
  · cases t with
    | ident =>
      simp only [SVal.toTokens] at h
      split at h
      · rename_i r s sq hs
        obtain ⟨a, -, rfl⟩ := ofOption_map_ok h
        exact .inr (.inl ⟨rfl, _, _, _, _, parseLitStrS_spans hs, rfl⟩)
      · rename_i hs
        obtain ⟨a, ha, rfl⟩ := ofOption_map_ok h
        refine .inl ⟨?_, fun _ r s sp he => ?_, by simp⟩
        · rw [parseIdentS_spans ha]; simp [SVal.toTokens]
        · rw [he] at hs; simp [parseLitStrS] at hs
    | path =>
      simp only [SVal.toTokens] at h
      by_cases hb : E.isPath (STok.eraseL ts) = true
      · simp only [hb, if_true, Res.ok.injEq] at h; subst h; exact .inl (other (by simp) (by simp) rfl)
      · simp [hb] at h
    | type =>
      simp only [SVal.toTokens] at h
      by_cases hb : E.isType (STok.eraseL ts) = true
      · simp only [hb, if_true, Res.ok.injEq] at h; subst h; exact .inl (other (by simp) (by simp) rfl)
      · simp [hb] at h
    | expr =>
      simp only [SVal.toTokens] at h
      by_cases hb : E.isExpr (STok.eraseL ts) = true
      · simp only [hb, if_true, Res.ok.injEq] at h; subst h; exact .inl (other (by simp) (by simp) rfl)
      · simp [hb] at h
    | litStr =>
      refine .inl (other (by simp) (by simp) ?_)
      simp only [SVal.toTokens] at h
      split at h
      · rename_i s sq hs
        cases h
        rw [parseIdentS_spans hs]; simp [SVal.toTokens]
      · obtain ⟨a, ha, rfl⟩ := ofOption_map_ok h
        rw [parseLitStrS_spans ha]; simp [SVal.toTokens]
    | litInt =>
      simp only [SVal.toTokens] at h
      obtain ⟨a, ha, rfl⟩ := ofOption_map_ok h
      rcases parseLitIntS_spans ha with ⟨h1, r, v, rfl⟩ | ⟨j, sp, r, n, sq, rfl, h1⟩
      · exact .inl ⟨by simp [SVal.toTokens, h1], by simp, by simp⟩
      · refine .inr (.inr ⟨rfl, j, sp, r, n, sq, rfl, fun s hs => ?_⟩)
        rw [← h1]
        simp only [SVal.toTokens] at hs
        cases hn : a.1.neg <;> simp_all
    | tokens => simp only [SVal.toTokens, Res.ok.injEq] at h; subst h; exact .inl (other (by simp) (by simp) rfl)
    | raw => simp only [SVal.toTokens, Res.ok.injEq] at h; subst h; exact .inl (other (by simp) (by simp) rfl)
    | variadic t => simp at h

theorem implOk_cast {id : Nat} {name : Str} {t : Ty} (hf : f = castFunc id name t) (hr : f.spanRule = .cast) (hn : f.name ∈ passingFunctions)
    (hi : t = .ident ↔ f.name = c! "to_ident") (hl : t = .litInt ↔ f.name = c! "to_int") : ImplOk E P seed f call args := by
  have hp : ∀ vs, (∀ ts, vs ≠ [VKind.tokens ts]) → f.impl E seed vs = .panic := by
    intro vs h
    subst hf
    match vs with
    | [] => rfl
    | _ :: _ :: _ => simp [castFunc]
    | [.tokens ts] => exact absurd rfl (h ts)
    | [.ident _] => rfl
    | [.path _] => rfl
    | [.type _] => rfl
    | [.expr _] => rfl
    | [.litStr _ _] => rfl
    | [.litInt _] => rfl
    | [.raw _] => rfl
  have ht : ∀ ts, f.impl E seed [VKind.tokens ts] = tryCast E (.tokens ts) f.out := by intro ts; subst hf; rfl
  have ho : f.out = t := by subst hf; rfl
  unfold ImplOk Func.implS
  rw [hr]
  match args with
  | [] => exact ⟨by rw [hp _ (by simp)]; rfl, by simp⟩
  | _ :: _ :: _ => exact ⟨by rw [hp _ (by simp)]; simp [Res.map], by simp⟩
  | [.tokens ts] =>
    refine ⟨?_, fun r h => ?_⟩
    · simp only [List.map_cons, List.map_nil, SVal.erase, ht]
      rw [tryCastS_erase]; rfl
    · rcases tryCastS_tokens h with ⟨h1, h2, h3⟩ | ⟨h1, r', s, sp, n, h2, h3⟩ | ⟨h1, j, sp, r', n, sq, h2, h3⟩
      · exact .passed hn rfl h1 (fun h => h2 (ho.trans (hi.2 h))) (fun h => h3 (ho.trans (hl.2 h)))
      · rw [h3]; exact .parsed (hi.1 (ho ▸ h1)) rfl h2
      · exact .joined (hl.1 (ho ▸ h1)) rfl h2 h3
  | [.ident _ _] => exact ⟨by rw [hp _ (by simp [SVal.erase])]; rfl, by simp⟩
  | [.path _] => exact ⟨by rw [hp _ (by simp [SVal.erase])]; rfl, by simp⟩
  | [.type _] => exact ⟨by rw [hp _ (by simp [SVal.erase])]; rfl, by simp⟩
  | [.expr _] => exact ⟨by rw [hp _ (by simp [SVal.erase])]; rfl, by simp⟩
  | [.litStr _ _ _] => exact ⟨by rw [hp _ (by simp [SVal.erase])]; rfl, by simp⟩
  | [.litInt _ _] => exact ⟨by rw [hp _ (by simp [SVal.erase])]; rfl, by simp⟩
  | [.raw _] => exact ⟨by rw [hp _ (by simp [SVal.erase])]; rfl, by simp⟩

theorem allOf_asTokens : ∀ {vs : List VKind} {tss : List Toks}, allOf VKind.asTokens vs = .ok tss → tss.flatten = vs.flatMap VKind.toTokens
  | [], tss, h => by simp only [allOf, Res.ok.injEq] at h; subst h; rfl
  | v :: vs, tss, h => by
    simp only [allOf] at h
    split at h
    · rename_i ts hv
      cases hr : allOf VKind.asTokens vs with
      | ok uss =>
        rw [hr] at h
        simp only [Res.map, Res.ok.injEq] at h
        subst h
        cases v <;> simp only [VKind.asTokens, Option.some.injEq, reduceCtorEq] at hv
        subst hv
        simp [List.flatMap_cons, VKind.toTokens, allOf_asTokens hr]
      | err x => rw [hr] at h; cases h
      | panic => rw [hr] at h; cases h
    · cases h

theorem builtins_implOk (hf : f ∈ builtins) : ImplOk E P seed f call args := by
  have hstr : ∀ id n G, n ∈ caseFunctions → f ∈ strFuncs id n G → ImplOk E P seed f call args := by
    intro id n G hn hm
    simp only [strFuncs, List.mem_cons, List.not_mem_nil, or_false] at hm
    rcases hm with rfl | rfl
    all_goals
      refine implOk_argument (by unfold Func.spanRule; exact if_pos hn) hn ?_ ?_
      intro vs h1 h2
      match vs with
      | [] => rfl
      | _ :: _ :: _ => simp
      | [.tokens _] => rfl
      | [.ident s] => exact absurd rfl (h1 s)
      | [.path _] => rfl
      | [.type _] => rfl
      | [.expr _] => rfl
      | [.litStr r s] => exact absurd rfl (h2 r s)
      | [.litInt _] => rfl
      | [.raw _] => rfl
    all_goals
      intro vs v h
      simp only at h
      split at h
      · first
          | exact .inr ⟨_, _, (Res.ok.inj h).symm⟩
          | (unfold newIdent at h
             split at h
             · exact .inl ⟨_, (Res.ok.inj h).symm⟩
             · cases h)
      · cases h
  simp only [builtins, List.mem_append, List.mem_cons, List.not_mem_nil, or_false] at hf
  rcases hf with (((((((h | h) | h) | h) | h) | h) | h) | h)
  · exact hstr _ _ _ (by decide) h
  · exact hstr _ _ _ (by decide) h
  · exact hstr _ _ _ (by decide) h
  · exact hstr _ _ _ (by decide) h
  · exact hstr _ _ _ (by decide) h
  · rcases h with rfl | rfl | rfl | rfl | rfl | rfl | rfl | rfl
    all_goals exact implOk_call rfl (fun _ => .made (by decide))
  · simp only [hashFuncs, List.mem_cons, List.not_mem_nil, or_false] at h
    rcases h with rfl | rfl | rfl
    all_goals exact implOk_call rfl (fun _ => .made (by decide))
  · rcases h with rfl | rfl | rfl | rfl | rfl | h | h | h | h | h | h | rfl | rfl
    · exact implOk_call rfl (fun _ => .concat rfl rfl (by decide))
    · exact implOk_callSite rfl (fun _ => .mixed rfl rfl)
    · exact implOk_call rfl (fun _ => .concat rfl rfl (by decide))
    · exact implOk_call rfl (fun _ => .concat rfl rfl (by decide))
    · refine implOk_keep rfl (fun _ => .pasted rfl rfl rfl) ?_
      intro vs v h
      simp only [concatTokens, Res.bind_eq, Res.bind_eq_ok] at h
      obtain ⟨tss, h1, h2⟩ := h
      cases h2
      rw [allOf_asTokens h1]
    · exact implOk_cast h (by rw [h]; rfl) (by rw [h]; decide) (by rw [h]; decide) (by rw [h]; decide)
    · exact implOk_cast h (by rw [h]; rfl) (by rw [h]; decide) (by rw [h]; decide) (by rw [h]; decide)
    · exact implOk_cast h (by rw [h]; rfl) (by rw [h]; decide) (by rw [h]; decide) (by rw [h]; decide)
    · exact implOk_cast h (by rw [h]; rfl) (by rw [h]; decide) (by rw [h]; decide) (by rw [h]; decide)
    · exact implOk_cast h (by rw [h]; rfl) (by rw [h]; decide) (by rw [h]; decide) (by rw [h]; decide)
    · exact implOk_cast h (by rw [h]; rfl) (by rw [h]; decide) (by rw [h]; decide) (by rw [h]; decide)
    · refine implOk_keep rfl (fun hne => ?_) ?_
      · match args with
        | [] => exact absurd rfl hne
        | [b] => exact .passed (by decide) rfl (by simp) (fun h => absurd h (by decide)) (fun h => absurd h (by decide))
        | _ :: _ :: _ => exact absurd (by simp [toTokensFunc]) hne
      · intro vs v h
        simp only [toTokensFunc] at h
        split at h
        · cases h; simp [VKind.toTokens]
        · cases h
    · refine implOk_keep rfl (fun hne => ?_) ?_
      · match args with
        | [] => exact absurd rfl hne
        | [b] => rw [List.flatMap_cons, List.flatMap_nil, List.append_nil]; exact .raw rfl rfl
        | _ :: _ :: _ => exact absurd (by simp [rawFunc]) hne
      · intro vs v h
        simp only [rawFunc] at h
        split at h
        · cases h; simp [VKind.toTokens]
        · cases h

end

/-! ## Evaluation -/

mutual
/-- The typed expression follows the expression, with overloads of the functions named in it. -/
inductive Shape (T : Str → Option (List Func)) : Expr → TExpr → Prop
  | value {id k t} : Shape T (.value id k) (.val k t)
  | args {id name args raw fs f tes t} : T name = some fs → f ∈ fs → ¬ (f.args = [.raw] ∧ raw.isSome = true) → ShapeL T args tes →
      Shape T (.call id name args raw) (.call f tes t)
  | raw {id name args i ts fs f t} : T name = some fs → f ∈ fs → f.args = [.raw] →
      Shape T (.call id name args (some (i, ts))) (.call f [.val (.raw ts) .raw] t)
inductive ShapeL (T : Str → Option (List Func)) : List Expr → List TExpr → Prop
  | nil : ShapeL T [] []
  | cons {e te es tes} : Shape T e te → ShapeL T es tes → ShapeL T (e :: es) (te :: tes)
end

mutual
theorem check_shape {T : Str → Option (List Func)} {Γ : TyEnv} : ∀ (e : Expr) {expected c te},
    check T Γ e expected = .ok (c, te) → Shape T e te
  | .value id k, expected, c, te, h => by
    simp only [check] at h
    split at h <;> cases h
    exact .value
  | .call id name args raw, expected, c, te, h => by
    have ih := fun {ps c tes} => checkArgs_shape (T := T) (Γ := Γ) args (ps := ps) (c := c) (tes := tes)
    simp only [check] at h
    split at h
    · cases h
    · rename_i fs hfs
      split at h
      · rename_i ch hb
        cases h
        have hm := best_mem hb
        rw [List.mem_filterMap] at hm
        obtain ⟨f, hf, hu⟩ := hm
        obtain ⟨rfl, co, hco, hr⟩ := usable_cost hu
        rcases hr with ⟨ha, i, ts, rfl, -, hca⟩ | ⟨hnr, ps, cc, tes, hps, hck, -, hca⟩
        · rw [hca]; exact .raw hfs hf ha
        · rw [hca]; exact .args hfs hf hnr (ih (paramsFor_length hps) hck)
      · cases h
theorem checkArgs_shape {T : Str → Option (List Func)} {Γ : TyEnv} : ∀ (es : List Expr) {ps c tes}, ps.length = es.length →
    checkArgs T Γ es ps = some (c, tes) → ShapeL T es tes
  | [], ps, c, tes, hl, h => by simp only [checkArgs] at h; cases h; exact .nil
  | e :: es, [], c, tes, hl, h => by simp at hl
  | e :: es, (t, m) :: ps, c, tes, hl, h => by
    have ih1 := fun {expected c te} => check_shape (T := T) (Γ := Γ) e (expected := expected) (c := c) (te := te)
    have ih2 := fun {ps c tes} => checkArgs_shape (T := T) (Γ := Γ) es (ps := ps) (c := c) (tes := tes)
    simp only [checkArgs] at h
    split at h
    · rename_i c1 te h1
      cases hr : checkArgs T Γ es ps with
      | none => rw [hr] at h; cases h
      | some r =>
        rw [hr] at h
        cases h
        exact .cons (ih1 h1) (ih2 (by simpa using hl) hr)
    · cases h
end

/-- The variables without spans. -/
def VarsS.erase (vars : VarsS σ) : Str → Option VKind := fun n => (vars n).map SVal.erase

section
variable {E : Ext} {P : SpanOps σ} {src : Source σ} {env : Env} {m : Metadata} {vars : VarsS σ}

/-- The value a leaf stands for, with spans. -/
def leafS (vars : VarsS σ) : SVal σ → SVal σ
  | .ident s sp => (vars s).getD (.ident s sp)
  | v => v

theorem leafS_erase (v : SVal σ) : (leafS vars v).erase = leaf vars.erase v.erase := by
  cases v <;> try rfl
  rename_i s sp
  simp only [leafS, leaf, SVal.erase, VarsS.erase]
  cases vars s <;> rfl

theorem evalValueS_eq (id : Nat) : evalValueS E P src m vars id = match m.vals id with
    | none => .err .internal
    | some md => match tryCastS E P (leafS vars (src.vals id)) md.target with
      | .ok v => .ok v
      | _ => .panic := by
  unfold evalValueS leafS
  cases src.vals id <;> rfl

theorem evalValueS_spec {Γ : TyEnv} {id : Nat} {k : VKind} {t : Ty} {c : Nat} (hv : m.vals id = some ⟨t, c⟩) (hs : (src.vals id).erase = k)
    (hΓ : Typed Γ vars.erase) (hp : Plainly (natural Γ k) t) :
    (evalValueS E P src m vars id).map SVal.erase = (TExpr.val k t).eval E env.seed vars.erase ∧
    ∀ v, evalValueS E P src m vars id = .ok v → v.toTokens = (leafS vars (src.vals id)).toTokens := by
  have hc := tryCastS_erase E P (leafS vars (src.vals id)) t
  rw [leafS_erase, hs] at hc
  rw [eval_val, ← hc, evalValueS_eq, hv]
  simp only
  cases hr : tryCastS E P (leafS vars (src.vals id)) t with
  | ok w =>
    refine ⟨rfl, fun v h => ?_⟩
    cases h
    refine tryCastS_keeps ?_ hr
    rw [← erase_ty, leafS_erase, hs, leaf_ty hΓ]
    exact hp
  | err x => exact ⟨rfl, by simp⟩
  | panic => exact ⟨rfl, by simp⟩

theorem leaf_points {id : Nat} {k : VKind} {t : Ty} (hs : (src.vals id).erase = k) :
    Points P src vars (.value id k) (.val k t) (leafS vars (src.vals id)).toTokens := by
  cases hv : src.vals id with
  | ident s sq =>
    rw [hv] at hs
    simp only [SVal.erase] at hs
    subst hs
    simp only [leafS]
    cases hn : vars s with
    | none =>
      have := Points.written (P := P) (src := src) (given := vars) (id := id) (k := .ident s) (t := t) (fun n hn' => by cases hn'; exact hn)
      rw [hv] at this
      exact this
    | some v => exact .alias hn
  | _ =>
    have := Points.written (P := P) (src := src) (given := vars) (id := id) (k := k) (t := t) (by
      intro n hn
      rw [hv, hn] at hs
      simp [SVal.erase] at hs)
    rw [hv] at this
    exact this

/-- The statement about single expressions. -/
def EvalOk (E : Ext) (P : SpanOps σ) (src : Source σ) (env : Env) (m : Metadata) (vars : VarsS σ) (n : Nat) (e : Expr) (te : TExpr) : Prop :=
  (evalExprS E P src env m vars n e).map SVal.erase = te.eval E env.seed vars.erase ∧
  ∀ v, evalExprS E P src env m vars n e = .ok v → Points P src vars e te v.toTokens

theorem evalExprS_map {es : List Expr} {tes : List TExpr} {n : Nat} (h : All2 (EvalOk E P src env m vars n) es tes) :
    (mapRes (evalExprS E P src env m vars n) es).map (List.map SVal.erase) = TExpr.evalL E env.seed vars.erase tes ∧
    ∀ vs, mapRes (evalExprS E P src env m vars n) es = .ok vs → PointsL P src vars es tes (vs.map SVal.toTokens) := by
  induction h with
  | nil => exact ⟨rfl, fun vs h => by simp only [mapRes, Res.ok.injEq] at h; subst h; exact .nil⟩
  | @cons e te es tes h hs ih =>
    simp only [mapRes, TExpr.evalL, Res.bind_eq, ← h.1, ← ih.1]
    cases hv : evalExprS E P src env m vars n e with
    | err x => simp [Res.map]
    | panic => simp [Res.map]
    | ok v =>
      cases hr : mapRes (evalExprS E P src env m vars n) es with
      | err x => simp [Res.map]
      | panic => simp [Res.map]
      | ok vs =>
        simp only [Res.map, Res.bind_ok, List.map_cons, true_and, Res.ok.injEq]
        rintro _ rfl
        exact .cons (h.2 _ hv) (ih.2 vs hr)

/-- From the arguments to the call. -/
theorem evalCallS {Γ : TyEnv} (hΓ : Typed Γ vars.erase) {n id : Nat} {name : Str} {args args' : List Expr}
    {raw : Option (Nat × Toks)} {f : Func} {tes : List TExpr} {t : Ty} {c : Nat} (hc : m.calls id = some ⟨args', f, t, c⟩)
    (hw : WT (InTable builtinFuncs) Γ (.call f tes t))
    (hargs : (mapRes (evalExprS E P src env m vars n) args').map (List.map SVal.erase) = TExpr.evalL E env.seed vars.erase tes)
    (hcause : ∀ vs, mapRes (evalExprS E P src env m vars n) args' = .ok vs → ∀ ts, Cause P f (src.calls id) vs ts →
      Points P src vars (.call id name args raw) (.call f tes t) ts) :
    EvalOk E P src env m vars (n + 1) (.call id name args raw) (.call f tes t) := by
  unfold EvalOk
  simp only [evalExprS, hc, TExpr.eval, Res.bind_eq]
  rw [← hargs]
  cases hm : mapRes (evalExprS E P src env m vars n) args' with
  | err x => simp [Res.map]
  | panic => simp [Res.map]
  | ok vs =>
    simp only [Res.map, Res.bind_ok]
    cases hw with
    | call hf hp hfit hws =>
      have hfb := inTable_builtin hf
      have himpl := builtins_implOk (E := E) (P := P) (seed := env.seed) (call := src.calls id) (args := vs) hfb
      -- the types of the arguments
      have hvals : TExpr.evalL E env.seed vars.erase tes = .ok (vs.map SVal.erase) := by rw [← hargs, hm]; rfl
      have hfit' : TypesFit f (vs.map SVal.erase) := by
        rcases evalL_sound (fun te hte => eval_sound (E := E) (seed := env.seed) (fun f hf => builtins_sound (inTable_builtin hf)) hΓ (hws te hte)) with
          ⟨vs', h1, h2⟩ | ⟨x, h1, -⟩ | ⟨h1, -⟩
        · rw [hvals] at h1
          cases h1
          obtain ⟨ps, h3, h4⟩ := hfit
          have hl := congrArg List.length h2
          simp only [List.length_map] at hl
          exact ⟨ps, by simpa [hl] using h3, h2.trans h4⟩
        · rw [hvals] at h1; cases h1
        · rw [hvals] at h1; cases h1
      rw [← himpl.1]
      cases hi : f.implS E P env.seed (src.calls id) vs with
      | err x => simp [Res.map]
      | panic => simp [Res.map]
      | ok r =>
        simp only [Res.map, Res.bind_ok]
        refine ⟨tryCastS_erase E P r t, fun v hv => ?_⟩
        have hrt : r.ty = f.out := by
          rw [← erase_ty]
          refine (builtins_sound hfb (E := E) (seed := env.seed) _ hfit').2 _ ?_
          rw [← himpl.1, hi]; rfl
        rw [tryCastS_keeps (hrt ▸ hp) hv]
        exact hcause vs hm _ (himpl.2 r hi)

theorem Spec.FitsL.mem {es : List Expr} (h : FitsL src es) : ∀ e ∈ es, Fits src e := by
  induction es with
  | nil => simp
  | cons e es ih => cases h with | cons h hs => simpa using ⟨h, ih hs⟩

theorem builtins_single {f : Func} (hf : f ∈ builtins) : f.name ∈ caseFunctions ++ passingFunctions → ∃ t, f.args = [t] ∧ t.isVariadic = false ∧ t ≠ .raw := by
  have : ∀ f ∈ builtins, f.name ∈ caseFunctions ++ passingFunctions → f.args ∈ [[Ty.ident], [Ty.litStr], [Ty.tokens]] := by decide +kernel
  intro hn
  have := this f hf hn
  simp only [List.mem_cons, List.not_mem_nil, or_false] at this
  rcases this with h | h | h <;> exact ⟨_, h, rfl, by decide⟩

theorem builtins_rawArgs {f : Func} (hf : f ∈ builtins) : f.args = [.raw] ↔ f.name = c! "normalize" ∨ f.name = c! "raw" := by
  revert f; decide +kernel

mutual
theorem evalExprS_spec {Γ : TyEnv} (hΓ : Typed Γ vars.erase) : ∀ {e : Expr} {te : TExpr} {n : Nat}, Records m e te → Fits src e →
    Shape builtinFuncs e te → WT (InTable builtinFuncs) Γ te → e.depth ≤ n → EvalOk E P src env m vars n e te
  | _, _, 0, .value _, _, _, _, h => by simp [Expr.depth] at h
  | _, _, n + 1, .value hv, hf, _, hw, _ => by
    cases hf with
    | value hs _ =>
      cases hw with
      | val hp =>
        obtain ⟨h1, h2⟩ := evalValueS_spec (E := E) (P := P) (env := env) hv hs hΓ hp
        unfold EvalOk
        rw [evalExprS]
        exact ⟨h1, fun v h => h2 v h ▸ leaf_points hs⟩
  | _, _, 0, .call _ _ _, _, _, _, h => by simp [Expr.depth] at h
  | _, _, n + 1, .call (id := id) (name := name) (args := args) (raw := raw) (args' := args') (f := f) (tes := tes) (t := t) hc ha hl, hf, hs, hw, h => by
    have ih := fun h1 h2 h3 h4 => evalExprSL_spec (n := n) hΓ hl h1 h2 h3 h4
    simp only [Expr.depth] at h
    have hws : ∀ te ∈ tes, WT (InTable builtinFuncs) Γ te := by cases hw; assumption
    have hfb : f ∈ builtins := by cases hw with | call hf _ _ _ => exact inTable_builtin hf
    cases hf with
    | @call _ _ _ i ts hfs hr =>
      cases hs with
      | args hfn hfm hnr hsl =>
        obtain ⟨-, hnm⟩ := (builtinFuncs_mem hfn).1 hfm
        rcases ha with rfl | ⟨i', ts', hi, rfl⟩
        · have hd := evalExpr_depthL (es := args') (n := n) (by omega)
          obtain ⟨h1, h2⟩ := evalExprS_map (ih hfs hsl hws hd)
          refine evalCallS hΓ hc hw h1 (fun vs hvs sp hsp => ?_)
          have hz := h2 vs hvs
          have hone : ∀ a, vs = [a] → ∃ b tb, args' = [b] ∧ tes = [tb] ∧ Points P src vars b tb a.toTokens := by
            rintro a rfl
            cases hz with
            | cons hb hz => cases hz; exact ⟨_, _, rfl, rfl, hb⟩
          cases hsp with
          | letters hn hv hu hts =>
            obtain ⟨b, tb, rfl, rfl, hb⟩ := hone _ hv
            exact .letters (hnm ▸ hn) (hu ▸ hb) hts
          | made hn hts => exact .made (hnm ▸ hn) hts
          | concat hn hfa hty hts => rw [hnm] at hn; subst hn; exact .concat hfa hty hts
          | mixed hn hfa hts => rw [hnm] at hn; subst hn; exact .mixed hfa hts
          | pasted hn hfa hts =>
            rw [hnm] at hn; subst hn
            rw [hts, List.flatMap_def]
            exact .pasted hfa hz
          | passed hn hv hts h3 h4 =>
            obtain ⟨b, tb, rfl, rfl, hb⟩ := hone _ hv
            rw [hnm] at h3 h4
            exact .passed (hnm ▸ hn) hb hts h3 h4
          | parsed hn hv hu =>
            rw [hnm] at hn; subst hn
            obtain ⟨b, tb, rfl, rfl, hb⟩ := hone _ hv
            exact .parsed (hu ▸ hb)
          | joined hn hv hu hts =>
            rw [hnm] at hn; subst hn
            obtain ⟨b, tb, rfl, rfl, hb⟩ := hone _ hv
            exact .joined (hu ▸ hb) hts
          | raw hn _ => exact absurd ⟨(builtins_rawArgs hfb).2 (.inr hn), rfl⟩ hnr
        · exfalso
          cases hl with
          | cons hv hvs =>
            cases hv with
            | value _ =>
              cases hvs with
              | nil =>
                cases hsl with
                | cons hv' hvs' =>
                  cases hv' with
                  | value =>
                    cases hfs with
                    | cons hf _ => cases hf with | value _ hne => exact hne rfl
      | raw hfn hfm hfa =>
        obtain ⟨-, hnm⟩ := (builtinFuncs_mem hfn).1 hfm
        rcases ha with rfl | ⟨i', ts', hi, rfl⟩
        · exfalso
          cases hl with
          | cons hv hvs =>
            cases hv with
            | value _ =>
              cases hfs with
              | cons hf _ => cases hf with | value _ hne => exact hne rfl
        · cases hi
          cases hl with
          | cons hv hvs =>
            cases hv with
            | value hv =>
              cases hvs
              obtain ⟨k, rfl⟩ : ∃ k, n = k + 1 := ⟨n - 1, by omega⟩
              obtain ⟨h1, h2⟩ := evalValueS_spec (E := E) (P := P) (src := src) (env := env) (Γ := Γ) hv hr hΓ (.inl rfl)
              have hr' : mapRes (evalExprS E P src env m vars (k + 1)) [.value i (.raw ts)] = (evalValueS E P src m vars i).map (fun v => [v]) := by
                simp only [mapRes, evalExprS, Res.bind_eq]
                cases evalValueS E P src m vars i <;> rfl
              refine evalCallS hΓ hc hw ?_ (fun vs hvs sp hsp => ?_)
              · rw [hr', map_map]
                simp only [TExpr.evalL, Res.bind_eq, ← h1]
                cases evalValueS E P src m vars i <;> rfl
              · rw [hr'] at hvs
                cases hv' : evalValueS E P src m vars i with
                | err x => rw [hv'] at hvs; cases hvs
                | panic => rw [hv'] at hvs; cases hvs
                | ok w =>
                  rw [hv'] at hvs
                  cases hvs
                  have hno : f.name ∉ caseFunctions ++ passingFunctions := by
                    intro hn
                    obtain ⟨u, hu, -, hne⟩ := builtins_single hfb hn
                    rw [hfa] at hu
                    cases hu
                    exact hne rfl
                  cases hsp with
                  | letters hn => exact absurd (List.mem_append_left _ hn) hno
                  | made hn hts => exact .made (hnm ▸ hn) hts
                  | concat hn hfa' => rw [hfa] at hfa'; cases hfa'
                  | mixed hn hfa' => rw [hfa] at hfa'; cases hfa'
                  | pasted hn hfa' => rw [hfa] at hfa'; cases hfa'
                  | passed hn => exact absurd (List.mem_append_right _ hn) hno
                  | parsed hn => exact absurd (by rw [hn]; decide) hno
                  | joined hn => exact absurd (by rw [hn]; decide) hno
                  | raw hn ha =>
                    cases ha
                    rw [h2 w hv']
                    rw [hnm] at hn
                    subst hn
                    have : leafS vars (src.vals i) = src.vals i := by
                      cases hx : src.vals i with
                      | ident => rw [hx] at hr; simp [SVal.erase] at hr
                      | _ => rfl
                    rw [this]
                    exact .raw
theorem evalExprSL_spec {Γ : TyEnv} (hΓ : Typed Γ vars.erase) : ∀ {es : List Expr} {tes : List TExpr} {n : Nat},
    RecordsL m es tes → FitsL src es → ShapeL builtinFuncs es tes → (∀ te ∈ tes, WT (InTable builtinFuncs) Γ te) → (∀ e ∈ es, e.depth ≤ n) →
    All2 (EvalOk E P src env m vars n) es tes
  | _, _, _, .nil, _, _, _, _ => .nil
  | _, _, n, .cons h hl, hf, hs, hw, hd => by
    have ih1 := fun h1 h2 h3 h4 => evalExprS_spec (n := n) hΓ h h1 h2 h3 h4
    have ih2 := fun h1 h2 h3 h4 => evalExprSL_spec (n := n) hΓ hl h1 h2 h3 h4
    cases hf with
    | cons hf hfs =>
      cases hs with
      | cons hs hss =>
        exact .cons (ih1 hf hs (hw _ (by simp)) (hd _ (by simp))) (ih2 hfs hss (fun te h => hw te (by simp [h])) (fun e h => hd e (by simp [h])))
end
end

/-! ## Lists of definitions -/

theorem insertKey_map {κ ν ν' : Type} [BEq κ] (g : ν → ν') (k : κ) (v : ν) (l : List (κ × ν)) :
    (insertKey k v l).map (fun e => (e.1, g e.2)) = insertKey k (g v) (l.map fun e => (e.1, g e.2)) := by
  simp only [insertKey, List.map_cons, List.cons.injEq, true_and]
  rw [List.filter_map]
  rfl

theorem erase_add (vars : VarsS σ) (n : Str) (v : SVal σ) : (vars.add n v).erase = Spec.extend vars.erase n v.erase := by
  funext k
  simp only [VarsS.erase, VarsS.add, Spec.extend]
  split <;> rfl

theorem checkSpec_cons {T : Str → Option (List Func)} {name : Str} {e : Expr} {items : List (Str × Expr)} {Γ : TyEnv} {tes : List (Str × TExpr)}
    (h : checkSpec T ((name, e) :: items) Γ = .ok tes) : ∃ c te tes', tes = (name, te) :: tes' ∧ check T Γ e none = .ok (c, te) ∧
      checkSpec T items (Spec.extend Γ name te.target) = .ok tes' := by
  simp only [checkSpec] at h
  split at h
  · cases h
  · rename_i c te hc
    split at h
    · cases h
    · split at h
      · cases h
      · rename_i rest hr
        cases h
        exact ⟨c, te, rest, rfl, hc, hr⟩

section
variable {E : Ext} {P : SpanOps σ} {src : Source σ} {env : Env} {m : Metadata}

theorem evalSpecS_spec : ∀ {items : List (Alias × Expr)} {tes : List (Str × TExpr)} {Γ : TyEnv} {vars : VarsS σ} {bs : List (Alias × SVal σ)},
    checkSpec builtinFuncs (named items) Γ = .ok tes → Typed Γ vars.erase → FitsL src (items.map (·.2)) →
    All2 (fun item te => item.1.2 = te.1 ∧ Records m item.2 te.2) items tes →
    ((items.map (·.1.2)).Nodup) → (∀ i ∈ items, i.1.2 ∉ bs.map (·.1.2)) →
    match evalSpecT E env.seed tes vars.erase with
    | .ok vs => ∃ bs' : List (Alias × SVal σ), evalSpecS E P src env m items vars bs = .ok (bs'.reverse ++ bs) ∧
        bs'.map (fun b => (b.1.2, b.2.erase)) = vs ∧ bs'.map (·.1) = items.map (·.1) ∧
        Traced P src vars items tes (bs'.map fun b => (b.1.2, b.2))
    | .err x => evalSpecS E P src env m items vars bs = .err x
    | .panic => evalSpecS E P src env m items vars bs = .panic
  | [], _, Γ, vars, bs, _, _, _, .nil, _, _ => by
    simp only [evalSpecT, evalSpecS]
    exact ⟨[], rfl, rfl, rfl, .nil⟩
  | (alias, e) :: items, (name, te) :: tes, Γ, vars, bs, hck, hΓ, hfit, .cons ⟨hn, hr⟩ hs, hN, hD => by
    simp only at hn hr
    subst hn
    obtain ⟨c, te', tes', h1, hck1, hck2⟩ := checkSpec_cons hck
    cases h1
    simp only [List.map_cons, List.nodup_cons] at hN
    cases hfit with
    | cons hfe hfs =>
      rcases check_good builtins_tame e (expected := none) (by intro t h; cases h) hck1 with ⟨hw, -⟩ | ⟨t, h, -⟩
      case inr => cases h
      obtain ⟨ho, hp⟩ := evalExprS_spec (E := E) (P := P) (env := env) hΓ hr hfe (check_shape e hck1) hw (Nat.le_refl _)
      simp only [evalSpecT, evalSpecS, Res.bind_eq, ← ho]
      cases hv : evalExprS E P src env m vars e.depth e with
      | err x => simp [Res.map]
      | panic => simp [Res.map]
      | ok v =>
        simp only [Res.map, Res.bind_ok]
        have hk : alias ∉ bs.map (·.1) := by
          intro h
          obtain ⟨b, hb, rfl⟩ := List.mem_map.1 h
          exact hD _ (List.mem_cons_self ..) (List.mem_map.2 ⟨b, hb, rfl⟩)
        rw [insertKey_new hk]
        have hty : v.erase.ty = te.target := by
          rcases eval_sound (E := E) (seed := env.seed) (fun f hf => builtins_sound (inTable_builtin hf)) hΓ hw with
            ⟨w, h1, h2⟩ | ⟨x, h1, -⟩ | ⟨h1, -⟩
          all_goals rw [← ho, hv] at h1; cases h1
          exact h2
        have hΓ' : Typed (Spec.extend Γ alias.2 te.target) (vars.add alias.2 v).erase := by
          rw [erase_add, ← hty]
          exact hΓ.extend _ _
        have ih := evalSpecS_spec (vars := vars.add alias.2 v) (bs := (alias, v) :: bs) hck2 hΓ' hfs hs hN.2 (by
          intro i hi hm
          simp only [List.map_cons, List.mem_cons] at hm
          rcases hm with h | h
          · exact hN.1 (h ▸ List.mem_map.2 ⟨i, hi, rfl⟩)
          · exact hD i (by simp [hi]) h)
        rw [erase_add] at ih
        cases hrest : evalSpecT E env.seed tes (Spec.extend vars.erase alias.2 v.erase) with
        | err x => rw [hrest] at ih; simpa using ih
        | panic => rw [hrest] at ih; simpa using ih
        | ok vs =>
          rw [hrest] at ih
          obtain ⟨bs', h1, h2, h3, h4⟩ := ih
          simp only [Res.bind_ok]
          exact ⟨(alias, v) :: bs', by simpa using h1, by simp [h2], by simp [h3], .cons (hp v hv) h4⟩

theorem collectSubsS_new : ∀ (bs : List (Alias × SVal σ)) {subs : SubsS σ},
    (bs.map (·.1.2)).Nodup → (∀ b ∈ bs, b.1.2 ∉ subs.map (·.1)) →
    collectSubsS bs subs = (bs.map (fun b => (b.1.2, b.2))).reverse ++ subs
  | [], subs, _, _ => rfl
  | (alias, v) :: bs, subs, hN, hD => by
    simp only [List.map_cons, List.nodup_cons] at hN
    simp only [collectSubsS]
    rw [insertKey_new (hD (alias, v) (by simp)), collectSubsS_new bs hN.2]
    · simp
    · intro b hb hm
      simp only [List.map_cons, List.mem_cons] at hm
      rcases hm with h | h
      · exact hN.1 (h ▸ List.mem_map.2 ⟨b, hb, rfl⟩)
      · exact hD b (by simp [hb]) h

theorem makeSubstitutionsS_spec {order : List (Alias × SVal σ) → List (Alias × SVal σ)} {items : List (Alias × Expr)} {seed : Nat}
    (hN : (specIds items).Nodup) (ho : ∀ l, (order l).Perm l) (hfit : FitsL src (items.map (·.2))) :
    match outcome E (Env.builtin seed) (named items) with
    | .ok vs => ∃ subs us tes, makeSubstitutionsS E P src (Env.builtin seed) order items = .ok subs ∧ subs.Perm us ∧ SubsS.erase us = vs ∧
        checkSpec builtinFuncs (named items) (fun _ => none) = .ok tes ∧ Traced P src (fun _ => none) items tes us
    | .err x => makeSubstitutionsS E P src (Env.builtin seed) order items = .err x
    | .panic => makeSubstitutionsS E P src (Env.builtin seed) order items = .panic := by
  unfold outcome denote makeSubstitutionsS
  have h := resolveSpec_exact (env := Env.builtin seed) items agrees_empty (clean_empty _) hN
  rcases h with ⟨hp, hb⟩ | ⟨ho', h⟩
  · simp [hp, hb]
  rw [ho']
  simp only [Bool.false_eq_true, if_false]
  cases hcs : checkSpec (Env.builtin seed).funcs (named items) (fun _ => none) with
  | error x => rw [hcs] at h; simp [h.1]
  | ok tes =>
    rw [hcs] at h
    obtain ⟨sc, hr, -, hrec⟩ := h
    obtain ⟨h1, h2, -⟩ := checkSpec_names hcs
    have hnm : (named items).map (·.1) = items.map (·.1.2) := by simp [named, Function.comp_def]
    rw [hnm] at h1 h2
    have he := evalSpecS_spec (E := E) (P := P) (src := src) (env := Env.builtin seed) (vars := fun _ => none) (bs := []) hcs (by intro n; rfl) hfit hrec h2 (by simp)
    have hvz : VarsS.erase (fun _ => none : VarsS σ) = fun _ => none := rfl
    rw [hvz] at he
    simp only [Res.bind_eq, hr, Res.bind_ok]
    cases hv : evalSpecT E (Env.builtin seed).seed tes (fun _ => none) with
    | err x => rw [hv] at he; simp [he]
    | panic => rw [hv] at he; simp [he]
    | ok vs =>
      rw [hv] at he
      obtain ⟨bs', h3, h4, h5, h6⟩ := he
      simp only [h3, Res.bind_ok, List.append_nil]
      have hperm : (order bs'.reverse).Perm bs' := (ho _).trans (List.reverse_perm _)
      have hnd : ((order bs'.reverse).map (·.1.2)).Nodup := by
        refine ((hperm.map _).nodup_iff).2 ?_
        have : bs'.map (·.1.2) = items.map (·.1.2) := by
          have := congrArg (List.map (·.2)) h5
          simpa [Function.comp_def] using this
        rw [this]; exact h2
      refine ⟨_, _, tes, rfl, ?_, ?_, hcs, h6⟩
      · rw [collectSubsS_new _ hnd (by simp), List.append_nil]
        exact (List.reverse_perm _).trans (hperm.map _)
      · rw [← h4]; simp [SubsS.erase, Function.comp_def]

end

end Verif
