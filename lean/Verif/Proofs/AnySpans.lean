import Verif.Proofs.SpanDeprecation
/-! # Any spans -/

namespace Verif
open Spec

variable {σ : Type}

/-! ## Pieces of token lists -/

theorem unerase_nil {ts : SToks σ} (h : STok.eraseL ts = []) : ts = [] := by
  cases ts with
  | nil => rfl
  | cons t ts => simp [STok.eraseL] at h

theorem unerase_cons {ts : SToks σ} {t : Tok} {us : Toks} (h : STok.eraseL ts = t :: us) : ∃ s ss, ts = s :: ss ∧ s.erase = t ∧ STok.eraseL ss = us := by
  cases ts with
  | nil => cases h
  | cons s ss =>
    simp only [STok.eraseL, List.cons.injEq] at h
    exact ⟨s, ss, rfl, h.1, h.2⟩

theorem unerase_append {a b : Toks} : ∀ {ts : SToks σ}, STok.eraseL ts = a ++ b → ∃ us vs, ts = us ++ vs ∧ STok.eraseL us = a ∧ STok.eraseL vs = b := by
  induction a with
  | nil => intro ts h; exact ⟨[], ts, rfl, rfl, h⟩
  | cons t a ih =>
    intro ts h
    obtain ⟨s, ss, rfl, h1, h2⟩ := unerase_cons h
    obtain ⟨us, vs, rfl, h3, h4⟩ := ih h2
    exact ⟨s :: us, vs, rfl, by simp [STok.eraseL, h1, h3], h4⟩

theorem unerase_punct {ts : SToks σ} {c : Char} {j : Bool} (h : STok.eraseL ts = [.punct c j]) : ∃ sp, ts = [.punct c j sp] := by
  obtain ⟨s, ss, rfl, h1, h2⟩ := unerase_cons h
  cases unerase_nil h2
  cases s <;> simp [STok.erase] at h1
  obtain ⟨rfl, rfl⟩ := h1
  exact ⟨_, rfl⟩

theorem unerase_group {ts : SToks σ} {d : Delim} {us : Toks} (h : STok.eraseL ts = [.group d us]) :
    ∃ vs sp, ts = [.group d vs sp] ∧ STok.eraseL vs = us := by
  obtain ⟨s, ss, rfl, h1, h2⟩ := unerase_cons h
  cases unerase_nil h2
  cases s <;> simp [STok.erase] at h1
  obtain ⟨rfl, rfl⟩ := h1
  exact ⟨_, _, rfl, rfl⟩

theorem unerase_kw {ts : SToks σ} {s : String} (h : STok.eraseL ts = kw s) : ∃ sp, ts = kwS s sp := by
  obtain ⟨s, ss, rfl, h1, h2⟩ := unerase_cons h
  cases unerase_nil h2
  cases s <;> simp [STok.erase] at h1
  subst h1
  exact ⟨_, rfl⟩

theorem unerase_kwIf (d : σ) {ts : SToks σ} {b : Bool} {s : String} (h : STok.eraseL ts = kwIf b s) : ∃ sp, ts = kwIfS b s sp := by
  cases b with
  | true => exact unerase_kw h
  | false => exact ⟨d, unerase_nil h⟩

mutual
theorem un_at_erase (d : σ) : ∀ t : Tok, (t.at_ d).erase = t
  | .ident _ => by simp [Tok.at_, STok.erase]
  | .punct _ _ => by simp [Tok.at_, STok.erase]
  | .lit _ => by simp [Tok.at_, STok.erase]
  | .group _ ts => by simp [Tok.at_, STok.erase, un_atL_erase d ts]
theorem un_atL_erase (d : σ) : ∀ ts : Toks, STok.eraseL (Tok.atL d ts) = ts
  | [] => by simp [Tok.atL, STok.eraseL]
  | t :: ts => by simp [Tok.atL, STok.eraseL, un_at_erase d t, un_atL_erase d ts]
end

/-! ## Attributes and fields -/

theorem attr_spans (d : σ) {a : Attr} {ts : SToks σ} (h : STok.eraseL ts = a.toks) : ∃ sa : SAttr σ, sa.erase = a ∧ sa.toks = ts := by
  obtain ⟨inner, body⟩ := a
  replace h := unerase_append h; obtain ⟨us, vs, rfl, h1, h2⟩ := h
  obtain ⟨body', b, rfl, rfl⟩ := unerase_group h2
  obtain ⟨s, ss, rfl, h3, h4⟩ := unerase_cons h1
  cases s <;> simp [STok.erase] at h3
  obtain ⟨rfl, rfl⟩ := h3
  rename_i hash
  cases inner with
  | false =>
    cases unerase_nil h4
    exact ⟨⟨false, hash, d, b, body'⟩, rfl, rfl⟩
  | true =>
    obtain ⟨bang, rfl⟩ := unerase_punct h4
    exact ⟨⟨true, hash, bang, b, body'⟩, rfl, rfl⟩

theorem attrs_spans (d : σ) {as : List Attr} : ∀ {ts us : SToks σ}, STok.eraseL ts = outerToks as → STok.eraseL us = innerToks as →
    ∃ sas : List (SAttr σ), sas.map SAttr.erase = as ∧ outerToksS sas = ts ∧ innerToksS sas = us := by
  induction as with
  | nil =>
    intro ts us h h'
    cases unerase_nil h
    cases unerase_nil h'
    exact ⟨[], rfl, rfl, rfl⟩
  | cons a as ih =>
    intro ts us h h'
    cases ha : a.inner with
    | false =>
      have e1 : outerToks (a :: as) = a.toks ++ outerToks as := by simp [outerToks, ha]
      have e2 : innerToks (a :: as) = innerToks as := by simp [innerToks, ha]
      rw [e1] at h
      rw [e2] at h'
      replace h := unerase_append h; obtain ⟨t1, t2, rfl, h1, h2⟩ := h
      obtain ⟨sa, rfl, rfl⟩ := attr_spans d h1
      obtain ⟨sas, rfl, rfl, rfl⟩ := ih h2 h'
      have ha : sa.inner = false := ha
      exact ⟨sa :: sas, rfl, by simp [outerToksS, ha], by simp [innerToksS, ha]⟩
    | true =>
      have e1 : outerToks (a :: as) = outerToks as := by simp [outerToks, ha]
      have e2 : innerToks (a :: as) = a.toks ++ innerToks as := by simp [innerToks, ha]
      rw [e1] at h
      rw [e2] at h'
      replace h' := unerase_append h'; obtain ⟨t1, t2, rfl, h1, h2⟩ := h'
      obtain ⟨sa, rfl, rfl⟩ := attr_spans d h1
      obtain ⟨sas, rfl, rfl, rfl⟩ := ih h h2
      have ha : sa.inner = true := ha
      exact ⟨sa :: sas, rfl, by simp [outerToksS, ha], by simp [innerToksS, ha]⟩

theorem outer_spans (d : σ) {as : List Attr} {ts : SToks σ} (h : STok.eraseL ts = outerToks as) :
    ∃ sas : List (SAttr σ), sas.map SAttr.erase = as ∧ outerToksS sas = ts := by
  obtain ⟨sas, h1, h2, -⟩ := attrs_spans d h (un_atL_erase d (innerToks as))
  exact ⟨sas, h1, h2⟩

/-- `x` can be printed with any spans. -/
def AnySpans {α β : Type} (f : α → Toks) (fS : β → SToks σ) (er : β → α) (x : α) : Prop :=
  ∀ ts : SToks σ, STok.eraseL ts = f x → ∃ y, er y = x ∧ fS y = ts

theorem seps_spans (d : σ) {α β : Type} {f : α → Toks} {fS : β → SToks σ} {er : β → α} {c : Char} {tr : Bool} {xs : List α}
    (hf : ∀ x ∈ xs, AnySpans f fS er x) : ∀ {ts : SToks σ}, STok.eraseL ts = sepToks c tr (xs.map f) →
    ∃ (ys : List β) (seps : Nat → σ), ys.map er = xs ∧ sepToksS c tr seps (ys.map fS) = ts := by
  induction xs with
  | nil =>
    intro ts h
    cases unerase_nil h
    exact ⟨[], fun _ => d, rfl, rfl⟩
  | cons x xs ih =>
    intro ts h
    cases xs with
    | nil =>
      simp only [List.map_cons, List.map_nil, sepToks] at h
      replace h := unerase_append h; obtain ⟨t1, t2, rfl, h1, h2⟩ := h
      obtain ⟨y, rfl, rfl⟩ := hf x List.mem_cons_self t1 h1
      cases tr with
      | false =>
        cases unerase_nil h2
        exact ⟨[y], fun _ => d, rfl, by simp [sepToksS]⟩
      | true =>
        obtain ⟨sp, rfl⟩ := unerase_punct h2
        exact ⟨[y], fun n => if n = 0 then sp else d, rfl, by simp [sepToksS]⟩
    | cons x' xs =>
      simp only [List.map_cons, sepToks] at h
      replace h := unerase_append h; obtain ⟨t1, t2, rfl, h1, h2⟩ := h
      obtain ⟨y, rfl, rfl⟩ := hf x List.mem_cons_self t1 h1
      obtain ⟨s, t3, rfl, h3, h4⟩ := unerase_cons h2
      cases s <;> simp [STok.erase] at h3
      obtain ⟨rfl, rfl⟩ := h3
      rename_i sp
      obtain ⟨ys, seps, h5, rfl⟩ := ih (fun x hx => hf x (List.mem_cons_of_mem _ hx)) h4
      cases ys with
      | nil => cases h5
      | cons y' ys =>
        refine ⟨y :: y' :: ys, fun n => match n with | 0 => sp | n + 1 => seps n, by rw [List.map_cons, h5], ?_⟩
        simp [sepToksS]

theorem punct_spans (d : σ) {α β : Type} {f : α → Toks} {fS : β → SToks σ} {er : β → α} {c : Char} {p : Punctuated α}
    (hf : ∀ x ∈ p.items, AnySpans f fS er x) {ts : SToks σ} (h : STok.eraseL ts = p.toks f c) :
    ∃ sp : SPunctuated σ β, sp.erase er = p ∧ sp.toks fS c = ts := by
  obtain ⟨items, tr⟩ := p
  obtain ⟨ys, seps, h1, h2⟩ := seps_spans d hf h
  refine ⟨⟨ys, tr, seps⟩, ?_, h2⟩
  simp only [SPunctuated.erase, h1]

theorem field_spans (d : σ) (x : Field) : AnySpans Field.toks SField.toks (SField.erase (σ := σ)) x := by
  obtain ⟨attrs, vis, ident, ty⟩ := x
  intro ts h
  replace h := unerase_append h; obtain ⟨t1, t4, rfl, h1, rfl⟩ := h
  replace h1 := unerase_append h1; obtain ⟨t1, t3, rfl, h1, h3⟩ := h1
  replace h1 := unerase_append h1; obtain ⟨t1, t2, rfl, h1, rfl⟩ := h1
  obtain ⟨sas, rfl, rfl⟩ := outer_spans d h1
  cases ident with
  | none =>
    cases unerase_nil h3
    exact ⟨⟨sas, t2, none, d, t4⟩, rfl, rfl⟩
  | some i =>
    replace h3 := unerase_append h3; obtain ⟨i', c, rfl, rfl, h5⟩ := h3
    obtain ⟨c, rfl⟩ := unerase_punct h5
    exact ⟨⟨sas, t2, some i', c, t4⟩, rfl, rfl⟩

theorem fields_spans (d : σ) {w semi : Toks} {x : Fields} {ts : SToks σ} (h : STok.eraseL ts = x.toks w semi) :
    ∃ y w' semi', SFields.erase y = x ∧ STok.eraseL w' = w ∧ STok.eraseL semi' = semi ∧ SFields.toks w' semi' y = ts := by
  cases x with
  | named fs =>
    replace h := unerase_append h; obtain ⟨t1, t2, rfl, rfl, h2⟩ := h
    obtain ⟨vs, sp, rfl, h3⟩ := unerase_group h2
    obtain ⟨p, rfl, rfl⟩ := punct_spans d (fun x _ => field_spans d x) h3
    exact ⟨.named p sp, t1, Tok.atL d semi, rfl, rfl, un_atL_erase d _, rfl⟩
  | unnamed fs =>
    replace h := unerase_append h; obtain ⟨t1, t2, rfl, h1, rfl⟩ := h
    obtain ⟨s, t3, rfl, h2, rfl⟩ := unerase_cons h1
    cases s <;> simp [STok.erase] at h2
    obtain ⟨rfl, h2⟩ := h2
    obtain ⟨p, rfl, rfl⟩ := punct_spans d (fun x _ => field_spans d x) h2
    exact ⟨.unnamed p _, t3, t2, rfl, rfl, rfl, rfl⟩
  | unit =>
    replace h := unerase_append h; obtain ⟨t1, t2, rfl, rfl, rfl⟩ := h
    exact ⟨.unit, t1, t2, rfl, rfl, rfl, rfl⟩

theorem variant_spans (d : σ) (x : Variant) : AnySpans Variant.toks SVariant.toks (SVariant.erase (σ := σ)) x := by
  obtain ⟨attrs, ident, fields, disc⟩ := x
  intro ts h
  replace h := unerase_append h; obtain ⟨t1, t4, rfl, h1, h4⟩ := h
  replace h1 := unerase_append h1; obtain ⟨t1, t3, rfl, h1, h3⟩ := h1
  replace h1 := unerase_append h1; obtain ⟨t1, t2, rfl, h1, rfl⟩ := h1
  obtain ⟨sas, rfl, rfl⟩ := outer_spans d h1
  obtain ⟨fs, w, semi, rfl, hw, hs, rfl⟩ := fields_spans d h3
  cases unerase_nil hw
  cases unerase_nil hs
  cases disc with
  | none =>
    cases unerase_nil h4
    exact ⟨⟨sas, t2, fs, d, none⟩, rfl, rfl⟩
  | some e =>
    obtain ⟨s, t3, rfl, h2, rfl⟩ := unerase_cons h4
    cases s <;> simp [STok.erase] at h2
    obtain ⟨rfl, rfl⟩ := h2
    exact ⟨⟨sas, t2, fs, _, some t3⟩, rfl, rfl⟩

theorem super_spans (d : σ) {x : Punctuated Toks} {ts : SToks σ} (h : STok.eraseL ts = superToks x) :
    ∃ c y, SPunctuated.erase STok.eraseL y = x ∧ superToksS c y = ts := by
  have any : ∀ x : Toks, AnySpans id id (STok.eraseL (σ := σ)) x := fun x ts h => ⟨ts, h, rfl⟩
  cases hx : x.items with
  | nil =>
    have e : superToks x = [] := by simp [superToks, hx]
    rw [e] at h
    cases unerase_nil h
    obtain ⟨p, rfl, -⟩ := punct_spans d (c := '+') (fun x _ => any x) (un_atL_erase d (x.toks id '+'))
    refine ⟨d, p, rfl, ?_⟩
    have : p.items = [] := by simpa [SPunctuated.erase] using hx
    simp [superToksS, this]
  | cons b bs =>
    have e : superToks x = .punct ':' false :: x.toks id '+' := by simp [superToks, hx]
    rw [e] at h
    obtain ⟨s, t3, rfl, h2, h3⟩ := unerase_cons h
    cases s <;> simp [STok.erase] at h2
    obtain ⟨rfl, rfl⟩ := h2
    obtain ⟨p, rfl, rfl⟩ := punct_spans d (fun x _ => any x) h3
    rename_i c
    refine ⟨c, p, rfl, ?_⟩
    have : p.items ≠ [] := by
      intro h
      simp [SPunctuated.erase, h] at hx
    simp [superToksS, this]

theorem implTrait_spans (d : σ) {x : Option (Bool × Toks)} {ts : SToks σ} (h : STok.eraseL ts = implTraitToks x) :
    ∃ b f y, Option.map (fun p : Bool × SToks σ => (p.1, STok.eraseL p.2)) y = x ∧ implTraitToksS b f y = ts := by
  cases x with
  | none => cases unerase_nil h; exact ⟨d, d, none, rfl, rfl⟩
  | some p =>
    obtain ⟨n, p⟩ := p
    replace h := unerase_append h; obtain ⟨t1, t3, rfl, h1, h3⟩ := h
    replace h1 := unerase_append h1; obtain ⟨t1, t2, rfl, h1, rfl⟩ := h1
    obtain ⟨f, rfl⟩ := unerase_kw h3
    cases n with
    | false => cases unerase_nil h1; exact ⟨d, f, some (false, t2), rfl, rfl⟩
    | true =>
      obtain ⟨b, rfl⟩ := unerase_punct h1
      exact ⟨b, f, some (true, t2), rfl, rfl⟩

theorem flatten_spans {xs : List Toks} : ∀ {ts : SToks σ}, STok.eraseL ts = xs.flatten → ∃ ys : List (SToks σ), ys.map STok.eraseL = xs ∧ ys.flatten = ts := by
  induction xs with
  | nil => intro ts h; cases unerase_nil h; exact ⟨[], rfl, rfl⟩
  | cons x xs ih =>
    intro ts h
    replace h := unerase_append h; obtain ⟨t1, t2, rfl, rfl, h2⟩ := h
    obtain ⟨ys, rfl, rfl⟩ := ih h2
    exact ⟨t1 :: ys, rfl, rfl⟩

/-! ## Items -/

section
variable (d : σ)

/-- Spans by their numbers. -/
def spansOf (l : List σ) (n : Nat) : σ := l.getD n d

include d
set_option linter.unusedSectionVars false

mutual
theorem stmt_spans : ∀ s : Stmt, AnySpans Stmt.toks SStmt.toks (SStmt.erase (σ := σ)) s
  | .item i => by
    intro ts h
    obtain ⟨y, rfl, rfl⟩ := item_spans i ts (by simpa [Stmt.toks] using h)
    exact ⟨.item y, by simp [SStmt.erase], by simp [SStmt.toks]⟩
  | .other us => by
    intro ts h
    exact ⟨.other ts, by simpa [SStmt.erase, Stmt.toks] using h, by simp [SStmt.toks]⟩
theorem stmts_spans : ∀ ss : List Stmt, AnySpans stmtsToks stmtsToksS (SStmt.eraseL (σ := σ)) ss
  | [] => by
    intro ts h
    simp only [stmtsToks] at h
    cases unerase_nil h
    exact ⟨[], by simp [SStmt.eraseL], by simp [stmtsToksS]⟩
  | s :: ss => by
    intro ts h
    simp only [stmtsToks] at h
    replace h := unerase_append h; obtain ⟨t1, t2, rfl, h1, h2⟩ := h
    obtain ⟨y, rfl, rfl⟩ := stmt_spans s _ h1
    obtain ⟨ys, rfl, rfl⟩ := stmts_spans ss _ h2
    exact ⟨y :: ys, by simp [SStmt.eraseL], by simp [stmtsToksS]⟩
theorem item_spans : ∀ i : Item, AnySpans Item.toks SItem.toks (SItem.erase (σ := σ)) i
  | .fn attrs vis sig block => by
    have ih := stmts_spans block
    intro ts h
    simp only [Item.toks] at h
    replace h := unerase_append h; obtain ⟨t1, t4, rfl, h1, h4⟩ := h
    replace h1 := unerase_append h1; obtain ⟨t1, t3, rfl, h1, rfl⟩ := h1
    replace h1 := unerase_append h1; obtain ⟨t1, t2, rfl, h1, rfl⟩ := h1
    obtain ⟨g, sp, rfl, h5⟩ := unerase_group h4
    replace h5 := unerase_append h5; obtain ⟨g1, g2, rfl, h6, h7⟩ := h5
    obtain ⟨sas, rfl, rfl, rfl⟩ := attrs_spans d h1 h6
    obtain ⟨ss, rfl, rfl⟩ := ih _ h7
    exact ⟨.fn (spansOf d [sp]) sas t2 t3 ss, by simp [SItem.erase], by simp [SItem.toks, spansOf]⟩
  | .struct hd vis ident fields => by
    intro ts h
    obtain ⟨attrs, gen, wh⟩ := hd
    simp only [Item.toks] at h
    replace h := unerase_append h; obtain ⟨t1, t6, rfl, h1, h6⟩ := h
    replace h1 := unerase_append h1; obtain ⟨t1, t5, rfl, h1, rfl⟩ := h1
    replace h1 := unerase_append h1; obtain ⟨t1, t4, rfl, h1, rfl⟩ := h1
    replace h1 := unerase_append h1; obtain ⟨t1, t3, rfl, h1, h3⟩ := h1
    replace h1 := unerase_append h1; obtain ⟨t1, t2, rfl, h1, rfl⟩ := h1
    obtain ⟨k, rfl⟩ := unerase_kw h3
    obtain ⟨sas, rfl, rfl⟩ := outer_spans d h1
    obtain ⟨fs, w, semi, rfl, rfl, hs, rfl⟩ := fields_spans d h6
    obtain ⟨sp, rfl⟩ := unerase_punct hs
    exact ⟨.struct (spansOf d [k, sp]) ⟨sas, t5, w⟩ t2 t4 fs, by simp [SItem.erase, SHead.erase], by simp [SItem.toks, spansOf]⟩
  | .enum hd vis ident variants => by
    intro ts h
    obtain ⟨attrs, gen, wh⟩ := hd
    simp only [Item.toks] at h
    replace h := unerase_append h; obtain ⟨t1, t7, rfl, h1, h7⟩ := h
    replace h1 := unerase_append h1; obtain ⟨t1, t6, rfl, h1, rfl⟩ := h1
    replace h1 := unerase_append h1; obtain ⟨t1, t5, rfl, h1, rfl⟩ := h1
    replace h1 := unerase_append h1; obtain ⟨t1, t4, rfl, h1, rfl⟩ := h1
    replace h1 := unerase_append h1; obtain ⟨t1, t3, rfl, h1, h3⟩ := h1
    replace h1 := unerase_append h1; obtain ⟨t1, t2, rfl, h1, rfl⟩ := h1
    obtain ⟨k, rfl⟩ := unerase_kw h3
    obtain ⟨sas, rfl, rfl⟩ := outer_spans d h1
    obtain ⟨g, sp, rfl, h8⟩ := unerase_group h7
    obtain ⟨p, rfl, rfl⟩ := punct_spans d (fun x _ => variant_spans d x) h8
    exact ⟨.enum (spansOf d [k, sp]) ⟨sas, t5, t6⟩ t2 t4 p, by simp [SItem.erase, SHead.erase], by simp [SItem.toks, spansOf]⟩
  | .union hd vis ident fields => by
    intro ts h
    obtain ⟨attrs, gen, wh⟩ := hd
    simp only [Item.toks] at h
    replace h := unerase_append h; obtain ⟨t1, t7, rfl, h1, h7⟩ := h
    replace h1 := unerase_append h1; obtain ⟨t1, t6, rfl, h1, rfl⟩ := h1
    replace h1 := unerase_append h1; obtain ⟨t1, t5, rfl, h1, rfl⟩ := h1
    replace h1 := unerase_append h1; obtain ⟨t1, t4, rfl, h1, rfl⟩ := h1
    replace h1 := unerase_append h1; obtain ⟨t1, t3, rfl, h1, h3⟩ := h1
    replace h1 := unerase_append h1; obtain ⟨t1, t2, rfl, h1, rfl⟩ := h1
    obtain ⟨k, rfl⟩ := unerase_kw h3
    obtain ⟨sas, rfl, rfl⟩ := outer_spans d h1
    obtain ⟨g, sp, rfl, h8⟩ := unerase_group h7
    obtain ⟨p, rfl, rfl⟩ := punct_spans d (fun x _ => field_spans d x) h8
    exact ⟨.union (spansOf d [k, sp]) ⟨sas, t5, t6⟩ t2 t4 p, by simp [SItem.erase, SHead.erase], by simp [SItem.toks, spansOf]⟩
  | .trait hd vis u a ident supertraits items => by
    have ih := traitItems_spans items
    intro ts h
    obtain ⟨attrs, gen, wh⟩ := hd
    simp only [Item.toks] at h
    replace h := unerase_append h; obtain ⟨t1, t10, rfl, h1, h10⟩ := h
    replace h1 := unerase_append h1; obtain ⟨t1, t9, rfl, h1, rfl⟩ := h1
    replace h1 := unerase_append h1; obtain ⟨t1, t8, rfl, h1, h8⟩ := h1
    replace h1 := unerase_append h1; obtain ⟨t1, t7, rfl, h1, rfl⟩ := h1
    replace h1 := unerase_append h1; obtain ⟨t1, t6, rfl, h1, rfl⟩ := h1
    replace h1 := unerase_append h1; obtain ⟨t1, t5, rfl, h1, h5⟩ := h1
    replace h1 := unerase_append h1; obtain ⟨t1, t4, rfl, h1, h4⟩ := h1
    replace h1 := unerase_append h1; obtain ⟨t1, t3, rfl, h1, h3⟩ := h1
    replace h1 := unerase_append h1; obtain ⟨t1, t2, rfl, h1, rfl⟩ := h1
    obtain ⟨k0, rfl⟩ := unerase_kwIf d h3
    obtain ⟨k1, rfl⟩ := unerase_kwIf d h4
    obtain ⟨k2, rfl⟩ := unerase_kw h5
    obtain ⟨k3, sup, rfl, rfl⟩ := super_spans d h8
    obtain ⟨g, k4, rfl, h11⟩ := unerase_group h10
    replace h11 := unerase_append h11; obtain ⟨g1, g2, rfl, h12, h13⟩ := h11
    obtain ⟨sas, rfl, rfl, rfl⟩ := attrs_spans d h1 h12
    obtain ⟨is, rfl, rfl⟩ := ih _ h13
    exact ⟨.trait (spansOf d [k0, k1, k2, k3, k4]) ⟨sas, t7, t9⟩ t2 u a t6 sup is, by simp [SItem.erase, SHead.erase], by simp [SItem.toks, spansOf]⟩
  | .impl hd df u trait_ selfTy items => by
    have ih := implItems_spans items
    intro ts h
    obtain ⟨attrs, gen, wh⟩ := hd
    simp only [Item.toks] at h
    replace h := unerase_append h; obtain ⟨t1, t9, rfl, h1, h9⟩ := h
    replace h1 := unerase_append h1; obtain ⟨t1, t8, rfl, h1, rfl⟩ := h1
    replace h1 := unerase_append h1; obtain ⟨t1, t7, rfl, h1, rfl⟩ := h1
    replace h1 := unerase_append h1; obtain ⟨t1, t6, rfl, h1, h6⟩ := h1
    replace h1 := unerase_append h1; obtain ⟨t1, t5, rfl, h1, rfl⟩ := h1
    replace h1 := unerase_append h1; obtain ⟨t1, t4, rfl, h1, h4⟩ := h1
    replace h1 := unerase_append h1; obtain ⟨t1, t3, rfl, h1, h3⟩ := h1
    replace h1 := unerase_append h1; obtain ⟨t1, t2, rfl, h1, h2⟩ := h1
    obtain ⟨k0, rfl⟩ := unerase_kwIf d h2
    obtain ⟨k1, rfl⟩ := unerase_kwIf d h3
    obtain ⟨k2, rfl⟩ := unerase_kw h4
    obtain ⟨k3, k4, tr, rfl, rfl⟩ := implTrait_spans d h6
    obtain ⟨g, k5, rfl, h11⟩ := unerase_group h9
    replace h11 := unerase_append h11; obtain ⟨g1, g2, rfl, h12, h13⟩ := h11
    obtain ⟨sas, rfl, rfl, rfl⟩ := attrs_spans d h1 h12
    obtain ⟨is, rfl, rfl⟩ := ih _ h13
    exact ⟨.impl (spansOf d [k0, k1, k2, k3, k4, k5]) ⟨sas, t5, t8⟩ df u tr t7 is, by simp [SItem.erase, SHead.erase], by simp [SItem.toks, spansOf]⟩
  | .mod attrs vis u ident none => by
    intro ts h
    simp only [Item.toks] at h
    replace h := unerase_append h; obtain ⟨t1, t6, rfl, h1, h6⟩ := h
    replace h1 := unerase_append h1; obtain ⟨t1, t5, rfl, h1, rfl⟩ := h1
    replace h1 := unerase_append h1; obtain ⟨t1, t4, rfl, h1, h4⟩ := h1
    replace h1 := unerase_append h1; obtain ⟨t1, t3, rfl, h1, h3⟩ := h1
    replace h1 := unerase_append h1; obtain ⟨t1, t2, rfl, h1, rfl⟩ := h1
    obtain ⟨k0, rfl⟩ := unerase_kwIf d h3
    obtain ⟨k1, rfl⟩ := unerase_kw h4
    obtain ⟨k2, rfl⟩ := unerase_punct h6
    obtain ⟨sas, rfl, rfl⟩ := outer_spans d h1
    exact ⟨.mod (spansOf d [k0, k1, k2]) sas t2 u t5 none, by simp [SItem.erase], by simp [SItem.toks, spansOf]⟩
  | .mod attrs vis u ident (some items) => by
    have ih := items_spans items
    intro ts h
    simp only [Item.toks] at h
    replace h := unerase_append h; obtain ⟨t1, t6, rfl, h1, h6⟩ := h
    replace h1 := unerase_append h1; obtain ⟨t1, t5, rfl, h1, rfl⟩ := h1
    replace h1 := unerase_append h1; obtain ⟨t1, t4, rfl, h1, h4⟩ := h1
    replace h1 := unerase_append h1; obtain ⟨t1, t3, rfl, h1, h3⟩ := h1
    replace h1 := unerase_append h1; obtain ⟨t1, t2, rfl, h1, rfl⟩ := h1
    obtain ⟨k0, rfl⟩ := unerase_kwIf d h3
    obtain ⟨k1, rfl⟩ := unerase_kw h4
    obtain ⟨g, k2, rfl, h11⟩ := unerase_group h6
    replace h11 := unerase_append h11; obtain ⟨g1, g2, rfl, h12, h13⟩ := h11
    obtain ⟨sas, rfl, rfl, rfl⟩ := attrs_spans d h1 h12
    obtain ⟨is, rfl, rfl⟩ := ih _ h13
    exact ⟨.mod (spansOf d [k0, k1, k2]) sas t2 u t5 (some is), by simp [SItem.erase], by simp [SItem.toks, spansOf]⟩
  | .foreignMod attrs u abi items => by
    intro ts h
    simp only [Item.toks] at h
    replace h := unerase_append h; obtain ⟨t1, t5, rfl, h1, h5⟩ := h
    replace h1 := unerase_append h1; obtain ⟨t1, t4, rfl, h1, h4⟩ := h1
    replace h1 := unerase_append h1; obtain ⟨t1, t3, rfl, h1, h3⟩ := h1
    replace h1 := unerase_append h1; obtain ⟨t1, t2, rfl, h1, h2⟩ := h1
    obtain ⟨k0, rfl⟩ := unerase_kwIf d h2
    obtain ⟨k1, rfl⟩ := unerase_kw h3
    obtain ⟨g, k2, rfl, h11⟩ := unerase_group h5
    replace h11 := unerase_append h11; obtain ⟨g1, g2, rfl, h12, h13⟩ := h11
    obtain ⟨sas, rfl, rfl, rfl⟩ := attrs_spans d h1 h12
    obtain ⟨is, rfl, rfl⟩ := flatten_spans h13
    cases abi with
    | none =>
      cases unerase_nil h4
      exact ⟨.foreignMod (spansOf d [k0, k1, k2]) sas u none is, by simp [SItem.erase], by simp [SItem.toks, spansOf]⟩
    | some s =>
      exact ⟨.foreignMod (spansOf d [k0, k1, k2]) sas u (some t4) is, by simpa [SItem.erase] using h4, by simp [SItem.toks, spansOf]⟩
  | .other us => by
    intro ts h
    exact ⟨.other ts, by simpa [SItem.erase, Item.toks] using h, by simp [SItem.toks]⟩
theorem items_spans : ∀ is : List Item, AnySpans itemsToks itemsToksS (SItem.eraseL (σ := σ)) is
  | [] => by
    intro ts h
    simp only [itemsToks] at h
    cases unerase_nil h
    exact ⟨[], by simp [SItem.eraseL], by simp [itemsToksS]⟩
  | s :: ss => by
    intro ts h
    simp only [itemsToks] at h
    replace h := unerase_append h; obtain ⟨t1, t2, rfl, h1, h2⟩ := h
    obtain ⟨y, rfl, rfl⟩ := item_spans s _ h1
    obtain ⟨ys, rfl, rfl⟩ := items_spans ss _ h2
    exact ⟨y :: ys, by simp [SItem.eraseL], by simp [itemsToksS]⟩
theorem traitItem_spans : ∀ i : TraitItem, AnySpans TraitItem.toks STraitItem.toks (STraitItem.erase (σ := σ)) i
  | .fn attrs sig none => by
    intro ts h
    simp only [TraitItem.toks] at h
    replace h := unerase_append h; obtain ⟨t1, t3, rfl, h1, h3⟩ := h
    replace h1 := unerase_append h1; obtain ⟨t1, t2, rfl, h1, rfl⟩ := h1
    obtain ⟨sas, rfl, rfl⟩ := outer_spans d h1
    obtain ⟨k, rfl⟩ := unerase_punct h3
    exact ⟨.fn (spansOf d [k]) sas t2 none, by simp [STraitItem.erase], by simp [STraitItem.toks, spansOf]⟩
  | .fn attrs sig (some block) => by
    have ih := stmts_spans block
    intro ts h
    simp only [TraitItem.toks] at h
    replace h := unerase_append h; obtain ⟨t1, t3, rfl, h1, h3⟩ := h
    replace h1 := unerase_append h1; obtain ⟨t1, t2, rfl, h1, rfl⟩ := h1
    obtain ⟨g, k, rfl, h5⟩ := unerase_group h3
    replace h5 := unerase_append h5; obtain ⟨g1, g2, rfl, h6, h7⟩ := h5
    obtain ⟨sas, rfl, rfl, rfl⟩ := attrs_spans d h1 h6
    obtain ⟨ss, rfl, rfl⟩ := ih _ h7
    exact ⟨.fn (spansOf d [k]) sas t2 (some ss), by simp [STraitItem.erase], by simp [STraitItem.toks, spansOf]⟩
  | .other us => by
    intro ts h
    exact ⟨.other ts, by simpa [STraitItem.erase, TraitItem.toks] using h, by simp [STraitItem.toks]⟩
theorem traitItems_spans : ∀ is : List TraitItem, AnySpans traitItemsToks traitItemsToksS (STraitItem.eraseL (σ := σ)) is
  | [] => by
    intro ts h
    simp only [traitItemsToks] at h
    cases unerase_nil h
    exact ⟨[], by simp [STraitItem.eraseL], by simp [traitItemsToksS]⟩
  | s :: ss => by
    intro ts h
    simp only [traitItemsToks] at h
    replace h := unerase_append h; obtain ⟨t1, t2, rfl, h1, h2⟩ := h
    obtain ⟨y, rfl, rfl⟩ := traitItem_spans s _ h1
    obtain ⟨ys, rfl, rfl⟩ := traitItems_spans ss _ h2
    exact ⟨y :: ys, by simp [STraitItem.eraseL], by simp [traitItemsToksS]⟩
theorem implItem_spans : ∀ i : ImplItem, AnySpans ImplItem.toks SImplItem.toks (SImplItem.erase (σ := σ)) i
  | .fn attrs vis df sig block => by
    have ih := stmts_spans block
    intro ts h
    simp only [ImplItem.toks] at h
    replace h := unerase_append h; obtain ⟨t1, t5, rfl, h1, h5⟩ := h
    replace h1 := unerase_append h1; obtain ⟨t1, t4, rfl, h1, rfl⟩ := h1
    replace h1 := unerase_append h1; obtain ⟨t1, t3, rfl, h1, h3⟩ := h1
    replace h1 := unerase_append h1; obtain ⟨t1, t2, rfl, h1, rfl⟩ := h1
    obtain ⟨k0, rfl⟩ := unerase_kwIf d h3
    obtain ⟨g, k1, rfl, h8⟩ := unerase_group h5
    replace h8 := unerase_append h8; obtain ⟨g1, g2, rfl, h6, h7⟩ := h8
    obtain ⟨sas, rfl, rfl, rfl⟩ := attrs_spans d h1 h6
    obtain ⟨ss, rfl, rfl⟩ := ih _ h7
    exact ⟨.fn (spansOf d [k0, k1]) sas t2 df t4 ss, by simp [SImplItem.erase], by simp [SImplItem.toks, spansOf]⟩
  | .other us => by
    intro ts h
    exact ⟨.other ts, by simpa [SImplItem.erase, ImplItem.toks] using h, by simp [SImplItem.toks]⟩
theorem implItems_spans : ∀ is : List ImplItem, AnySpans implItemsToks implItemsToksS (SImplItem.eraseL (σ := σ)) is
  | [] => by
    intro ts h
    simp only [implItemsToks] at h
    cases unerase_nil h
    exact ⟨[], by simp [SImplItem.eraseL], by simp [implItemsToksS]⟩
  | s :: ss => by
    intro ts h
    simp only [implItemsToks] at h
    replace h := unerase_append h; obtain ⟨t1, t2, rfl, h1, h2⟩ := h
    obtain ⟨y, rfl, rfl⟩ := implItem_spans s _ h1
    obtain ⟨ys, rfl, rfl⟩ := implItems_spans ss _ h2
    exact ⟨y :: ys, by simp [SImplItem.eraseL], by simp [implItemsToksS]⟩
end

end

end Verif
