import Verif.Spec.Origin
import Verif.Proofs.Depth
/-! # Where the tokens of values and of the output come from -/

namespace Verif
open Spec

set_option linter.unusedSectionVars false

/-- Everything in the code has the property. -/
def All (P : Glyph → Prop) (ts : Toks) : Prop := ∀ g ∈ glyphs ts, P g

theorem glyphs_append : ∀ (a b : Toks), glyphs (a ++ b) = glyphs a ++ glyphs b
  | [], _ => rfl
  | t :: a, b => by simp [glyphs, glyphs_append a b]

section
variable {P : Glyph → Prop}

theorem all_nil : All P [] := by simp [All, glyphs]

theorem all_append {a b : Toks} : All P (a ++ b) ↔ All P a ∧ All P b := by
  simp only [All, glyphs_append, List.mem_append]
  exact ⟨fun h => ⟨fun g hg => h g (.inl hg), fun g hg => h g (.inr hg)⟩, fun h g hg => hg.elim (h.1 g) (h.2 g)⟩

theorem all_cons {t : Tok} {ts : Toks} : All P (t :: ts) ↔ All P [t] ∧ All P ts := all_append (a := [t])

theorem all_group {d : Delim} {ts : Toks} : All P [.group d ts] ↔ P (.delim d) ∧ All P ts := by
  simp [All, glyphs, glyphsTok]

theorem all_ident {s : Str} : All P [.ident s] ↔ P (.name s) := by simp [All, glyphs, glyphsTok]

theorem all_punct {c : Char} {j : Bool} : All P [.punct c j] ↔ P (.sign c) := by simp [All, glyphs, glyphsTok]

theorem all_str {r v : Str} : All P [.lit (.str r v)] ↔ P (.str v) := by simp [All, glyphs, glyphsTok]

theorem all_int {r : Str} {v : Nat} : All P [.lit (.int r v)] ↔ P (.int r v) := by simp [All, glyphs, glyphsTok]

theorem all_other {r : Str} : All P [.lit (.other r)] ↔ P (.other r) := by simp [All, glyphs, glyphsTok]

theorem all_litInt {i : IntLit} : All P (VKind.toTokens (.litInt i)) ↔ (i.neg = true → P (.sign '-')) ∧ P (.int i.repr i.val) := by
  simp only [VKind.toTokens, IntLit.toTokens, all_append, all_int]
  cases i.neg <;> simp [all_nil, all_punct]

theorem After.all {a b : Toks} (h : After a b) (ha : All P a) : All P b := by
  induction h with
  | refl => exact ha
  | tail _ ih => exact ih (all_cons.1 ha).2
  | enter _ ih => exact ih (all_append.2 ⟨(all_group.1 (all_cons.1 ha).1).2, (all_cons.1 ha).2⟩)

theorem Spec.First.all {ts : Toks} {t : Tok} {r : Toks} (h : First ts t r) (hts : All P ts) : All P [t] := (all_cons.1 (h.after.all hts)).1

theorem hereditary_all : Hereditary (All P) where
  after h ha := h.all ha
  inside h _ ha := (all_group.1 (h.all ha)).2

theorem pieces_all (ts : Toks) (h : All P ts) : ∀ p ∈ pieces ts, All P p := by
  fun_induction pieces ts with
  | case1 => simp
  | case2 j ts ih =>
    intro p hp
    rcases List.mem_cons.1 hp with rfl | hp
    · exact all_nil
    · exact ih (all_cons.1 h).2 p hp
  | case3 t ts _ he ih =>
    intro p hp
    simp only [List.mem_singleton] at hp
    subst hp
    exact (all_cons.1 h).1
  | case4 t ts _ q qs he ih =>
    intro p hp
    rw [he] at ih
    rcases List.mem_cons.1 hp with rfl | hp
    · exact all_cons.2 ⟨(all_cons.1 h).1, ih (all_cons.1 h).2 q (by simp)⟩
    · exact ih (all_cons.1 h).2 p (by simp [hp])

theorem take_all {ts : Toks} (h : All P ts) (n : Nat) : All P (ts.take n) := by
  rw [← List.take_append_drop n ts] at h
  exact (all_append.1 h).1

theorem readsValue_all {Y : Syn} {ts : Toks} {v : VKind} {r : Toks} (h : ReadsValue Y ts v r) (hts : All P ts) : All P v.toTokens := by
  cases h with
  | longest i _ used _ h =>
    cases h with
    | int h => exact all_litInt.2 ⟨by simp, all_int.1 (h.all hts)⟩
    | negInt h h' => exact all_litInt.2 ⟨fun _ => all_punct.1 (h.all hts), all_int.1 (h'.all (all_cons.1 (h.after.all hts)).2)⟩
    | str h => exact h.all hts
    | underscore h => exact h.all hts
    | ident h => exact h.all hts
    | path _ n => exact take_all hts n
    | type _ n => exact take_all hts n
    | expr _ n => exact take_all hts n
  | tokens used rest _ h => subst h; exact (all_append.1 hts).1

mutual
/-- The values in an expression are written as its text is. -/
theorem readsExpr_all {known : Str → Bool} {Y : Syn} {e : Expr} {ts rest : Toks} (h : ReadsExpr known Y ts e rest) (hts : All P ts) :
    ∀ k ∈ leaves e, All P k.toTokens := by
  match e with
  | .value id v =>
    cases h with
    | value _ _ h => intro k hk; simp only [leaves, List.mem_singleton] at hk; subst hk; exact readsValue_all h hts
  | .call id n args raw =>
    have call : ∀ {n raw rest}, CallAt known ts n raw rest → All P raw := by
      intro n raw rest h
      cases h with
      | mk h _ _ h' => exact (all_group.1 (h'.all (all_cons.1 (h.after.all hts)).2)).2
    cases h with
    | call _ rid h ha =>
      have h1 := call h
      have h2 := readsPieces_all ha (pieces_all _ h1)
      intro k hk
      simp only [leaves, Option.map_some, Option.toList_some, List.mem_append, List.mem_singleton] at hk
      rcases hk with rfl | hk
      · exact h1
      · exact h2 k hk
    | dropped _ rid h _ _ =>
      have h1 := call h
      intro k hk
      simp only [leaves, leavesL, Option.map_some, Option.toList_some, List.append_nil, List.mem_singleton] at hk
      subst hk
      exact h1
theorem readsPieces_all {known : Str → Bool} {Y : Syn} {es : List Expr} {ps : List Toks} (h : ReadsPieces known Y ps es) (hps : ∀ p ∈ ps, All P p) :
    ∀ k ∈ leavesL es, All P k.toTokens := by
  match es with
  | [] => simp [leavesL]
  | e :: es =>
    cases h with
    | cons h hs =>
      have h1 := readsExpr_all h (hps _ List.mem_cons_self)
      have h2 := readsPieces_all hs (fun p hp => hps p (List.mem_cons_of_mem _ hp))
      intro k hk
      simp only [leavesL, List.mem_append] at hk
      exact hk.elim (h1 k) (h2 k)
end

mutual
theorem leaves_erase (e : Expr) : leaves e.erase = leaves e := by
  match e with
  | .value _ _ => rfl
  | .call _ n args raw => cases raw <;> simp [Expr.erase, leaves, leavesL_erase args]
theorem leavesL_erase (es : List Expr) : leavesL (Expr.eraseL es) = leavesL es := by
  match es with
  | [] => rfl
  | e :: es => simp only [Expr.eraseL, leavesL, leaves_erase e, leavesL_erase es]
end

/-- The values of an input are written as the input is. -/
theorem reads_all {W : World} {inv : Invocation} {a : PAst} (h : Reads W inv a) (hP : All P (headerToks inv)) :
    ∀ e ∈ exprsIn (tree a), ∀ k ∈ leaves e, All P k.toTokens := by
  intro x hx
  obtain ⟨e, ts', r, h1, rfl, h2⟩ := reads_inside hereditary_all h hP x hx
  rw [leaves_erase]
  exact readsExpr_all h1 h2

/-! ## Values -/

theorem parseIdent_all {ts : Toks} {s : Str} (h : parseIdent ts = some s) (hts : All P ts) : P (.name s) := by
  unfold parseIdent at h
  split at h
  · split at h
    · cases h
    · cases h; exact all_ident.1 hts
  · cases h

theorem parseLitStr_all {ts : Toks} {p : Str × Str} (h : parseLitStr ts = some p) (hts : All P ts) : P (.str p.2) := by
  unfold parseLitStr at h
  split at h
  · cases h; exact all_str.1 hts
  · cases h

theorem parseLitInt_all {ts : Toks} {i : IntLit} (h : parseLitInt ts = some i) (hts : All P ts) : All P (VKind.toTokens (.litInt i)) := by
  unfold parseLitInt at h
  split at h
  · cases h; exact all_litInt.2 ⟨by simp, all_int.1 hts⟩
  · cases h; exact all_litInt.2 ⟨fun _ => all_punct.1 (all_cons.1 hts).1, all_int.1 (all_cons.1 hts).2⟩
  · cases h

/-- Casts make names and strings only. -/
theorem tryCast_all {E : Ext} {v w : VKind} {t : Ty} (h : tryCast E v t = .ok w) (hv : All P v.toTokens) (hn : t = .ident → ∀ s, P (.name s))
    (hs : t = .litStr → ∀ s, P (.str s)) : All P w.toTokens := by
  have asIdent : ∀ {s}, t = .ident → litStrAsIdent E s = .ok w → All P w.toTokens := by
    intro s ht h
    obtain ⟨a, -, rfl⟩ := ofOption_ok h
    exact all_ident.2 (hn ht a)
  unfold tryCast at h
  split at h
  · cases h; exact hv
  · split at h
    all_goals first
      | (cases h; done)
      | (cases h; exact hv)
      | (split at h <;> first | (cases h; exact hv) | (cases h; done))
      | exact asIdent rfl h
      | (obtain ⟨a, ha, rfl⟩ := ofOption_ok h; first | exact parseLitInt_all ha hv | exact all_str.2 (hs rfl _))
      | (split at h
         · exact asIdent rfl h
         · obtain ⟨a, ha, rfl⟩ := ofOption_ok h; exact all_ident.2 (hn rfl _))
      | (split at h
         · cases h; exact all_str.2 (hs rfl _)
         · obtain ⟨a, ha, rfl⟩ := ofOption_ok h; exact all_str.2 (hs rfl _))

theorem newIdent_all {E : Ext} {s : Str} {v : VKind} (h : newIdent E s = .ok v) (hn : ∀ s, P (.name s)) : All P v.toTokens := by
  unfold newIdent at h
  split at h <;> cases h
  exact all_ident.2 (hn s)

theorem allOf_tokens_all : ∀ {vs : List VKind} {tss : List Toks}, allOf VKind.asTokens vs = .ok tss → (∀ v ∈ vs, All P v.toTokens) → All P tss.flatten
  | [], _, h, _ => by cases h; exact all_nil
  | v :: vs, _, h, hD => by
    rw [allOf] at h
    cases v <;> simp only [VKind.asTokens] at h <;> try (cases h; done)
    next ts =>
    cases hr : allOf VKind.asTokens vs with
    | ok l =>
      rw [hr] at h
      cases h
      exact all_append.2 ⟨hD _ List.mem_cons_self, allOf_tokens_all hr fun v hv => hD v (List.mem_cons_of_mem _ hv)⟩
    | err x => rw [hr] at h; cases h
    | panic => rw [hr] at h; cases h

theorem allOf_ints_all : ∀ {vs : List VKind} {is : List IntLit}, allOf VKind.asLitInt vs = .ok is → (∀ v ∈ vs, All P v.toTokens) →
    ∀ i ∈ is, All P (VKind.toTokens (.litInt i))
  | [], _, h, _ => by cases h; simp
  | v :: vs, _, h, hD => by
    rw [allOf] at h
    cases v <;> simp only [VKind.asLitInt] at h <;> try (cases h; done)
    next i =>
    cases hr : allOf VKind.asLitInt vs with
    | ok l =>
      rw [hr] at h
      cases h
      intro j hj
      rcases List.mem_cons.1 hj with rfl | hj
      · exact hD _ List.mem_cons_self
      · exact allOf_ints_all hr (fun v hv => hD v (List.mem_cons_of_mem _ hv)) j hj
    | err x => rw [hr] at h; cases h
    | panic => rw [hr] at h; cases h

theorem newLitInt_neg {s : Str} {i : IntLit} (h : newLitInt s = .ok i) (hi : i.neg = true) : '-' ∈ s := by
  unfold newLitInt at h
  cases s with
  | nil => cases h
  | cons c s =>
    by_cases hc : c = '-'
    · subst hc; exact List.mem_cons_self
    · split at h
      rename_i neg ds he
      split at he
      · rename_i hs; cases hs; exact absurd rfl hc
      · cases he
        split at h
        · cases h; cases hi
        · cases h

/-- A number joined from numbers is negative only if one of them is. -/
theorem newLitInt_all {is : List IntLit} {i : IntLit} (h : newLitInt (concatStrs (is.map IntLit.digits)) = .ok i)
    (his : ∀ j ∈ is, All P (VKind.toTokens (.litInt j))) (hi : ∀ r v, P (.int r v)) : All P (VKind.toTokens (.litInt i)) := by
  refine all_litInt.2 ⟨fun hn => ?_, hi _ _⟩
  have := newLitInt_neg h hn
  simp only [concatStrs, List.mem_flatten, List.mem_map] at this
  obtain ⟨_, ⟨j, hj, rfl⟩, hm⟩ := this
  refine (all_litInt.1 (his j hj)).1 ?_
  simp only [IntLit.digits, List.mem_append] at hm
  rcases hm with hm | hm
  · cases hb : j.neg with
    | true => rfl
    | false => rw [hb] at hm; simp at hm
  · exact absurd (decimal_digits _ hm) (by decide)

/-- The functions make names, strings and numbers only. -/
theorem builtins_all {E : Ext} {seed : Nat} {f : Func} (hf : f ∈ builtins) {vs : List VKind} {r : VKind} (h : f.impl E seed vs = .ok r)
    (hn : f.name ∈ nameMakers → ∀ s, P (.name s)) (hs : f.name ∈ strMakers → ∀ s, P (.str s)) (hi : f.name = S "concat" → ∀ r v, P (.int r v))
    (hvs : ∀ v ∈ vs, All P v.toTokens) : All P r.toTokens := by
  have casts : ∀ id name t, (castFunc id name t).impl E seed vs = .ok r → (t = .ident → ∀ s, P (.name s)) → (t = .litStr → ∀ s, P (.str s)) →
      All P r.toTokens := by
    intro id name t h h1 h2
    simp only [castFunc] at h
    split at h
    · exact tryCast_all h (hvs _ (by simp)) h1 h2
    · cases h
  have norms : ∀ id t, f = normalize2For id t → All P r.toTokens := by
    rintro id t rfl
    simp only [normalize2For] at h
    split at h
    · split at h
      · exact newIdent_all h (hn (show c! "normalize2" ∈ nameMakers by decide))
      · cases h
    · cases h
  have strs : ∀ id name g, name ∈ nameMakers → name ∈ strMakers → f ∈ strFuncs id name g → All P r.toTokens := by
    intro id name g h1 h2 hf
    simp only [strFuncs, List.mem_cons, List.not_mem_nil, or_false] at hf
    rcases hf with rfl | rfl <;> (simp only at h; split at h)
    · cases h; exact all_str.2 (hs h2 _)
    · cases h
    · exact newIdent_all h (hn h1)
    · cases h
  simp only [builtins, hashFuncs, List.mem_append, List.mem_cons, List.not_mem_nil, or_false] at hf
  rcases hf with ((((((hf | hf) | hf) | hf) | hf) | hf) | hf) | hf
  · exact strs _ _ _ (by decide) (by decide) hf
  · exact strs _ _ _ (by decide) (by decide) hf
  · exact strs _ _ _ (by decide) (by decide) hf
  · exact strs _ _ _ (by decide) (by decide) hf
  · exact strs _ _ _ (by decide) (by decide) hf
  · rcases hf with rfl | hf
    · simp only [normalizeFunc] at h
      split at h
      · exact newIdent_all h (hn (show c! "normalize" ∈ nameMakers by decide))
      · cases h
    · rcases hf with hf | hf | hf | hf | hf | hf | hf <;> exact norms _ _ hf
  · rcases hf with rfl | rfl | rfl <;> (simp only at h; split at h)
    · cases h; exact all_str.2 (hs (show c! "hash" ∈ strMakers by decide) _)
    · cases h
    · exact newIdent_all h (hn (show c! "hash" ∈ nameMakers by decide))
    · cases h
    · exact newIdent_all h (hn (show c! "hash" ∈ nameMakers by decide))
    · cases h
  · rcases hf with rfl | rfl | rfl | rfl | rfl | rfl | rfl | rfl | rfl | rfl | rfl | rfl | rfl
    · simp only [concatIdents, Res.bind_eq] at h
      obtain ⟨l, -, h⟩ := Res.bind_eq_ok.1 h
      exact newIdent_all h (hn (show c! "concat" ∈ nameMakers by decide))
    · simp only [concatIdentTokens] at h
      split at h
      · cases h
      · simp only [Res.bind_eq] at h
        obtain ⟨l, -, h⟩ := Res.bind_eq_ok.1 h
        split at h
        · cases h; exact all_ident.2 (hn (show c! "concat" ∈ nameMakers by decide) _)
        · cases h
    · simp only [concatLitStrs, Res.bind_eq] at h
      obtain ⟨l, -, h⟩ := Res.bind_eq_ok.1 h
      cases h
      exact all_str.2 (hs (show c! "concat" ∈ strMakers by decide) _)
    · simp only [concatLitInts, Res.bind_eq] at h
      obtain ⟨l, hl, h⟩ := Res.bind_eq_ok.1 h
      obtain ⟨i, hi', h⟩ := Res.bind_eq_ok.1 h
      cases h
      exact newLitInt_all hi' (allOf_ints_all hl hvs) (hi rfl)
    · simp only [concatTokens, Res.bind_eq] at h
      obtain ⟨l, hl, h⟩ := Res.bind_eq_ok.1 h
      cases h
      exact allOf_tokens_all hl hvs
    · exact casts _ _ _ h (fun _ => hn (show c! "to_ident" ∈ nameMakers by decide)) (fun h => by cases h)
    · exact casts _ _ _ h (fun h => by cases h) (fun h => by cases h)
    · exact casts _ _ _ h (fun h => by cases h) (fun h => by cases h)
    · exact casts _ _ _ h (fun h => by cases h) (fun h => by cases h)
    · exact casts _ _ _ h (fun h => by cases h) (fun _ => hs (show c! "to_str" ∈ strMakers by decide))
    · exact casts _ _ _ h (fun h => by cases h) (fun h => by cases h)
    · simp only [toTokensFunc] at h
      split at h
      · cases h; exact hvs (.tokens _) List.mem_cons_self
      · cases h
    · simp only [rawFunc] at h
      split at h
      · cases h; exact hvs (.raw _) List.mem_cons_self
      · cases h

/-- The values of definitions are written with what the definitions are written with, and with names, strings and numbers that their functions make. -/
theorem outcome_all {E : Ext} {env : Env} (henv : env.funcs = builtinFuncs) {ds : List (Str × Expr)} {vs : Subs} (h : outcome E env ds = .ok vs)
    (hl : ∀ d ∈ ds, ∀ k ∈ leaves d.2, All P k.toTokens) (hn : (∃ d ∈ ds, ∃ f ∈ nameMakers, f ∈ calls d.2) → ∀ s, P (.name s))
    (hs : (∃ d ∈ ds, ∃ f ∈ strMakers, f ∈ calls d.2) → ∀ s, P (.str s)) (hi : (∃ d ∈ ds, S "concat" ∈ calls d.2) → ∀ r v, P (.int r v)) :
    ∀ p ∈ vs, All P p.2.toTokens := by
  rw [outcome_ok] at h
  have h := h.2
  unfold denote at h
  split at h
  · cases h
  · rename_i tes hc
    refine (spec_keeps (E := E) (env := env) henv (P := fun v => All P v.toTokens) (fun v hv => ⟨hv, hv⟩) hc typed_empty
      (fun _ _ h => by cases h) hl (fun d hd g hg hgc vs _ hvs r hr => builtins_all hg hr (fun hm => hn ⟨d, hd, _, hm, hgc⟩)
        (fun hm => hs ⟨d, hd, _, hm, hgc⟩) (fun hm => hi ⟨d, hd, hm ▸ hgc⟩) hvs)).2 vs h

/-! ## Code -/

section
variable {look : Str → Option Toks} {str : Str → Lit}

mutual
theorem substTok_all (hl : ∀ n u, look n = some u → All P u) (t : Tok) (ht : All P [t])
    (hs : ∀ v, Glyph.str v ∈ glyphs [t] → All P [.lit (str v)]) : All P (substTok look str t) := by
  match t with
  | .ident n =>
    rw [substTok]
    cases h : look n with
    | none => exact ht
    | some u => exact hl n u h
  | .lit (.str _ v) => exact hs v (by simp [glyphs, glyphsTok])
  | .group d ts =>
    have ih := substAll_all hl ts (all_group.1 ht).2 (fun v hv => hs v (by simp [glyphs, glyphsTok, hv]))
    exact all_group.2 ⟨(all_group.1 ht).1, ih⟩
  | .punct _ _ => exact ht
  | .lit (.int _ _) => exact ht
  | .lit (.other _) => exact ht
/-- Code after the replacement is written with what the code and the values are written with. -/
theorem substAll_all (hl : ∀ n u, look n = some u → All P u) (ts : Toks) (hts : All P ts)
    (hs : ∀ v, Glyph.str v ∈ glyphs ts → All P [.lit (str v)]) : All P (substAll look str ts) := by
  match ts with
  | [] => exact all_nil
  | t :: ts =>
    have h1 := substTok_all hl t (all_cons.1 hts).1 (fun v hv => hs v (by simp only [glyphs, List.append_nil, List.mem_append] at hv ⊢; exact .inl hv))
    have h2 := substAll_all hl ts (all_cons.1 hts).2 (fun v hv => hs v (by simp only [glyphs, List.mem_append]; exact .inr hv))
    exact all_append.2 ⟨h1, h2⟩
end
end

theorem inserts_all {xs : List Toks} {a b : Toks} (h : Inserts xs a b) : All P b ↔ All P a ∧ ∀ x ∈ xs, All P x := by
  induction h with
  | nil => simp [all_nil]
  | @keep xs a b t _ ih =>
    rw [all_cons, ih, all_cons (t := t) (ts := a)]
    exact and_assoc.symm
  | @group xs ys us vs a b d _ _ ih1 ih2 =>
    rw [all_cons, all_group, ih1, ih2, all_cons (t := .group d us) (ts := a), all_group]
    simp only [List.mem_append]
    constructor
    · rintro ⟨⟨h1, h2, h3⟩, h4, h5⟩
      exact ⟨⟨⟨h1, h2⟩, h4⟩, fun x hx => hx.elim (h3 x) (h5 x)⟩
    · rintro ⟨⟨⟨h1, h2⟩, h4⟩, h⟩
      exact ⟨⟨h1, h2, fun x hx => h x (.inl hx)⟩, h4, fun x hx => h x (.inr hx)⟩
  | @insert xs a b x _ ih =>
    rw [all_append, ih]
    simp only [List.mem_cons, forall_eq_or_imp]
    exact ⟨fun ⟨h1, h2, h3⟩ => ⟨h2, h1, h3⟩, fun ⟨h1, h2, h3⟩ => ⟨h2, h1, h3⟩⟩

theorem all_flatten {cs : List Toks} (h : ∀ c ∈ cs, All P c) : All P cs.flatten := by
  induction cs with
  | nil => exact all_nil
  | cons c cs ih => exact all_append.2 ⟨h c List.mem_cons_self, ih fun c hc => h c (List.mem_cons_of_mem _ hc)⟩

end

end Verif
