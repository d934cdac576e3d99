import Verif.Proofs.WriteOut
import Verif.Proofs.Reference
import Verif.Proofs.Funcs
import Verif.Spec.Flatten
/-! # Flattening `concat` -/

namespace Verif
open Spec

/-! ## The type of a call of `concat` -/

/-- The type of `concat` by the types of its arguments. -/
def joinTy (ts : List Ty) : Ty :=
  if ts.head? = some .ident then .ident
  else if ∀ t ∈ ts, t = .litStr then .litStr
  else if ∀ t ∈ ts, t = .litInt then .litInt
  else .tokens

theorem concat_rows : ∀ r ∈ reference, r.name = c! "concat" →
    (r.params = [.variadic .ident] ∧ r.out = .ident) ∨ (r.params = [.ident, .variadic .tokens] ∧ r.out = .ident) ∨
    (r.params = [.variadic .litStr] ∧ r.out = .litStr) ∨ (r.params = [.variadic .litInt] ∧ r.out = .litInt) ∨
    (r.params = [.variadic .tokens] ∧ r.out = .tokens) := by
  decide +kernel

theorem converts_strict {s t : Ty} (ht : t.strict) (h : Converts s t) : s = t := by
  rcases ht with rfl | rfl | rfl <;> cases h <;> rfl

theorem concat_hasType {Γ : TyEnv} {es : List Expr} {ts : List Ty} (hs : HasTypes Γ es ts) (hne : ts ≠ []) (i : Nat) (raw : Option (Nat × Toks)) :
    HasType Γ (.call i (c! "concat") es raw) (joinTy ts) := by
  have take : ∀ r ∈ reference, r.name = c! "concat" → Takes r.params ts → r.out = joinTy ts ∨ r.out = .tokens := by
    intro r hr hn ht
    rcases concat_rows r hr hn with ⟨h, h'⟩ | ⟨h, h'⟩ | ⟨h, h'⟩ | ⟨h, h'⟩ | ⟨h, h'⟩ <;> rw [h] at ht <;> rw [h'] <;> simp only [reduceCtorEq, or_false, or_true]
    · cases ht with
      | one hv => cases hv
      | many h =>
        have := converts_strict (.inl rfl) (h _ List.mem_cons_self)
        simp [joinTy, this]
    · cases ht with
      | one _ h _ =>
        have := converts_strict (.inl rfl) h
        simp [joinTy, this]
    · cases ht with
      | one hv => cases hv
      | many h =>
        have h : ∀ s ∈ _, s = Ty.litStr := fun s hs => converts_strict (.inr (.inl rfl)) (h s hs)
        unfold joinTy
        rw [if_neg (by rw [h _ List.mem_cons_self]; simp), if_pos h]
    · cases ht with
      | one hv => cases hv
      | many h =>
        have h : ∀ s ∈ _, s = Ty.litInt := fun s hs => converts_strict (.inr (.inr rfl)) (h s hs)
        unfold joinTy
        rw [if_neg (by rw [h _ List.mem_cons_self]; simp), if_neg (fun h' => by
          have h1 := h' _ List.mem_cons_self
          rw [h _ List.mem_cons_self] at h1
          cases h1), if_pos h]
  cases ts with
  | nil => exact absurd rfl hne
  | cons t ts =>
    generalize hj : joinTy (t :: ts) = j at *
    unfold joinTy at hj
    split at hj
    · rename_i h
      cases hj
      cases h
      cases ts with
      | nil =>
        exact .call i (r := ⟨c! "concat", [.variadic .ident], .ident⟩) hs (by decide +kernel) (fun h => by simp at h)
          (.many (by intro s h; simp only [List.mem_singleton] at h; rw [h]; exact .same _)) take
      | cons u ts =>
        exact .call i (r := ⟨c! "concat", [.ident, .variadic .tokens], .ident⟩) hs (by decide +kernel) (fun h => by simp at h)
          (.one rfl (.same _) (.many fun s _ => .tokens s)) take
    · split at hj
      · rename_i h
        cases hj
        exact .call i (r := ⟨c! "concat", [.variadic .litStr], .litStr⟩) hs (by decide +kernel) (fun h => by simp at h)
          (.many (by intro s hs; rw [h s hs]; exact .same _)) take
      · split at hj
        · rename_i h
          cases hj
          exact .call i (r := ⟨c! "concat", [.variadic .litInt], .litInt⟩) hs (by decide +kernel) (fun h => by simp at h)
            (.many (by intro s hs; rw [h s hs]; exact .same _)) take
        · cases hj
          exact .call i (r := ⟨c! "concat", [.variadic .tokens], .tokens⟩) hs (by decide +kernel) (fun h => by simp at h)
            (.many fun s _ => .tokens s) take

theorem hasType_unique {Γ : TyEnv} {e : Expr} {t t' : Ty} (h : HasType Γ e t) (h' : HasType Γ e t') : t = t' := by
  obtain ⟨c, te, h1, rfl⟩ := hasType_princ h
  obtain ⟨c', te', h1', rfl⟩ := hasType_princ h'
  cases princ_fun h1 h1'
  rfl

/-- The types of the arguments of a call of `concat`. -/
theorem concat_hasType_inv {Γ : TyEnv} {es : List Expr} {i : Nat} {raw : Option (Nat × Toks)} {t : Ty} (h : HasType Γ (.call i (c! "concat") es raw) t) :
    ∃ ts, HasTypes Γ es ts ∧ ts ≠ [] ∧ t = joinTy ts := by
  generalize hn : c! "concat" = n at h
  have h0 := h
  cases h with
  | unread _ _ raw hr hp =>
    rcases concat_rows _ hr hn.symm with ⟨h, -⟩ | ⟨h, -⟩ | ⟨h, -⟩ | ⟨h, -⟩ | ⟨h, -⟩ <;> rw [h] at hp <;> simp at hp
  | @call _ _ tys _ r hs hr hp ht hu =>
    have hne : tys ≠ [] := by
      rintro rfl
      rcases concat_rows _ hr hn.symm with ⟨h, -⟩ | ⟨h, -⟩ | ⟨h, -⟩ | ⟨h, -⟩ | ⟨h, -⟩ <;> rw [h] at ht <;> cases ht
    refine ⟨tys, hs, hne, hasType_unique h0 ?_⟩
    rw [← hn]
    exact concat_hasType hs hne i raw

theorem hasTypes_append {Γ : TyEnv} {es fs : List Expr} : ∀ {ts : List Ty}, HasTypes Γ (es ++ fs) ts ↔ ∃ us vs, ts = us ++ vs ∧ HasTypes Γ es us ∧ HasTypes Γ fs vs := by
  induction es with
  | nil =>
    intro ts
    constructor
    · intro h; exact ⟨[], ts, rfl, .nil, h⟩
    · rintro ⟨us, vs, rfl, h1, h2⟩; cases h1; exact h2
  | cons e es ih =>
    intro ts
    constructor
    · intro h
      cases h with
      | cons h hs =>
        obtain ⟨us, vs, rfl, h1, h2⟩ := ih.1 hs
        exact ⟨_ :: us, vs, rfl, .cons h h1, h2⟩
    · rintro ⟨us, vs, rfl, h1, h2⟩
      cases h1 with
      | cons h hs => exact .cons h (ih.2 ⟨_, _, rfl, hs, h2⟩)

/-- Flattened calls of the same type have that type. -/
theorem joinTy_flatten {as bs cs : List Ty} (hb : bs ≠ []) (h : joinTy (as ++ joinTy bs :: cs) = joinTy bs) : joinTy (as ++ bs ++ cs) = joinTy bs := by
  cases bs with
  | nil => exact absurd rfl hb
  | cons b bs =>
    generalize hj : joinTy (b :: bs) = j at *
    have hj' := hj
    unfold joinTy at hj'
    split at hj'
    · rename_i hh
      cases hh
      subst hj'
      cases as with
      | nil => simp [joinTy]
      | cons a as =>
        simp only [joinTy, List.cons_append, List.head?_cons] at h ⊢
        split at h
        · rename_i hh; rw [if_pos hh]
        · split at h
          · cases h
          · split at h <;> cases h
    · rename_i hhead
      split at hj'
      · rename_i hall
        subst hj'
        unfold joinTy at h
        split at h
        · cases h
        · rename_i hh
          split at h
          · rename_i hall'
            unfold joinTy
            rw [if_neg, if_pos]
            · intro t ht
              simp only [List.mem_append, List.mem_cons] at ht hall' hall
              rcases ht with (ht | ht) | ht
              · exact hall' t (.inl ht)
              · exact hall t ht
              · exact hall' t (.inr (.inr ht))
            · cases as with
              | nil => exact hhead
              | cons a as => exact hh
          · split at h <;> cases h
      · rename_i hall
        split at hj'
        · rename_i hall2
          subst hj'
          unfold joinTy at h
          split at h
          · cases h
          · rename_i hh
            split at h
            · cases h
            · split at h
              · rename_i hall'
                unfold joinTy
                rw [if_neg, if_neg, if_pos]
                · intro t ht
                  simp only [List.mem_append, List.mem_cons] at ht hall' hall2
                  rcases ht with (ht | ht) | ht
                  · exact hall' t (.inl ht)
                  · exact hall2 t ht
                  · exact hall' t (.inr (.inr ht))
                · intro h1
                  exact hall fun t ht => h1 t (by simp only [List.mem_append]; exact .inl (.inr ht))
                · cases as with
                  | nil => exact hhead
                  | cons a as => exact hh
              · cases h
        · rename_i hall2
          subst hj'
          unfold joinTy at h
          split at h
          · cases h
          · rename_i hh
            unfold joinTy
            rw [if_neg, if_neg, if_neg]
            · intro h1
              exact hall2 fun t ht => h1 t (by simp only [List.mem_append]; exact .inl (.inr ht))
            · intro h1
              exact hall fun t ht => h1 t (by simp only [List.mem_append]; exact .inl (.inr ht))
            · cases as with
              | nil => exact hhead
              | cons a as => exact hh

/-! ## The value of a call of `concat` -/

section
variable {E : Ext} {seed : Nat} {Γ : TyEnv} {ρ : Str → Option VKind}

/-- The value of an argument before it is cast to the type of the parameter. -/
def HasBase (E : Ext) (seed : Nat) (ρ : Str → Option VKind) (o : Option (Nat × TExpr)) (w : VKind) : Prop :=
  ∃ c te, o = some (c, te) ∧ te.base E seed ρ = .ok w

theorem hasBase_unique {os : List (Option (Nat × TExpr))} {ws : List VKind} (h : All2 (HasBase E seed ρ) os ws) :
    ∀ {ws'}, All2 (HasBase E seed ρ) os ws' → ws = ws' := by
  induction h with
  | nil => intro ws' h'; cases h'; rfl
  | cons h _ ih =>
    intro ws' h'
    cases h' with
    | cons h' hs' =>
      obtain ⟨c, te, rfl, h⟩ := h
      obtain ⟨c', te', he, h'⟩ := h'
      cases he
      rw [h] at h'
      cases h'
      rw [ih hs']

theorem hasBase_append {os os' : List (Option (Nat × TExpr))} {ws : List VKind} : All2 (HasBase E seed ρ) (os ++ os') ws ↔
    ∃ us vs, ws = us ++ vs ∧ All2 (HasBase E seed ρ) os us ∧ All2 (HasBase E seed ρ) os' vs := by
  induction os generalizing ws with
  | nil =>
    constructor
    · intro h; exact ⟨[], ws, rfl, .nil, h⟩
    · rintro ⟨us, vs, rfl, h1, h2⟩; cases h1; exact h2
  | cons o os ih =>
    constructor
    · intro h
      cases h with
      | cons h hs =>
        obtain ⟨us, vs, rfl, h1, h2⟩ := ih.1 hs
        exact ⟨_ :: us, vs, rfl, .cons h h1, h2⟩
    · rintro ⟨us, vs, rfl, h1, h2⟩
      cases h1 with
      | cons h hs => exact .cons h (ih.2 ⟨_, _, rfl, hs, h2⟩)

theorem own_append {es fs : List Expr} {ts us : List Ty} {os ps : List (Option (Nat × TExpr))} (h : Own Γ es os ts) (h' : Own Γ fs ps us) :
    Own Γ (es ++ fs) (os ++ ps) (ts ++ us) := by
  induction h with
  | nil => exact h'
  | cons h _ ih => exact .cons h ih

theorem costs_strict (hρ : Typed Γ ρ) {t : Ty} (ht : t.strict) {es : List Expr} {ts : List Ty} {os : List (Option (Nat × TExpr))} (ho : Own Γ es os ts) :
    ∀ {n k c tes vs}, Costs os (List.replicate n (t, k)) c tes → TExpr.evalL E seed ρ tes = .ok vs → All2 (HasBase E seed ρ) os vs := by
  induction ho with
  | nil =>
    intro n k c tes vs h hv
    generalize List.replicate n (t, k) = ps at h
    cases h
    cases hv
    exact .nil
  | cons hp _ ih =>
    intro n k c tes vs h hv
    cases n with
    | zero => cases h
    | succ n =>
      rw [List.replicate_succ] at h
      cases h with
      | cons h1 h2 =>
        obtain ⟨v, ws, hv1, hv2, rfl⟩ := evalL_cons.1 hv
        obtain ⟨b, hb1, hb2⟩ := eval_as.1 hv1
        cases hp with
        | types _ _ hck =>
          have hty := (base_ty hρ hck hb1).trans (coercionCost_strict ht h1).1
          rw [tryCast_refl hty] at hb2
          cases hb2
          exact .cons ⟨_, _, rfl, hb1⟩ (ih h2 hv2)

theorem tryCast_tokens {w v : VKind} (h : tryCast E w .tokens = .ok v) : v = .tokens w.toTokens := by
  unfold tryCast at h
  split at h
  · rename_i ht
    cases h
    cases w <;> simp only [VKind.ty, reduceCtorEq] at ht
    rfl
  · cases w <;> cases h <;> rfl

theorem costs_tokens {es : List Expr} {ts : List Ty} {os : List (Option (Nat × TExpr))} (ho : Own Γ es os ts) :
    ∀ {n k c tes vs}, Costs os (List.replicate n (.tokens, k)) c tes → TExpr.evalL E seed ρ tes = .ok vs →
      ∃ ws, All2 (HasBase E seed ρ) os ws ∧ vs = ws.map fun w => .tokens w.toTokens := by
  induction ho with
  | nil =>
    intro n k c tes vs h hv
    generalize List.replicate n (Ty.tokens, k) = ps at h
    cases h
    cases hv
    exact ⟨[], .nil, rfl⟩
  | cons hp _ ih =>
    intro n k c tes vs h hv
    cases n with
    | zero => cases h
    | succ n =>
      rw [List.replicate_succ] at h
      cases h with
      | cons h1 h2 =>
        obtain ⟨v, ws, hv1, hv2, rfl⟩ := evalL_cons.1 hv
        obtain ⟨b, hb1, hb2⟩ := eval_as.1 hv1
        obtain ⟨ws, h3, rfl⟩ := ih h2 hv2
        cases tryCast_tokens hb2
        exact ⟨b :: ws, .cons ⟨_, _, rfl, hb1⟩ h3, rfl⟩

/-- The name made of a text. -/
def Glues (E : Ext) (text s : Str) : Prop := (E.lexIdent text = true ∧ s = text) ∨ parseStrIdent E text = some s

theorem glues_unique (hE : PlainNames E) {text s s' : Str} (h : Glues E text s) (h' : Glues E text s') : s = s' := by
  have key : ∀ {s}, E.lexIdent text = true → parseStrIdent E text = some s → s = text := by
    intro s hl h
    simp only [parseStrIdent, hE.lex hl, Option.bind_some, parseIdent] at h
    split at h
    · cases h
    · cases h; rfl
  rcases h with ⟨h1, rfl⟩ | h
  · rcases h' with ⟨-, rfl⟩ | h'
    · rfl
    · exact (key h1 h').symm
  · rcases h' with ⟨h1, rfl⟩ | h'
    · exact key h1 h
    · rw [h] at h'; cases h'; rfl

/-- What `concat` makes of the values of its arguments. -/
inductive Joined (E : Ext) : Ty → List VKind → VKind → Prop
  | name {ws : List VKind} {s : Str} (h : Glues E (ws.map fun w => E.render w.toTokens).flatten s) : Joined E .ident ws (.ident s)
  | strs {ws : List VKind} {ss : List Str} (h : ws.map VKind.asLitStr = ss.map some) : Joined E .litStr ws (newLitStr E ss.flatten)
  | ints (ws : List VKind) (b : VKind) : Joined E .litInt ws b
  | toks (ws : List VKind) : Joined E .tokens ws (.tokens (ws.map VKind.toTokens).flatten)

theorem concat_funcs {f : Func} (hf : f ∈ builtins) (hn : f.name = c! "concat") :
    f = concatIdents 21 ∨ f = concatIdentTokens 22 ∨ f = concatLitStrs 23 ∨ f = concatLitInts 24 ∨ f = concatTokens 25 := by
  have key : ∀ f ∈ builtins, f.name = c! "concat" → f.id = 21 ∨ f.id = 22 ∨ f.id = 23 ∨ f.id = 24 ∨ f.id = 25 := by decide +kernel
  have eq : ∀ {g : Func}, g ∈ builtins → f.id = g.id → f = g := fun hg h => eq_of_nodup_map (f := (·.id)) (l := builtins) (by decide) hf hg h
  rcases key f hf hn with h | h | h | h | h
  · exact .inl (eq (g := concatIdents 21) (by simp [builtins]) h)
  · exact .inr (.inl (eq (g := concatIdentTokens 22) (by simp [builtins]) h))
  · exact .inr (.inr (.inl (eq (g := concatLitStrs 23) (by simp [builtins]) h)))
  · exact .inr (.inr (.inr (.inl (eq (g := concatLitInts 24) (by simp [builtins]) h))))
  · exact .inr (.inr (.inr (.inr (eq (g := concatTokens 25) (by simp [builtins]) h))))

theorem names_text (hE : PlainNames E) (ss : List Str) : ((ss.map VKind.ident).map fun w => E.render w.toTokens) = ss := by
  rw [List.map_map]
  conv => rhs; rw [← List.map_id ss]
  congr 1
  funext s
  exact hE.render s

theorem all_idents {vs : List VKind} {ss : List Str} (h : allOf VKind.asIdent vs = .ok ss) : vs = ss.map .ident := by
  replace h := allOf_ok h
  induction vs generalizing ss with
  | nil => cases ss <;> simp_all
  | cons v vs ih =>
    cases ss with
    | nil => simp at h
    | cons s ss =>
      simp only [List.map_cons, List.cons.injEq] at h ⊢
      refine ⟨?_, ih h.2⟩
      cases v <;> simp [VKind.asIdent] at h
      rw [h.1]

/-- The value of a call of `concat` is made of the values of the arguments. -/
theorem concat_base (hE : PlainNames E) (hρ : Typed Γ ρ) {es : List Expr} {ts : List Ty} {os : List (Option (Nat × TExpr))} (ho : Own Γ es os ts) {i : Nat}
    {raw : Option (Nat × Toks)} {c : Nat} {te : TExpr} (h : check builtinFuncs Γ (.call i (c! "concat") es raw) none = .ok (c, te)) {b : VKind}
    (hb : te.base E seed ρ = .ok b) : ∃ ws, All2 (HasBase E seed ρ) os ws ∧ Joined E te.target ws b := by
  simp only [check] at h
  split at h
  · cases h
  · rename_i fs hfs
    split at h
    · rename_i ch hbest
      cases h
      obtain ⟨f, hfm, hu⟩ := List.mem_filterMap.1 (best_mem hbest)
      obtain ⟨hf, hn⟩ := (builtinFuncs_mem hfs).1 hfm
      have hfun := usable_func hu
      simp only [TExpr.base] at hb
      obtain ⟨vs, hv, hi⟩ := Res.bind_eq_ok.1 hb
      show ∃ ws, All2 (HasBase E seed ρ) os ws ∧ Joined E ch.func.out ws b
      have hr : f.args ≠ [.raw] := by
        rcases concat_funcs hf hn with rfl | rfl | rfl | rfl | rfl <;> simp [concatIdents, concatIdentTokens, concatLitStrs, concatLitInts, concatTokens]
      obtain ⟨ps, hps, hc⟩ := usable_costs ho.all hf hr hu
      rw [hfun] at hi ⊢
      rcases concat_funcs hf hn with rfl | rfl | rfl | rfl | rfl
      · obtain ⟨-, rfl⟩ := paramsFor_variadic (t := .ident) rfl hps
        refine ⟨vs, costs_strict hρ (.inl rfl) ho hc hv, ?_⟩
        obtain ⟨ss, h1, h2⟩ := Res.bind_eq_ok.1 hi
        cases all_idents h1
        simp only [newIdent] at h2
        split at h2
        · rename_i hl
          cases h2
          refine .name (.inl ⟨?_, ?_⟩)
          · rw [names_text hE]; exact hl
          · rw [names_text hE]; rfl
        · cases h2
      · obtain ⟨m, hm, rfl⟩ := paramsFor_ident_tokens rfl hps
        generalize ch.cost = cost at hc
        generalize ch.args = tes at hc hv
        cases hc with
        | cons h1 h2 =>
          obtain ⟨v, vs, hv1, hv2, rfl⟩ := evalL_cons.1 hv
          cases ho with
          | cons hp ho =>
            obtain ⟨b', hb1, hb2⟩ := eval_as.1 hv1
            obtain ⟨ws, h3, rfl⟩ := costs_tokens ho h2 hv2
            cases hp with
            | types _ _ hck =>
              have hty := (base_ty hρ hck hb1).trans (coercionCost_strict (.inl rfl) h1).1
              rw [tryCast_refl hty] at hb2
              cases hb2
              refine ⟨v :: ws, .cons ⟨_, _, rfl, hb1⟩ h3, ?_⟩
              have e2 : allOf VKind.asTokens (ws.map fun w => .tokens w.toTokens) = .ok (ws.map VKind.toTokens) := by
                have := allOf_map (sel := VKind.asTokens) (mk := .tokens) (fun _ => rfl) (ws.map VKind.toTokens)
                rwa [List.map_map] at this
              simp only [concatIdentTokens, e2, Res.bind_eq, Res.bind_ok] at hi
              split at hi
              · rename_i s hs
                cases hi
                refine .name (.inr ?_)
                rw [← hs]
                simp [concatStrs, List.map_map, Function.comp_def]
              · cases hi
      · obtain ⟨-, rfl⟩ := paramsFor_variadic (t := .litStr) rfl hps
        refine ⟨vs, costs_strict hρ (.inr (.inl rfl)) ho hc hv, ?_⟩
        obtain ⟨ss, h1, h2⟩ := Res.bind_eq_ok.1 hi
        cases h2
        exact .strs (allOf_ok h1)
      · obtain ⟨-, rfl⟩ := paramsFor_variadic (t := .litInt) rfl hps
        exact ⟨vs, costs_strict hρ (.inr (.inr rfl)) ho hc hv, .ints _ _⟩
      · obtain ⟨-, rfl⟩ := paramsFor_variadic (t := .tokens) rfl hps
        obtain ⟨ws, h3, rfl⟩ := costs_tokens ho hc hv
        refine ⟨ws, h3, ?_⟩
        have e2 : allOf VKind.asTokens (ws.map fun w => .tokens w.toTokens) = .ok (ws.map VKind.toTokens) := by
          have := allOf_map (sel := VKind.asTokens) (mk := .tokens) (fun _ => rfl) (ws.map VKind.toTokens)
          rwa [List.map_map] at this
        simp only [concatTokens, e2, Res.bind_eq, Res.bind_ok] at hi
        cases hi
        exact .toks ws
    · cases h

/-- The arguments of a call of `concat` which are names, as names and as tokens. -/
theorem costs_names {es : List Expr} {ts : List Ty} {os : List (Option (Nat × TExpr))} (ho : Own Γ es os ts)
    (hes : ∀ e ∈ es, (∃ k v, e = .value k v) ∧ HasType Γ e .ident) :
    (∃ tes, Costs os (List.replicate es.length (.ident, 2)) 0 tes) ∧
    ∀ {n c tes}, Costs os (List.replicate (n + 1) (.tokens, 2)) c tes → 0 < c := by
  induction ho with
  | nil => exact ⟨⟨[], .nil⟩, by intro n c tes h; rw [List.replicate_succ] at h; cases h⟩
  | @cons e es c te os ts hp _ ih =>
    obtain ⟨⟨tes, h1⟩, -⟩ := ih fun e he => hes e (List.mem_cons_of_mem _ he)
    obtain ⟨⟨k, v, rfl⟩, ht⟩ := hes e List.mem_cons_self
    obtain ⟨c', te', hp', ht'⟩ := hasType_princ ht
    cases princ_fun hp hp'
    cases princ_fun hp (princ_value k v)
    have hc : coercionCost (TExpr.val v (natural Γ v)).target .ident = some 0 := by rw [ht']; exact coercionCost_refl _
    refine ⟨⟨_, by simpa [List.replicate_succ] using Costs.cons (m := 2) (ce := 0) hc h1⟩, ?_⟩
    intro n c tes h
    rw [List.replicate_succ] at h
    cases h with
    | cons h2 h3 =>
      rw [ht', coercionCost_to_tokens] at h2
      cases h2
      omega

/-- `concat` of names joins them. -/
theorem concat_names (hE : PlainNames E) (hρ : Typed Γ ρ) {es : List Expr} {ts : List Ty} {os : List (Option (Nat × TExpr))} (ho : Own Γ es os ts)
    (hes : ∀ e ∈ es, (∃ k v, e = .value k v) ∧ HasType Γ e .ident) {i : Nat}
    {raw : Option (Nat × Toks)} {c : Nat} {te : TExpr} (h : check builtinFuncs Γ (.call i (c! "concat") es raw) none = .ok (c, te)) {b : VKind}
    (ht : te.target = .ident) (hb : te.base E seed ρ = .ok b) :
    ∃ ws, All2 (HasBase E seed ρ) os ws ∧ b = .ident (ws.map fun w => E.render w.toTokens).flatten := by
  simp only [check] at h
  split at h
  · cases h
  · rename_i fs hfs
    split at h
    · rename_i ch hbest
      cases h
      obtain ⟨f, hfm, hu⟩ := List.mem_filterMap.1 (best_mem hbest)
      obtain ⟨hf, hn⟩ := (builtinFuncs_mem hfs).1 hfm
      have hfun := usable_func hu
      simp only [TExpr.base] at hb
      obtain ⟨vs, hv, hi⟩ := Res.bind_eq_ok.1 hb
      have hr : f.args ≠ [.raw] := by
        rcases concat_funcs hf hn with rfl | rfl | rfl | rfl | rfl <;> simp [concatIdents, concatIdentTokens, concatLitStrs, concatLitInts, concatTokens]
      have ht : f.out = .ident := by rw [← hfun]; exact ht
      obtain ⟨ps, hps, hc⟩ := usable_costs ho.all hf hr hu
      rw [hfun] at hi
      rcases concat_funcs hf hn with rfl | rfl | rfl | rfl | rfl
      · obtain ⟨-, rfl⟩ := paramsFor_variadic (t := .ident) rfl hps
        refine ⟨vs, costs_strict hρ (.inl rfl) ho hc hv, ?_⟩
        obtain ⟨ss, h1, h2⟩ := Res.bind_eq_ok.1 hi
        cases all_idents h1
        simp only [newIdent] at h2
        split at h2
        · cases h2
          rw [names_text hE]
          rfl
        · cases h2
      · exfalso
        obtain ⟨m, hm, rfl⟩ := paramsFor_ident_tokens rfl hps
        obtain ⟨⟨tes, h1⟩, h2⟩ := costs_names ho hes
        have hpos : 0 < ch.cost := by
          generalize ch.cost = cost at hc
          generalize ch.args = tes at hc
          cases hc with
          | cons k1 k2 =>
            cases ho with
            | cons hp ho =>
              have := (costs_names ho fun e he => hes e (List.mem_cons_of_mem _ he)).2 k2
              omega
        have hm21 : concatIdents 21 ∈ builtins := by simp [builtins]
        have hps' : paramsFor (concatIdents 21) es.length = some (List.replicate es.length (.ident, 2)) := by
          rw [hm]
          simp [paramsFor, Func.variadicArg, Func.fixedArgs, concatIdents, List.filter, Ty.isVariadic]
        have hck := (checkArgs_costs ho.all (paramsFor_length hps')
          (fun p hp => builtins_simple _ hm21 p.1 (mem_paramTypes.2 (paramsFor_mem hps' hp)))).2 h1
        have hu' : usable raw es.length none (fun ps => checkArgs builtinFuncs Γ es ps) (concatIdents 21) = some ⟨0 + 0, concatIdents 21, tes⟩ := by
          rw [usable_eq (co := 0) rfl, if_neg (by simp [concatIdents])]
          simp only [hps', Option.bind_some, hck]
        refine best_not_better hbest _ (List.mem_filterMap.2 ⟨concatIdents 21, (builtinFuncs_mem hfs).2 ⟨hm21, rfl⟩, hu'⟩) (.inl hpos)
      · cases ht
      · cases ht
      · cases ht
    · cases h

/-! ## Two versions of an expression -/

theorem noStrHashL_append {es fs : List Expr} : noStrHashL Γ (es ++ fs) ↔ noStrHashL Γ es ∧ noStrHashL Γ fs := by
  induction es with
  | nil => simp [noStrHashL]
  | cons e es ih => simp [noStrHashL, ih, and_assoc]

theorem flattensL_length : ∀ {es es' : List Expr}, FlattensL Γ es es' → es.length = es'.length
  | _, _, .nil => rfl
  | _, _, .cons _ h => by simp [flattensL_length h]

/-- Flattening a call keeps its value. -/
theorem joined_flatten (hE : PlainNames E) {t : Ty} (ht : t ≠ .litInt) {us vs ws : List VKind} {v b b' : VKind} (hv : Joined E t vs v)
    (hn : t = .ident → v = .ident (vs.map fun w => E.render w.toTokens).flatten) (hb : Joined E t (us ++ v :: ws) b)
    (hb' : Joined E t (us ++ vs ++ ws) b') : b = b' := by
  cases hb with
  | name h =>
    cases hn rfl
    cases hb' with
    | name h' =>
      simp only [List.map_append, List.map_cons, List.flatten_append, List.flatten_cons, VKind.toTokens, hE.render, List.append_assoc] at h h'
      rw [glues_unique hE h h']
  | ints => exact absurd rfl ht
  | toks =>
    cases hv
    cases hb'
    simp [VKind.toTokens]
  | strs h =>
    cases hv with
    | strs hs =>
      cases hb' with
      | strs h' =>
        simp only [List.map_append, List.map_cons] at h h'
        obtain ⟨a, c, rfl, h1, h2⟩ := List.map_eq_append_iff.1 h.symm
        obtain ⟨s, c, rfl, h3, h4⟩ := List.map_eq_cons_iff.1 h2
        obtain ⟨a', c', rfl, h1', h2'⟩ := List.map_eq_append_iff.1 h'.symm
        obtain ⟨a', d', rfl, h5', h6'⟩ := List.map_eq_append_iff.1 h1'
        have inj : ∀ {l l' : List Str}, l.map some = l'.map some → l = l' := by
          intro l l' h
          exact List.map_inj_right (fun _ _ h => Option.some.inj h) |>.1 h
        have e1 := inj (h1.trans h5'.symm)
        have e2 := inj (h4.trans h2'.symm)
        have e3 := inj (hs.symm.trans h6'.symm)
        subst e1 e2 e3
        cases h3
        simp [newLitStr]

mutual
/-- Flattening keeps the type and, if there is one in both cases, the value. -/
theorem flattens_match (hE : PlainNames E) (hρ : Typed Γ ρ) : ∀ {e e' : Expr}, Flattens Γ e e' → noStrHash Γ e →
    noStrHash Γ e' ∧ ∃ o o', Princ Γ e o ∧ Princ Γ e' o' ∧ Match E seed ρ o o'
  | _, _, .here i i' j raw raw' raw'' (as := as) (bs := bs) (cs := cs) (t := t) hin hout ht hb, hs => by
    have hns : noStrHash Γ (.call i' (c! "concat") (as ++ bs ++ cs) raw') := by
      obtain ⟨-, hs⟩ := hs
      obtain ⟨h1, h2, h3⟩ := noStrHashL_append.1 hs
      exact ⟨fun h => absurd h (by decide), noStrHashL_append.2 ⟨noStrHashL_append.2 ⟨h1, h2.2⟩, h3⟩⟩
    refine ⟨hns, ?_⟩
    obtain ⟨tb, hb1, hb2, hb3⟩ := concat_hasType_inv hin
    obtain ⟨ts, ho1, -, ho3⟩ := concat_hasType_inv hout
    obtain ⟨ta, tc', rfl, ha, hc'⟩ := hasTypes_append.1 ho1
    cases hc' with
    | @cons _ u _ tc hu hc =>
      cases hasType_unique hin hu
      rw [hb3] at ho3
      have hflat := concat_hasType (hasTypes_append.2 ⟨_, _, rfl, hasTypes_append.2 ⟨_, _, rfl, ha, hb1⟩, hc⟩) (by simp [hb2]) i' raw'
      rw [joinTy_flatten hb2 ho3.symm, ← hb3] at hflat
      obtain ⟨oa, hoa⟩ := hasTypes_own ha
      obtain ⟨ob, hob⟩ := hasTypes_own hb1
      obtain ⟨oc, hoc⟩ := hasTypes_own hc
      obtain ⟨ci, tei, hpi, hti⟩ := hasType_princ hin
      obtain ⟨co, teo, hpo, hto⟩ := hasType_princ hout
      obtain ⟨cf, tef, hpf, htf⟩ := hasType_princ hflat
      refine ⟨_, _, hpo, hpf, ?_⟩
      have hko := hpo
      have hkf := hpf
      have hki := hpi
      cases hko with
      | types _ _ hko =>
        cases hkf with
        | types _ _ hkf =>
          cases hki with
          | types _ _ hki =>
            refine .types (hto.trans htf.symm) (fun b => base_ty hρ hko) (fun b => base_ty hρ hkf) ?_
            intro b b' hb1 hb1'
            obtain ⟨ws, hw, hj⟩ := concat_base hE hρ (own_append hoa (.cons hpi hoc)) hko hb1
            obtain ⟨ws', hw', hj'⟩ := concat_base hE hρ (own_append (own_append hoa hob) hoc) hkf hb1'
            obtain ⟨wa, wr, rfl, hwa, hwr⟩ := hasBase_append.1 hw
            obtain ⟨wab, wc, rfl, hwab, hwc⟩ := hasBase_append.1 hw'
            obtain ⟨wa', wb, rfl, hwa', hwb⟩ := hasBase_append.1 hwab
            cases hasBase_unique hwa hwa'
            cases hwr with
            | @cons _ v _ wc' hv hwc' =>
              cases hasBase_unique hwc hwc'
              obtain ⟨_, _, he, hv⟩ := hv
              cases he
              rw [hto] at hj
              rw [htf] at hj'
              obtain ⟨wb', hwb', hji⟩ := concat_base hE hρ hob hki hv
              cases hasBase_unique hwb hwb'
              rw [hti] at hji
              refine joined_flatten hE ht hji ?_ hj hj'
              rintro rfl
              obtain ⟨wb', hwb', hji⟩ := concat_names hE hρ hob (hb rfl) hki hti hv
              cases hasBase_unique hwb hwb'
              exact hji
  | _, _, .same e, hs => by
    obtain ⟨o, ho⟩ := princ Γ e hs
    exact ⟨hs, o, o, ho, ho, .refl hρ ho⟩
  | _, _, .call i i' n raw raw' (args := args) (args' := args') hn hn' h, hs => by
    obtain ⟨hh, hargs⟩ := hs
    obtain ⟨hargs', os, os', hos, hos', hm⟩ := flattensL_match hE hρ h hargs
    exact call_match hE hρ hn hn' (flattensL_length h) hh hargs hargs' hos hos' hm
theorem flattensL_match (hE : PlainNames E) (hρ : Typed Γ ρ) : ∀ {es es' : List Expr}, FlattensL Γ es es' → noStrHashL Γ es →
    noStrHashL Γ es' ∧ ∃ os os', All2 (Princ Γ) es os ∧ All2 (Princ Γ) es' os' ∧ All2 (Match E seed ρ) os os'
  | _, _, .nil, _ => ⟨trivial, [], [], .nil, .nil, .nil⟩
  | _, _, .cons h hs, hn => by
    obtain ⟨h1, o, o', h2, h3, h4⟩ := flattens_match hE hρ h hn.1
    obtain ⟨h5, os, os', h6, h7, h8⟩ := flattensL_match hE hρ hs hn.2
    exact ⟨⟨h1, h5⟩, o :: os, o' :: os', .cons h2 h6, .cons h3 h7, .cons h4 h8⟩
end

end

/-- The value of a definition may be flattened. -/
theorem outcome_flatten {E : Ext} (hE : PlainNames E) {env : Env} (henv : env.funcs = builtinFuncs) {d1 d3 : List (Str × Expr)} {y : Str} {e e' : Expr}
    (hs : ∀ vs : Subs, outcome E env d1 = .ok vs →
      noStrHash (fun n => (vs.get n).map (·.ty)) e ∧ Flattens (fun n => (vs.get n).map (·.ty)) e e')
    {vs vs' : Subs} (h : outcome E env (d1 ++ (y, e) :: d3) = .ok vs) (h' : outcome E env (d1 ++ (y, e') :: d3) = .ok vs') : vs = vs' := by
  obtain ⟨vs0, us0, h0, rfl⟩ := outcome_prefix h
  have e1 : ∀ e : Expr, d1 ++ (y, e) :: d3 = (d1 ++ [(y, e)]) ++ d3 := by intro e; simp
  rw [e1] at h h'
  obtain ⟨ws, us, h1, hws⟩ := outcome_prefix h
  obtain ⟨ws', us', h1', rfl⟩ := outcome_prefix h'
  obtain ⟨c, te, v, hck, hev, rfl⟩ := outcome_final henv h0 h1
  obtain ⟨c', te', v', hck', hev', rfl⟩ := outcome_final henv h0 h1'
  obtain ⟨hse, hf⟩ := hs _ h0
  have hρ : Typed (fun n => (Subs.get vs0 n).map (·.ty)) (Subs.get vs0) := fun n => rfl
  obtain ⟨-, o, o', ho, ho', hm⟩ := flattens_match (E := E) (seed := env.seed) hE hρ hf hse
  have hv : v = v' := by
    cases hm with
    | fails =>
      cases ho with
      | fails h => obtain ⟨x, hx⟩ := h none (by intro t h; cases h); rw [hx] at hck; cases hck
    | types ht hb hb' hm =>
      cases ho with
      | types _ _ hk =>
        cases ho' with
        | types _ _ hk' =>
          rw [hk] at hck
          rw [hk'] at hck'
          cases hck
          cases hck'
          rw [← as_target te] at hev
          rw [← as_target te'] at hev'
          obtain ⟨b, hb1, hb2⟩ := eval_as.1 hev
          obtain ⟨b', hb1', hb2'⟩ := eval_as.1 hev'
          cases hm b b' hb1 hb1'
          rw [ht, hb2'] at hb2
          exact (Res.ok.inj hb2).symm
  subst hv
  obtain ⟨o, h5, h6⟩ := outcome_post henv h1 h1' (post := d3) (fun _ _ => rfl)
  rw [h] at h5
  rw [h'] at h6
  rw [← h6] at h5
  exact Res.ok.inj h5

end Verif
