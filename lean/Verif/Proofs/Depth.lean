import Verif.Spec.Depth
import Verif.Proofs.Size
import Verif.Proofs.Invariant
import Verif.Proofs.Inside
import Verif.Proofs.Deprecation
/-! # Nesting of input, values and output -/

namespace Verif
open Spec

set_option linter.unusedSectionVars false

theorem depth_append : ∀ (a b : Toks), depth (a ++ b) = max (depth a) (depth b)
  | [], b => by simp [depth]
  | t :: a, b => by simp [depth, depth_append a b, Nat.max_assoc]

theorem After.depth {a b : Toks} (h : After a b) : depth b ≤ Spec.depth a := by
  induction h with
  | refl => exact Nat.le_refl _
  | tail _ ih => simp only [Spec.depth]; omega
  | enter _ ih => rw [depth_append] at ih; simp only [Spec.depth, depthTok]; omega

theorem Spec.First.depth {ts : Toks} {t : Tok} {r : Toks} (h : First ts t r) : depthTok t ≤ depth ts := by
  induction h with
  | here => simp only [Spec.depth]; omega
  | inside _ ih => simp only [Spec.depth, depthTok]; omega
  | skip _ _ ih => simp only [Spec.depth]; omega

theorem first_group_depth {ts c r : Toks} {d : Delim} (h : First ts (.group d c) r) : 1 + depth c ≤ depth ts := h.depth

theorem pieces_depth (ts : Toks) : ∀ p ∈ pieces ts, depth p ≤ depth ts := by
  fun_induction pieces ts with
  | case1 => simp
  | case2 j ts ih =>
    intro p hp
    rcases List.mem_cons.1 hp with rfl | hp
    · simp [depth]
    · have := ih p hp
      simp only [depth]
      omega
  | case3 t ts _ he ih =>
    intro p hp
    simp only [List.mem_singleton] at hp
    subst hp
    simp [depth]
    omega
  | case4 t ts _ q qs he ih =>
    intro p hp
    rw [he] at ih
    rcases List.mem_cons.1 hp with rfl | hp
    · have := ih q (by simp)
      simp only [depth]
      omega
    · have := ih p (by simp [hp])
      simp only [depth]
      omega

theorem readsValue_depth {Y : Syn} {ts : Toks} {v : VKind} {r : Toks} (h : ReadsValue Y ts v r) : depth v.toTokens ≤ depth ts := by
  have take : ∀ n, depth (ts.take n) ≤ depth ts := by
    intro n
    have := depth_append (ts.take n) (ts.drop n)
    rw [List.take_append_drop] at this
    omega
  cases h with
  | longest i _ used _ h =>
    cases h with
    | int | negInt | str | underscore | ident => simp [VKind.toTokens, IntLit.toTokens, depth, depthTok]
    | path _ n => exact take n
    | type _ n => exact take n
    | expr _ n => exact take n
  | tokens used rest _ h => subst h; simp only [VKind.toTokens, depth_append]; omega

mutual
/-- An expression is nested at most as deeply as its text. -/
theorem readsExpr_depth {known : Str → Bool} {Y : Syn} {e : Expr} {ts rest : Toks} (h : ReadsExpr known Y ts e rest) : deep e ≤ depth ts := by
  match e with
  | .value id v =>
    cases h with
    | value _ _ h => exact readsValue_depth h
  | .call id n args raw =>
    have call : ∀ {n raw rest}, CallAt known ts n raw rest → 1 + depth raw ≤ depth ts := by
      intro n raw rest h
      cases h with
      | mk h _ _ h' =>
        have h1 := first_group_depth h'
        have h2 := h.after.depth
        simp only [depth] at h2
        omega
    cases h with
    | call _ rid h ha =>
      have h1 := call h
      have h2 := readsPieces_depth ha (pieces_depth _)
      simp only [deep]
      omega
    | dropped _ rid h _ _ =>
      have h1 := call h
      simp only [deep, deepL]
      omega
theorem readsPieces_depth {known : Str → Bool} {Y : Syn} {es : List Expr} {ps : List Toks} {D : Nat} (h : ReadsPieces known Y ps es)
    (hD : ∀ p ∈ ps, depth p ≤ D) : deepL es ≤ D := by
  match es with
  | [] => simp [deepL]
  | e :: es =>
    cases h with
    | cons h hs =>
      have h1 := readsExpr_depth h
      have h2 := readsPieces_depth hs (fun p hp => hD p (List.mem_cons_of_mem _ hp))
      have h3 := hD _ List.mem_cons_self
      simp only [deepL]
      omega
end

mutual
theorem deep_erase (e : Expr) : deep e.erase = deep e := by
  match e with
  | .value _ _ => rfl
  | .call _ n args raw => cases raw <;> simp [Expr.erase, deep, deepL_erase args]
theorem deepL_erase (es : List Expr) : deepL (Expr.eraseL es) = deepL es := by
  match es with
  | [] => rfl
  | e :: es => simp only [Expr.eraseL, deepL, deep_erase e, deepL_erase es]
end

mutual
/-- The values in an expression are nested less deeply. -/
theorem leaves_depth (e : Expr) : ∀ k ∈ leaves e, depth k.toTokens ≤ deep e := by
  match e with
  | .value _ k => simp [leaves, deep]
  | .call _ n args raw =>
    have ih := leavesL_depth args
    intro k hk
    simp only [leaves, List.mem_append] at hk
    rcases hk with hk | hk
    · cases raw with
      | none => simp at hk
      | some r =>
        simp only [Option.map_some, Option.toList_some, List.mem_singleton] at hk
        subst hk
        simp only [deep, VKind.toTokens]
        omega
    · have := ih k hk
      simp only [deep]
      omega
theorem leavesL_depth (es : List Expr) : ∀ k ∈ leavesL es, depth k.toTokens ≤ deepL es := by
  match es with
  | [] => simp [leavesL]
  | e :: es =>
    have ih1 := leaves_depth e
    have ih2 := leavesL_depth es
    intro k hk
    simp only [leavesL, List.mem_append] at hk
    simp only [deepL]
    rcases hk with hk | hk
    · have := ih1 k hk; omega
    · have := ih2 k hk; omega
end

/-! ## All expressions of an input -/

theorem hereditary_depth (D : Nat) : Hereditary (fun ts => depth ts ≤ D) where
  after h hD := Nat.le_trans h.depth hD
  inside h _ hD := by have := first_group_depth h; omega

/-- No expression is nested more deeply than the tokens of the input. -/
theorem reads_depth {W : World} {inv : Invocation} {a : PAst} (h : Reads W inv a) : ∀ e ∈ exprsIn (tree a), deep e ≤ depth (headerToks inv) := by
  intro x hx
  obtain ⟨e, ts', r, h1, rfl, h2⟩ := reads_inside (hereditary_depth _) h (Nat.le_refl _) x hx
  rw [deep_erase]
  exact Nat.le_trans (readsExpr_depth h1) h2

/-! ## Values -/

theorem int_depth (i : IntLit) : depth (VKind.toTokens (.litInt i)) = 0 := by
  simp only [VKind.toTokens, IntLit.toTokens]
  cases i.neg <;> simp [depth, depthTok]

/-- A cast does not nest anything. -/
theorem tryCast_depth {E : Ext} {v w : VKind} {t : Ty} (h : tryCast E v t = .ok w) : depth w.toTokens ≤ depth v.toTokens := by
  unfold tryCast at h
  split at h
  · cases h; exact Nat.le_refl _
  · split at h
    all_goals first
      | (cases h; exact Nat.le_refl _)
      | (cases h; exact Nat.zero_le _)
      | (cases h; done)
      | (obtain ⟨a, ha, rfl⟩ := ofOption_ok h; first | exact Nat.le_refl _ | exact Nat.zero_le _ | (rw [int_depth]; exact Nat.zero_le _))
      | (split at h <;> first | (cases h; exact Nat.le_refl _) | (cases h; exact Nat.zero_le _) | (cases h; done) | (obtain ⟨a, ha, rfl⟩ := ofOption_ok h; exact Nat.zero_le _))

theorem newIdent_depth {E : Ext} {s : Str} {v : VKind} (h : newIdent E s = .ok v) : depth v.toTokens = 0 := by
  unfold newIdent at h
  split at h <;> cases h
  rfl

theorem allOf_tokens_depth {D : Nat} : ∀ {vs : List VKind} {tss : List Toks}, allOf VKind.asTokens vs = .ok tss → (∀ v ∈ vs, depth v.toTokens ≤ D) →
    depth tss.flatten ≤ D
  | [], _, h, _ => by cases h; exact Nat.zero_le _
  | v :: vs, _, h, hD => by
    rw [allOf] at h
    cases v <;> simp only [VKind.asTokens] at h <;> try (cases h; done)
    next ts =>
    cases hr : allOf VKind.asTokens vs with
    | ok l =>
      rw [hr] at h
      cases h
      have h1 := allOf_tokens_depth hr fun v hv => hD v (List.mem_cons_of_mem _ hv)
      have h2 := hD _ List.mem_cons_self
      simp only [VKind.toTokens] at h2
      rw [List.flatten_cons, depth_append]
      omega
    | err x => rw [hr] at h; cases h
    | panic => rw [hr] at h; cases h

/-- No function nests its arguments. -/
theorem builtins_depth {E : Ext} {seed : Nat} {f : Func} (hf : f ∈ builtins) {vs : List VKind} {r : VKind} (h : f.impl E seed vs = .ok r) {D : Nat}
    (hD : ∀ v ∈ vs, depth v.toTokens ≤ D) : depth r.toTokens ≤ D := by
  have one : depth r.toTokens = 0 → depth r.toTokens ≤ D := by omega
  have casts : ∀ id name t, (castFunc id name t).impl E seed vs = .ok r → depth r.toTokens ≤ D := by
    intro id name t h
    simp only [castFunc] at h
    split at h
    · exact Nat.le_trans (tryCast_depth h) (hD _ (by simp))
    · cases h
  have norms : ∀ id t, (normalize2For id t).impl E seed vs = .ok r → depth r.toTokens ≤ D := by
    intro id t h
    simp only [normalize2For] at h
    split at h
    · split at h
      · exact one (newIdent_depth h)
      · cases h
    · cases h
  have strs : ∀ id name g, f ∈ strFuncs id name g → depth r.toTokens ≤ D := by
    intro id name g hf
    simp only [strFuncs, List.mem_cons, List.not_mem_nil, or_false] at hf
    rcases hf with rfl | rfl <;> (simp only at h; split at h)
    · cases h; exact one rfl
    · cases h
    · exact one (newIdent_depth h)
    · cases h
  simp only [builtins, hashFuncs, List.mem_append, List.mem_cons, List.not_mem_nil, or_false] at hf
  rcases hf with ((((((hf | hf) | hf) | hf) | hf) | hf) | hf) | hf
  · exact strs _ _ _ hf
  · exact strs _ _ _ hf
  · exact strs _ _ _ hf
  · exact strs _ _ _ hf
  · exact strs _ _ _ hf
  · rcases hf with rfl | hf
    · simp only [normalizeFunc] at h
      split at h
      · exact one (newIdent_depth h)
      · cases h
    · rcases hf with rfl | rfl | rfl | rfl | rfl | rfl | rfl <;> exact norms _ _ h
  · rcases hf with rfl | rfl | rfl <;> (simp only at h; split at h)
    · cases h; exact one rfl
    · cases h
    · exact one (newIdent_depth h)
    · cases h
    · exact one (newIdent_depth h)
    · cases h
  · rcases hf with rfl | rfl | rfl | rfl | rfl | rfl | rfl | rfl | rfl | rfl | rfl | rfl | rfl
    · simp only [concatIdents, Res.bind_eq] at h
      obtain ⟨l, -, h⟩ := Res.bind_eq_ok.1 h
      exact one (newIdent_depth h)
    · simp only [concatIdentTokens] at h
      split at h
      · cases h
      · simp only [Res.bind_eq] at h
        obtain ⟨l, -, h⟩ := Res.bind_eq_ok.1 h
        split at h
        · cases h; exact one rfl
        · cases h
    · simp only [concatLitStrs, Res.bind_eq] at h
      obtain ⟨l, -, h⟩ := Res.bind_eq_ok.1 h
      cases h
      exact one rfl
    · simp only [concatLitInts, Res.bind_eq] at h
      obtain ⟨l, hl, h⟩ := Res.bind_eq_ok.1 h
      obtain ⟨i, hi, h⟩ := Res.bind_eq_ok.1 h
      cases h
      exact one (int_depth i)
    · simp only [concatTokens, Res.bind_eq] at h
      obtain ⟨l, hl, h⟩ := Res.bind_eq_ok.1 h
      cases h
      exact allOf_tokens_depth hl hD
    all_goals first
      | exact casts _ _ _ h
      | (simp only [rawFunc] at h
         split at h
         · cases h; exact hD (.raw _) List.mem_cons_self
         · cases h)

/-- No value is nested more deeply than the values written in the definitions. -/
theorem outcome_depth {E : Ext} {env : Env} (henv : env.funcs = builtinFuncs) {ds : List (Str × Expr)} {vs : Subs} (h : outcome E env ds = .ok vs) {D : Nat}
    (hD : ∀ d ∈ ds, ∀ k ∈ leaves d.2, depth k.toTokens ≤ D) : ∀ p ∈ vs, depth p.2.toTokens ≤ D := by
  rw [outcome_ok] at h
  have h := h.2
  unfold denote at h
  split at h
  · cases h
  · rename_i tes hc
    refine (spec_keeps (E := E) (env := env) henv (P := fun v => depth v.toTokens ≤ D) (fun v hv => ⟨hv, hv⟩) hc typed_empty
      (fun _ _ h => by cases h) hD (fun d _ g hg _ vs _ hvs r hr => builtins_depth hg hr hvs)).2 vs h

/-! ## Code -/

section
variable {look : Str → Option Toks} {str : Str → Lit} {D : Nat} (hD : ∀ n u, look n = some u → depth u ≤ D)
include hD

mutual
/-- Replacing aliases nests code at most by the depth of the values. -/
theorem substTok_depth (t : Tok) : depth (substTok look str t) ≤ depthTok t + D := by
  match t with
  | .ident n =>
    rw [substTok]
    cases h : look n with
    | none => exact Nat.zero_le _
    | some u => have := hD n u h; simp only [Option.getD_some]; omega
  | .lit (.str _ v) => simp [substTok, depth, depthTok]
  | .group d ts =>
    have := substAll_depth ts
    simp only [substTok, depth, depthTok]
    omega
  | .punct _ _ => simp [substTok, depth, depthTok]
  | .lit (.int _ _) => simp [substTok, depth, depthTok]
  | .lit (.other _) => simp [substTok, depth, depthTok]
theorem substAll_depth (ts : Toks) : depth (substAll look str ts) ≤ depth ts + D := by
  match ts with
  | [] => simp [substAll, depth]
  | t :: ts =>
    have h1 := substTok_depth t
    have h2 := substAll_depth ts
    simp only [substAll, depth, depth_append]
    omega
end
end

theorem inserts_depth {xs : List Toks} {a b : Toks} (h : Inserts xs a b) : depth a ≤ depth b ∧ ∀ D, (∀ x ∈ xs, depth x ≤ D) → depth b ≤ depth a + D := by
  induction h with
  | nil => exact ⟨Nat.le_refl _, fun D _ => Nat.zero_le _⟩
  | @keep xs a b t _ ih =>
    refine ⟨by have := ih.1; simp only [depth]; omega, fun D hD => ?_⟩
    have := ih.2 D hD
    simp only [depth]
    omega
  | @group xs ys us vs a b d _ _ ih1 ih2 =>
    refine ⟨by have := ih1.1; have := ih2.1; simp only [depth, depthTok]; omega, fun D hD => ?_⟩
    have := ih1.2 D fun x hx => hD x (List.mem_append_left _ hx)
    have := ih2.2 D fun x hx => hD x (List.mem_append_right _ hx)
    simp only [depth, depthTok]
    omega
  | @insert xs a b x _ ih =>
    refine ⟨by have := ih.1; rw [depth_append]; omega, fun D hD => ?_⟩
    have := ih.2 D fun x hx => hD x (List.mem_cons_of_mem _ hx)
    have := hD x List.mem_cons_self
    rw [depth_append]
    omega

/-! ## Where-clauses -/

theorem fields_where (w semi : Toks) (f : Fields) : ∃ xs, Inserts xs (f.toks [] semi) (f.toks w semi) := by
  cases f with
  | named fs => exact ⟨[w], .insert w (.refl _)⟩
  | unnamed fs => exact ⟨[w], .keep _ (.insert w (.refl _))⟩
  | unit => exact ⟨[w], .insert w (.refl _)⟩

theorem inserts_cat {a b c d : Toks} (h : ∃ xs, Inserts xs a b) (h' : ∃ xs, Inserts xs c d) : ∃ xs, Inserts xs (a ++ c) (b ++ d) := by
  obtain ⟨xs, h⟩ := h
  obtain ⟨ys, h'⟩ := h'
  exact ⟨_, h.append h'⟩

theorem inserts_after (a : Toks) {c d : Toks} (h : ∃ xs, Inserts xs c d) : ∃ xs, Inserts xs (a ++ c) (a ++ d) := inserts_cat ⟨_, .refl a⟩ h

theorem inserts_where (a w : Toks) {c d : Toks} (h : ∃ xs, Inserts xs c d) : ∃ xs, Inserts xs (a ++ [] ++ c) (a ++ w ++ d) :=
  inserts_cat (inserts_after a ⟨[w], by simpa using Spec.Inserts.insert w .nil⟩) h

theorem inserts_brace (d : Delim) {a b : Toks} (h : ∃ xs, Inserts xs a b) : ∃ xs, Inserts xs [.group d a] [.group d b] := by
  obtain ⟨xs, h⟩ := h
  exact ⟨_, .group d h .nil⟩

mutual
/-- Code without its where-clauses is the code with something left out. -/
theorem stmt_where (s : Stmt) : ∃ xs, Inserts xs (stmtNoWhere s).toks s.toks := by
  match s with
  | .item i => exact item_where i
  | .other ts => exact ⟨_, .refl ts⟩
theorem stmts_where (ss : List Stmt) : ∃ xs, Inserts xs (stmtsToks (stmtsNoWhere ss)) (stmtsToks ss) := by
  match ss with
  | [] => exact ⟨_, .nil⟩
  | s :: ss => exact inserts_cat (stmt_where s) (stmts_where ss)
theorem item_where (i : Item) : ∃ xs, Inserts xs (itemNoWhere i).toks i.toks := by
  match i with
  | .fn attrs vis sig block => exact inserts_after _ (inserts_brace _ (inserts_after _ (stmts_where block)))
  | .struct h vis ident fields => exact inserts_after _ (fields_where _ _ fields)
  | .enum h vis ident variants => exact inserts_where _ _ ⟨_, .refl _⟩
  | .union h vis ident fields => exact inserts_where _ _ ⟨_, .refl _⟩
  | .trait h vis u a ident supertraits items =>
    exact inserts_where _ _ (inserts_brace _ (inserts_after _ (traitItems_where items)))
  | .impl h d u trait_ selfTy items => exact inserts_where _ _ (inserts_brace _ (inserts_after _ (implItems_where items)))
  | .mod attrs vis u ident none => exact ⟨_, .refl _⟩
  | .mod attrs vis u ident (some items) => exact inserts_after _ (inserts_brace _ (inserts_after _ (items_where items)))
  | .foreignMod attrs u abi items => exact ⟨_, .refl _⟩
  | .other ts => exact ⟨_, .refl _⟩
theorem items_where (is : List Item) : ∃ xs, Inserts xs (itemsToks (itemsNoWhere is)) (itemsToks is) := by
  match is with
  | [] => exact ⟨_, .nil⟩
  | i :: is => exact inserts_cat (item_where i) (items_where is)
theorem traitItem_where (i : TraitItem) : ∃ xs, Inserts xs (traitItemNoWhere i).toks i.toks := by
  match i with
  | .fn attrs sig none => exact ⟨_, .refl _⟩
  | .fn attrs sig (some block) => exact inserts_after _ (inserts_brace _ (inserts_after _ (stmts_where block)))
  | .other ts => exact ⟨_, .refl _⟩
theorem traitItems_where (is : List TraitItem) : ∃ xs, Inserts xs (traitItemsToks (traitItemsNoWhere is)) (traitItemsToks is) := by
  match is with
  | [] => exact ⟨_, .nil⟩
  | i :: is => exact inserts_cat (traitItem_where i) (traitItems_where is)
theorem implItem_where (i : ImplItem) : ∃ xs, Inserts xs (implItemNoWhere i).toks i.toks := by
  match i with
  | .fn attrs vis d sig block => exact inserts_after _ (inserts_brace _ (inserts_after _ (stmts_where block)))
  | .other ts => exact ⟨_, .refl _⟩
theorem implItems_where (is : List ImplItem) : ∃ xs, Inserts xs (implItemsToks (implItemsNoWhere is)) (implItemsToks is) := by
  match is with
  | [] => exact ⟨_, .nil⟩
  | i :: is => exact inserts_cat (implItem_where i) (implItems_where is)
end

end Verif
