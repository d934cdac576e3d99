import Verif.Spec.Run
import Verif.Proofs.VisitorCongr
import Verif.Proofs.ParseTop
import Verif.Props.Expand
import Verif.Props.Eval
/-! # Whole expansions -/

namespace Verif
open Spec Props

/-! ## Trees without ids -/

section
variable {α α' ε ε' β : Type} (f : α → α') (g : ε → ε')

def LoopAlias.map : LoopAlias α → LoopAlias α'
  | .simple a => .simple (f a)
  | .tuple ts => .tuple (Tup.mapL f ts)

def LoopSourceValue.map : LoopSourceValue ε → LoopSourceValue ε'
  | .value a => .value (g a)
  | .tuple ts => .tuple (Tup.mapL g ts)

def mapItems (l : List (α × ε)) : List (α' × ε') := l.map fun i => (f i.1, g i.2)

def AliasSpec.map (s : AliasSpec α ε) : AliasSpec α' ε' := ⟨mapItems f g s.items, s.isCommaUsed⟩

def mapLoop (l : LoopAlias α × List (LoopSourceValue ε)) : LoopAlias α' × List (LoopSourceValue ε') :=
  (l.1.map f, l.2.map (LoopSourceValue.map g))

def RawAst.map (a : RawAst α ε β) : RawAst α' ε' β :=
  ⟨a.loops.map (·.map (mapLoop f g)), a.spec.map (AliasSpec.map f g), a.block⟩

def BlockRewrite.map (b : BlockRewrite α ε β) : BlockRewrite α' ε' β := ⟨b.spec.map f g, b.block⟩

theorem makeSpecItems_map (l : LoopAlias α) (v : LoopSourceValue ε) :
    makeSpecItems (l.map f) (v.map g) = (makeSpecItems l v).map (mapItems f g) := by
  cases l <;> cases v <;> simp only [LoopAlias.map, LoopSourceValue.map, makeSpecItems, Res.map, mapItems, List.map_cons, List.map_nil]
  rename_i as es
  simp only [matchTuples, Tup.kinds_map, Tup.leaves_map, List.zip_map, Res.bind_eq]
  split
  · rfl
  · split
    · simp [Res.bind_ok, Prod.map]
    · rfl

theorem loopSpecItems_map (ls : List (LoopAlias α × List (LoopSourceValue ε))) (vs : List (LoopSourceValue ε)) :
    loopSpecItems (ls.map (mapLoop f g)) (vs.map (LoopSourceValue.map g)) = (loopSpecItems ls vs).map (mapItems f g) := by
  induction ls generalizing vs with
  | nil => rfl
  | cons l ls ih =>
    cases vs with
    | nil => rfl
    | cons v vs =>
      simp only [List.map_cons, loopSpecItems, mapLoop, makeSpecItems_map, Res.bind_eq]
      rw [← funext (f := mapLoop f g) (fun _ => rfl), ih]
      cases makeSpecItems l.1 v <;> simp [Res.map]
      cases loopSpecItems ls vs <;> simp [Res.map, mapItems]

theorem picks_map {γ δ : Type} (h : γ → δ) (ss : List (List γ)) : picks (ss.map (·.map h)) = (picks ss).map (·.map h) := by
  induction ss with
  | nil => rfl
  | cons s ss ih => simp [picks, ih, List.flatMap_map, List.map_flatMap, Function.comp_def]

theorem combinations_map {γ δ : Type} (h : γ → δ) (ss : List (List γ)) :
    combinations (ss.map (·.map h)) = (combinations ss).map (·.map h) := by
  unfold combinations
  by_cases hs : ss = []
  · simp [hs]
  · simp [hs, picks_map]

theorem mapRes_map {γ γ' δ δ' : Type} {F : γ → Res δ} {F' : γ' → Res δ'} (h : γ → γ') (k : δ → δ') (hF : ∀ x, F' (h x) = (F x).map k) (xs : List γ) :
    mapRes F' (xs.map h) = (mapRes F xs).map (·.map k) := by
  induction xs with
  | nil => rfl
  | cons x xs ih =>
    simp only [List.map_cons, mapRes, hF, ih]
    cases F x <;> simp [Res.map]
    cases mapRes F xs <;> simp [Res.map]

theorem expand_map (a : RawAst α ε β) : expand (a.map f g) = (expand a).map (·.map (BlockRewrite.map f g)) := by
  cases hl : a.loops with
  | none =>
    simp only [expand, RawAst.map, hl, Option.map_none, Res.map, List.map_cons, List.map_nil]
    cases a.spec <;> rfl
  | some ls =>
    rw [expand_loops_eq a ls hl, expand_loops_eq (a.map f g) (ls.map (mapLoop f g)) (by simp [RawAst.map, hl])]
    have : (ls.map (mapLoop f g)).map (·.2) = (ls.map (·.2)).map (·.map (LoopSourceValue.map g)) := by
      simp [mapLoop, Function.comp_def]
    rw [this, combinations_map]
    refine mapRes_map _ _ (fun vs => ?_) _
    unfold rewriteFor
    rw [loopSpecItems_map]
    cases loopSpecItems ls vs with
    | err e => rfl
    | panic => rfl
    | ok items =>
      simp only [Res.map, RawAst.map]
      cases a.spec <;> simp [BlockRewrite.map, AliasSpec.map, mapItems]
end

mutual
theorem conv_map {α β γ : Type} (f : α → β) (g : β → γ) (t : PTup α) : t.conv (fun x => g (f x)) = Tup.map g (t.conv f) := by
  match t with
  | .val _ a => simp [PTup.conv, Tup.map]
  | .tup _ _ ts => simp [PTup.conv, Tup.map, convL_map f g ts]
theorem convL_map {α β γ : Type} (f : α → β) (g : β → γ) (ts : List (PTup α)) :
    PTup.convL (fun x => g (f x)) ts = Tup.mapL g (PTup.convL f ts) := by
  match ts with
  | [] => simp [PTup.convL, Tup.mapL]
  | t :: ts => simp [PTup.convL, Tup.mapL, conv_map f g t, convL_map f g ts]
end

theorem alias_map {α β γ : Type} (f : α → β) (g : β → γ) (e : PLoopElem α) : e.alias (fun x => g (f x)) = (e.alias f).map g := by
  cases e <;> simp [PLoopElem.alias, LoopAlias.map, convL_map f g]

theorem value_map {α β γ : Type} (f : α → β) (g : β → γ) (e : PLoopElem α) : e.value (fun x => g (f x)) = (e.value f).map g := by
  cases e <;> simp [PLoopElem.value, LoopSourceValue.map, convL_map f g]

theorem conv_eq_map {α ε : Type} (f : Alias → α) (g : Expr → ε) (a : PAst) : a.conv f g = a.forget.map f g := by
  have h1 := fun e : PLoopElem Alias => alias_map (fun x => x) f e
  have h2 := fun e : PLoopElem Expr => value_map (fun x => x) g e
  simp only [PAst.forget, PAst.conv, RawAst.map, mapLoop, AliasSpec.map, mapItems, Option.map_map, Function.comp_def, List.map_map]
  congr 1
  · congr 1
    funext l
    congr 1
    funext l
    congr 1
    · exact h1 _
    · rw [← funext (f := PLoopElem.value g) h2]

/-- A loop alias as a loop value. -/
def LoopAlias.toValue {α : Type} : LoopAlias α → LoopSourceValue α
  | .simple a => .value a
  | .tuple ts => .tuple ts

theorem value_eq_alias {α β : Type} (g : α → β) (e : PLoopElem α) : e.value g = (elemErase g e).toValue := by
  cases e <;> rfl

/-- The tree without ids depends only on what is left when ids are forgotten. -/
theorem tree_eq (a : PAst) : tree a =
    ⟨(astErase a).1.1.map (·.map fun l => (l.1, l.2.map LoopAlias.toValue)), (astErase a).1.2.map (fun s => ⟨s.1, s.2⟩), (astErase a).2⟩ := by
  simp only [tree, PAst.conv, astErase, headerErase, Option.map_map, Function.comp_def, List.map_map, loopErase, specErase,
    elemErase, itemErase]
  congr 1
  congr 1
  funext l
  congr 1
  funext l
  congr 2
  funext e
  exact value_eq_alias _ e

theorem tree_congr {a a' : PAst} (h : astErase a = astErase a') : tree a = tree a' := by
  rw [tree_eq, tree_eq, h]

/-! ## Ids do not matter for types and values -/

theorem eraseL_length (es : List Expr) : (Expr.eraseL es).length = es.length := by simp [eraseL_eq]

theorem usable_erase {raw : Option (Nat × Toks)} {n : Nat} {expected : Option Ty} {args : List (Ty × Nat) → Option (Nat × List TExpr)} :
    usable (raw.map fun r => (0, r.2)) n expected args = usable raw n expected args := by
  funext f
  unfold usable
  cases outCost f.out expected with
  | none => rfl
  | some co => cases raw <;> by_cases h : f.args = [.raw] <;> simp [h]

mutual
theorem exprText_erase (e : Expr) : exprText e.erase = exprText e := by
  match e with
  | .value _ k => simp only [Expr.erase, exprText]
  | .call _ n [] raw => simp only [Expr.erase, Expr.eraseL, exprText, exprTexts]
  | .call _ n [e] none => simp only [Expr.erase, Expr.eraseL, Option.map_none, exprText, exprTexts, exprText_erase e]
  | .call _ n [e] (some r) => simp only [Expr.erase, Expr.eraseL, Option.map_some, exprText]
  | .call _ n (e :: e' :: es) raw =>
    simp only [Expr.erase, Expr.eraseL, exprText, exprTexts, exprText_erase e, exprText_erase e', exprTexts_erase es]
theorem exprTexts_erase (es : List Expr) : exprTexts (Expr.eraseL es) = exprTexts es := by
  match es with
  | [] => rfl
  | e :: es => simp only [Expr.eraseL, exprTexts, exprText_erase e, exprTexts_erase es]
end

theorem exprText_id (id id' : Nat) (n : Str) (args : List Expr) (raw : Option (Nat × Toks)) :
    exprText (.call id n args raw) = exprText (.call id' n args raw) := by
  match args, raw with
  | [], _ => simp only [exprText]
  | [e], none => simp only [exprText]
  | [e], some r => simp only [exprText]
  | _ :: _ :: _, _ => simp only [exprText]

mutual
theorem check_erase (T : Str → Option (List Func)) (Γ : TyEnv) (e : Expr) (expected : Option Ty) :
    check T Γ e.erase expected = check T Γ e expected := by
  match e with
  | .value _ k => simp only [Expr.erase, check]
  | .call _ n args raw =>
    have : (fun ps => checkArgs T Γ (Expr.eraseL args) ps) = fun ps => checkArgs T Γ args ps := funext (checkArgs_erase T Γ args)
    have ht := exprText_erase (.call 0 n args raw)
    simp only [Expr.erase] at ht
    simp only [Expr.erase, check, eraseL_length, usable_erase, this, refusal, ht]
    rw [exprText_id 0 _ n args raw]
theorem checkArgs_erase (T : Str → Option (List Func)) (Γ : TyEnv) (es : List Expr) (ps : List (Ty × Nat)) :
    checkArgs T Γ (Expr.eraseL es) ps = checkArgs T Γ es ps := by
  match es, ps with
  | [], _ => simp only [Expr.eraseL]
  | e :: es, [] => simp only [Expr.eraseL, checkArgs]
  | e :: es, (t, m) :: ps => simp only [Expr.eraseL, checkArgs, check_erase T Γ e, checkArgs_erase T Γ es]
end

mutual
theorem overflows_erase (T : Str → Option (List Func)) (Γ : TyEnv) (e : Expr) (expected : Option Ty) :
    overflows T Γ e.erase expected = overflows T Γ e expected := by
  match e with
  | .value _ k => simp only [Expr.erase, overflows]
  | .call _ n args raw =>
    simp only [Expr.erase, overflows, eraseL_length, overflowsArgs_erase T Γ args]
    cases T n with
    | none => rfl
    | some fs =>
      simp only
      congr 1
      funext f
      cases raw <;> by_cases h : f.args = [.raw] <;> simp [h]
theorem overflowsArgs_erase (T : Str → Option (List Func)) (Γ : TyEnv) (es : List Expr) (ps : List (Ty × Nat)) (c : Nat) :
    overflowsArgs T Γ (Expr.eraseL es) ps c = overflowsArgs T Γ es ps c := by
  match es, ps with
  | [], _ => simp only [Expr.eraseL]
  | e :: es, [] => simp only [Expr.eraseL, overflowsArgs]
  | e :: es, (t, m) :: ps =>
    simp only [Expr.eraseL, overflowsArgs, overflows_erase T Γ e, check_erase T Γ e]
    cases check T Γ e (some t) with
    | error x => rfl
    | ok r => simp only [overflowsArgs_erase T Γ es]
end

/-- Definitions without ids. -/
def eraseDefs (defs : List (Str × Expr)) : List (Str × Expr) := defs.map fun d => (d.1, d.2.erase)

theorem checkSpec_erase (T : Str → Option (List Func)) (defs : List (Str × Expr)) (Γ : TyEnv) :
    checkSpec T (eraseDefs defs) Γ = checkSpec T defs Γ := by
  induction defs generalizing Γ with
  | nil => rfl
  | cons d defs ih =>
    simp only [eraseDefs] at ih
    simp only [eraseDefs, List.map_cons, checkSpec, check_erase, ih]

theorem overflowsSpec_erase (T : Str → Option (List Func)) (defs : List (Str × Expr)) (Γ : TyEnv) :
    overflowsSpec T (eraseDefs defs) Γ = overflowsSpec T defs Γ := by
  induction defs generalizing Γ with
  | nil => rfl
  | cons d defs ih =>
    simp only [eraseDefs] at ih
    simp only [eraseDefs, List.map_cons, overflowsSpec, check_erase, overflows_erase, ih]

theorem outcome_erase (E : Ext) (env : Env) (defs : List (Str × Expr)) : outcome E env (eraseDefs defs) = outcome E env defs := by
  simp only [outcome, overflowsSpec_erase, denote, checkSpec_erase]

/-! ## The ids of one iteration are different -/

/-- Each id occurs at most as often. -/
def AtMost (l l' : List Nat) : Prop := ∀ x, l.count x ≤ l'.count x

theorem AtMost.nodup {l l' : List Nat} (h : AtMost l l') (hn : l'.Nodup) : l.Nodup := by
  rw [List.nodup_iff_count] at hn ⊢
  exact fun a => Nat.le_trans (h a) (hn a)
theorem AtMost.append {a a' b b' : List Nat} (h : AtMost a a') (h' : AtMost b b') : AtMost (a ++ b) (a' ++ b') := by
  intro x
  have := h x
  have := h' x
  simp only [List.count_append]
  omega
theorem AtMost.of_sublist {l l' : List Nat} (h : l.Sublist l') : AtMost l l' := fun x => h.count_le x
theorem AtMost.of_perm {l l' : List Nat} (h : l.Perm l') : AtMost l l' := fun x => Nat.le_of_eq (h.count_eq x)
theorem AtMost.trans {a b c : List Nat} (h : AtMost a b) (h' : AtMost b c) : AtMost a c := fun x => Nat.le_trans (h x) (h' x)
theorem AtMost.refl (l : List Nat) : AtMost l l := fun _ => Nat.le_refl _

/-- The ids of the expressions of a loop value. -/
def valueIds : LoopSourceValue Expr → List Nat
  | .value e => Spec.ids e
  | .tuple ts => idsL (Spec.inOrderL ts)

theorem perm_flatMap {α β : Type} {l l' : List α} (h : l.Perm l') (f : α → List β) : (l.flatMap f).Perm (l'.flatMap f) := by
  induction h with
  | nil => exact .nil
  | cons x _ ih => simp only [List.flatMap_cons]; exact ih.append_left _
  | swap x y l => simp only [List.flatMap_cons, ← List.append_assoc]; exact List.perm_append_comm.append_right _
  | trans _ _ ih ih' => exact ih.trans ih'

theorem sublist_flatMap {α β : Type} {l l' : List α} (h : l.Sublist l') (f : α → List β) : (l.flatMap f).Sublist (l'.flatMap f) := by
  induction h with
  | slnil => exact List.Sublist.refl _
  | cons x _ ih => simp only [List.flatMap_cons]; exact ih.trans (List.sublist_append_right _ _)
  | cons_cons x _ ih => simp only [List.flatMap_cons]; exact ih.append_left _

theorem zip_snd_sublist {α β : Type} (l : List α) (l' : List β) : ((List.zip l l').map (·.2)).Sublist l' := by
  induction l generalizing l' with
  | nil => simp
  | cons a l ih =>
    cases l' with
    | nil => simp
    | cons b l' => simp only [List.zip_cons_cons, List.map_cons]; exact (ih l').cons_cons _

theorem makeSpecItems_ids {l : LoopAlias Alias} {v : LoopSourceValue Expr} {items : List (Alias × Expr)}
    (h : makeSpecItems l v = .ok items) : AtMost (specIds items) (valueIds v) := by
  cases l <;> cases v <;> simp only [makeSpecItems] at h
  case simple.value a e => cases h; simp [specIds, idsL, valueIds]; exact .refl _
  case simple.tuple => cases h
  case tuple.value => cases h
  case tuple.tuple as es =>
    simp only [Res.bind_eq, Res.bind_eq_ok, Res.ok.injEq] at h
    obtain ⟨_, -, rfl⟩ := h
    refine AtMost.trans (.of_sublist ?_) (.of_perm (l := idsL (Tup.leaves es)) ?_)
    · rw [specIds, idsL_eq, idsL_eq]
      exact sublist_flatMap (zip_snd_sublist _ _) _
    · rw [valueIds, idsL_eq, idsL_eq]
      exact perm_flatMap (leaves_perm es) _

theorem atMost_of_mem {α : Type} {x : α} {xs : List α} (h : x ∈ xs) (f : α → List Nat) : AtMost (f x) (xs.flatMap f) := by
  obtain ⟨l, r, rfl⟩ := List.append_of_mem h
  refine .of_sublist ?_
  simp only [List.flatMap_append, List.flatMap_cons]
  exact (List.sublist_append_left _ _).trans (List.sublist_append_right _ _)

theorem loopSpecItems_ids {ls : List (LoopAlias Alias × List (LoopSourceValue Expr))} {vs : List (LoopSourceValue Expr)}
    (hv : vs ∈ picks (ls.map (·.2))) {items : List (Alias × Expr)} (h : loopSpecItems ls vs = .ok items) :
    AtMost (specIds items) (ls.flatMap fun l => l.2.flatMap valueIds) := by
  induction ls generalizing vs items with
  | nil => simp [loopSpecItems] at h; subst h; exact .refl _
  | cons l ls ih =>
    simp only [List.map_cons, picks, List.mem_flatMap, List.mem_map] at hv
    obtain ⟨v, hv, vs', hvs, rfl⟩ := hv
    simp only [loopSpecItems, Res.bind_eq, Res.bind_eq_ok, Res.ok.injEq] at h
    obtain ⟨i, h1, r, h2, rfl⟩ := h
    rw [specIds_append, List.flatMap_cons]
    exact ((makeSpecItems_ids h1).trans (atMost_of_mem hv _)).append (ih hvs h2)

mutual
theorem tupIds_value (t : PTup Expr) : (idsL (Spec.inOrder (t.conv (fun x => x)))).Sublist (tupIds Spec.ids t) := by
  match t with
  | .val _ a => simp [PTup.conv, Spec.inOrder, idsL, tupIds]
  | .tup _ _ ts =>
    simp only [PTup.conv, Spec.inOrder, tupIds]
    exact ((tupIdsL_value ts).cons _).cons _
theorem tupIdsL_value (ts : List (PTup Expr)) : (idsL (Spec.inOrderL (PTup.convL (fun x => x) ts))).Sublist (tupIdsL Spec.ids ts) := by
  match ts with
  | [] => simp [PTup.convL, Spec.inOrderL, idsL, tupIdsL]
  | t :: ts =>
    simp only [PTup.convL, Spec.inOrderL, tupIdsL]
    rw [idsL_eq, List.flatMap_append, ← idsL_eq, ← idsL_eq]
    exact (tupIds_value t).append (tupIdsL_value ts)
end

theorem elemIds_value (e : PLoopElem Expr) : AtMost (valueIds (e.value (fun x => x))) (elemIds Spec.ids e) := by
  cases e with
  | simple a => exact .refl _
  | tuple id ts => exact .of_sublist ((tupIdsL_value ts).cons _)

theorem AtMost.flatMap {α β : Type} {xs : List α} {h : α → β} {f : β → List Nat} {g : α → List Nat} (hf : ∀ x, AtMost (f (h x)) (g x)) :
    AtMost ((xs.map h).flatMap f) (xs.flatMap g) := by
  induction xs with
  | nil => exact .refl _
  | cons x xs ih => simp only [List.map_cons, List.flatMap_cons]; exact (hf x).append ih

theorem AtMost.right {a b c : List Nat} (h : AtMost a c) : AtMost a (b ++ c) :=
  h.trans (.of_sublist (List.sublist_append_right _ _))
theorem AtMost.cons {a c : List Nat} {x : Nat} (h : AtMost a c) : AtMost a (x :: c) :=
  h.trans (.of_sublist (List.sublist_cons_self _ _))

theorem loops_ids (ls : List PLoop) : AtMost
    ((ls.map fun l => (l.alias.alias (fun x => x), l.values.map (PLoopElem.value (fun x => x)))).flatMap fun l => l.2.flatMap valueIds)
    (ls.flatMap loopIds) := by
  refine AtMost.flatMap fun l => ?_
  simp only [loopIds]
  exact (AtMost.right (AtMost.flatMap elemIds_value)).cons.cons

theorem items_ids (is : List PItem) : AtMost (specIds (is.map fun i => (i.alias, i.expr))) (is.flatMap itemIds) := by
  have : specIds (is.map fun i => (i.alias, i.expr)) = (is.map (·.expr)).flatMap Spec.ids := by
    simp [specIds, idsL_eq, Function.comp_def]
  rw [this]
  refine AtMost.flatMap fun i => ?_
  simp only [itemIds]
  exact (AtMost.refl _).cons.cons.cons

/-- If all nodes of the input have different ids, so have the expressions in force in each iteration. -/
theorem rewrite_nodup {a : PAst} (hN : (astIds a).Nodup) {out : List (BlockRewrite Alias Expr (List Stmt))}
    (h : expand a.forget = .ok out) : ∀ br ∈ out, (specIds br.spec.items).Nodup := by
  have key : ∀ br ∈ out, AtMost (specIds br.spec.items) (headerIds (a.loops, a.spec)) := by
    intro br hbr
    have hspec : ∀ s, a.spec = some s → AtMost (specIds (s.items.map fun i => (i.alias, i.expr))) (a.spec.toList.flatMap pspecIds) := by
      intro s hs
      simp only [hs, Option.toList, List.flatMap_cons, List.flatMap_nil, List.append_nil, pspecIds]
      exact (items_ids s.items).cons
    cases hl : a.loops with
    | none =>
      simp only [expand, PAst.forget, PAst.conv, hl, Option.map_none, Res.ok.injEq] at h
      subst h
      simp only [List.mem_singleton] at hbr
      subst hbr
      cases hs : a.spec with
      | none => simp [specIds, idsL]; exact .of_sublist (List.nil_sublist _)
      | some s =>
        have := hspec s hs
        rw [hs] at this
        exact this
    | some ls =>
      rw [expand_loops_eq a.forget (ls.loops.map fun l => (l.alias.alias (fun x => x), l.values.map (PLoopElem.value (fun x => x))))
        (by simp [PAst.forget, PAst.conv, hl])] at h
      obtain ⟨i, hi⟩ := List.getElem?_of_mem hbr
      have hlen := mapRes_length h
      have hlt : i < out.length := by
        rcases Nat.lt_or_ge i out.length with h | h
        · exact h
        · rw [List.getElem?_eq_none h] at hi; cases hi
      obtain ⟨vs, hvs⟩ : ∃ vs, (combinations ((ls.loops.map fun l => (l.alias.alias (fun x => x), l.values.map (PLoopElem.value (fun x => x)))).map (·.2)))[i]? = some vs :=
        ⟨_, List.getElem?_eq_getElem (hlen ▸ hlt)⟩
      obtain ⟨br', h1, h2⟩ := mapRes_getElem h i vs hvs
      rw [hi] at h2
      cases h2
      have hmem := List.mem_of_getElem? hvs
      have hp : vs ∈ picks ((ls.loops.map fun l => (l.alias.alias (fun x => x), l.values.map (PLoopElem.value (fun x => x)))).map (·.2)) := by
        unfold combinations at hmem
        split at hmem
        · cases hmem
        · exact hmem
      unfold rewriteFor at h1
      cases hi : loopSpecItems (ls.loops.map fun l => (l.alias.alias (fun x => x), l.values.map (PLoopElem.value (fun x => x)))) vs with
      | err e => rw [hi] at h1; cases h1
      | panic => rw [hi] at h1; cases h1
      | ok items =>
        rw [hi] at h1
        have h3 := (loopSpecItems_ids hp hi).trans (loops_ids ls.loops)
        have h4 : AtMost (specIds items) (loopsIds ls) := by
          rw [loopsIds]; exact h3.cons
        simp only [Res.map, Res.ok.injEq] at h1
        subst h1
        simp only [headerIds, Option.toList, List.flatMap_cons, List.flatMap_nil, List.append_nil]
        cases hs : a.spec with
        | none =>
          simp only [PAst.forget, PAst.conv, hs, Option.map_none]
          simpa using h4
        | some s =>
          have := hspec s hs
          rw [hs] at this
          simp only [PAst.forget, PAst.conv, hs, Option.map_some]
          rw [specIds_append]
          exact h4.append this
  intro br hbr
  refine (key br hbr).nodup ?_
  simp only [astIds, List.nodup_cons] at hN
  exact hN.2

/-! ## The interpreter computes the expansion -/

section
variable {W : World} {env : Env} {sv : Service}

theorem executeBlockRewrite_eq {order : List (Alias × VKind) → List (Alias × VKind)} {br : BlockRewrite Alias Expr (List Stmt)}
    (hN : (specIds br.spec.items).Nodup) (ho : IsOrder order) :
    executeBlockRewrite W env order (some sv) br = copyOf W env sv br.block (named br.spec.items) := by
  have hs := C24_exact (E := W.E) (env := env) hN ho
  unfold executeBlockRewrite copyOf
  cases ho : outcome W.E env (named br.spec.items) with
  | ok vs =>
    rw [ho] at hs
    obtain ⟨subs, h1, h2⟩ := hs.symm.ok_left
    rw [h1]
    simp only [Res.bind_eq, Res.bind_ok, substitute, visitBlock_congr h2]
    cases visitBlock W.E W.Y.toGrammar subs br.block <;> rfl
  | err e => rw [ho] at hs; generalize makeSubstitutions W.E env order br.spec.items = x at hs; cases hs; rfl
  | panic => rw [ho] at hs; generalize makeSubstitutions W.E env order br.spec.items = x at hs; cases hs; rfl

theorem executeAll_eq {orders : Orders} (ho : ∀ n, IsOrder (orders n)) {brs : List (BlockRewrite Alias Expr (List Stmt))}
    (hN : ∀ br ∈ brs, (specIds br.spec.items).Nodup) (n : Nat) :
    executeAll W env orders (some sv) n brs = joinAll (brs.map fun br => copyOf W env sv br.block (named br.spec.items)) := by
  induction brs generalizing n with
  | nil => rfl
  | cons br brs ih =>
    simp only [executeAll, List.map_cons, executeBlockRewrite_eq (hN br (by simp)) (ho n), ih (fun b hb => hN b (by simp [hb]))]
    cases copyOf W env sv br.block (named br.spec.items) with
    | ok ts => simp only [Res.bind_eq, Res.bind_ok, joinAll]; cases joinAll _ <;> rfl
    | err e => rfl
    | panic => rfl

theorem copyOf_erase (block : List Stmt) (defs : List (Str × Expr)) : copyOf W env sv block (eraseDefs defs) = copyOf W env sv block defs := by
  simp only [copyOf, outcome_erase]

theorem expand_block {α ε β : Type} {a : RawAst α ε β} {out : List (BlockRewrite α ε β)} (h : expand a = .ok out) :
    ∀ br ∈ out, br.block = a.block := by
  intro br hbr
  cases hl : a.loops with
  | none =>
    simp only [expand, hl, Res.ok.injEq] at h
    subst h
    simp only [List.mem_singleton] at hbr
    subst hbr
    rfl
  | some ls =>
    rw [expand_loops_eq a ls hl] at h
    obtain ⟨i, hi⟩ := List.getElem?_of_mem hbr
    have hlt : i < (combinations (ls.map (·.2))).length := by
      rw [← mapRes_length h]
      rcases Nat.lt_or_ge i out.length with h | h
      · exact h
      · rw [List.getElem?_eq_none h] at hi; cases hi
    obtain ⟨br', h1, h2⟩ := mapRes_getElem h i _ (List.getElem?_eq_getElem hlt)
    rw [hi] at h2
    cases h2
    unfold rewriteFor at h1
    cases hi : loopSpecItems ls ((combinations (ls.map (·.2)))[i]) with
    | err e => rw [hi] at h1; cases h1
    | panic => rw [hi] at h1; cases h1
    | ok items =>
      rw [hi] at h1
      simp only [Res.map, Res.ok.injEq] at h1
      subst h1
      cases a.spec <;> rfl

/-- The interpreter computes the specified expansion. -/
theorem execute_eq {a : PAst} (hN : (astIds a).Nodup) {orders : Orders} (ho : ∀ n, IsOrder (orders n)) :
    execute W env orders (some sv) a.forget = expansion W env sv (tree a) := by
  have hm : expand (tree a) = (expand a.forget).map (·.map (BlockRewrite.map (·.2) Expr.erase)) := by
    rw [tree, conv_eq_map, expand_map]
  unfold execute expansion iterations
  rw [hm]
  cases he : expand a.forget with
  | err e => rfl
  | panic => rfl
  | ok out =>
    simp only [Res.bind_eq, Res.bind_ok, Res.map, executeAll_eq ho (rewrite_nodup hN he), List.map_map]
    congr 1
    refine List.map_congr_left fun br hbr => ?_
    simp only [Function.comp_def, BlockRewrite.map, AliasSpec.map, mapItems]
    have : (br.spec.items.map fun i => (i.1.2, i.2.erase)) = eraseDefs (named br.spec.items) := by
      simp [eraseDefs, named, Function.comp_def]
    rw [this, copyOf_erase, expand_block he br hbr]
    rfl
end

end Verif
