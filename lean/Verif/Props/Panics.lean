import Verif.Props.First
import Verif.Proofs.Ordinary
/-!
# Exactly when an invocation panics (C95)

C88 says when there is code and C94 when there is which error. The rest are panics; here is what they are.
-/

namespace Verif.Props
open Verif Spec

variable {E : Ext} {seed : Nat}

/-! ## Functions -/

/-- `NameMade E f vs s`: the function, applied to the values, makes an identifier of the text `s`. (`hash` does too, but its text is always fine.) -/
inductive NameMade (E : Ext) : Func → List VKind → Str → Prop
  | upper {f : Func} (hf : Builtin "upper" f) (s : Str) : NameMade E f [.ident s] (E.toUppercase s)
  | lower {f : Func} (hf : Builtin "lower" f) (s : Str) : NameMade E f [.ident s] (E.toLowercase s)
  | snake {f : Func} (hf : Builtin "snake_case" f) (s : Str) : NameMade E f [.ident s] (E.snake s)
  | camel {f : Func} (hf : Builtin "camel_case" f) (s : Str) : NameMade E f [.ident s] (E.lowerCamel s)
  | pascal {f : Func} (hf : Builtin "pascal_case" f) (s : Str) : NameMade E f [.ident s] (E.pascal s)
  | normalize {f : Func} (hf : Builtin "normalize" f ∨ Builtin "normalize2" f) {v : VKind} {s : Str} (h : TextOf E v s) :
      NameMade E f [v] (normalized E.toCharClass s)
  | concat {f : Func} (hf : ConcatOf .ident f) (ss : List Str) : NameMade E f (ss.map .ident) ss.flatten

/-- `Crashes E f vs`: the function panics. -/
inductive Crashes (E : Ext) : Func → List VKind → Prop
  /-- the text is not that of an identifier -/
  | name {f : Func} {vs : List VKind} {s : Str} (hm : NameMade E f vs s) (h : ¬ ValidIdent E.toCharClass s) : Crashes E f vs
  /-- digits with a minus sign in between -/
  | ints {f : Func} (hf : ConcatOf .litInt f) (i : IntLit) (l : List IntLit) {j : IntLit} (hj : j ∈ l) (h : j.neg = true) :
      Crashes E f ((i :: l).map .litInt)

theorem argsFit_of_typesFit {f : Func} (hf : f ∈ builtins) {vs : List VKind} (h : TypesFit f vs) : ArgsFit f vs := by
  obtain ⟨ps, h1, h2⟩ := h
  have one : ∀ t : Ty, t.isVariadic = false → f.args = [t] → ArgsFit f vs := by
    intro t ht ha
    have : paramsFor f vs.length = if 1 = vs.length then some [(t, 1)] else none := by
      simp [paramsFor, Func.variadicArg, ha, ht]
    rw [this] at h1
    split at h1
    · rename_i hl
      cases h1
      match vs, hl with
      | [v], _ =>
        unfold ArgsFit
        rw [ha]
        cases t <;> first | (simp [Ty.isVariadic] at ht; done) | exact ⟨v, rfl, by simpa using h2⟩
    · cases h1
  have many : ∀ t : Ty, f.args = [.variadic t] → ArgsFit f vs := by
    intro t ha
    have : paramsFor f vs.length = if 1 ≤ vs.length then some (List.replicate vs.length (t, 2)) else none := by
      simp [paramsFor, Func.variadicArg, Func.fixedArgs, ha, Ty.isVariadic]
    rw [this] at h1
    split at h1
    · rename_i hl
      cases h1
      unfold ArgsFit
      rw [ha]
      refine ⟨fun e => by (subst e; simp at hl), fun v hv => ?_⟩
      have : v.ty ∈ vs.map (·.ty) := List.mem_map_of_mem hv
      rw [h2] at this
      have := List.mem_map.1 this
      simp only [List.mem_replicate] at this
      obtain ⟨p, ⟨-, rfl⟩, h⟩ := this
      exact h.symm
    · cases h1
  have two : f.args = [.ident, .variadic .tokens] → ArgsFit f vs := by
    intro ha
    have : paramsFor f vs.length = if 2 ≤ vs.length then some ((.ident, 1) :: List.replicate (vs.length - 1) (.tokens, 2)) else none := by
      simp [paramsFor, Func.variadicArg, Func.fixedArgs, ha, Ty.isVariadic]
    rw [this] at h1
    split at h1
    · rename_i hl
      cases h1
      unfold ArgsFit
      rw [ha]
      match vs, hl with
      | v :: w :: vs, _ =>
        simp only [List.map_cons, List.length_cons, Nat.add_sub_cancel, List.cons.injEq] at h2
        refine ⟨v, w :: vs, rfl, by simp, h2.1, fun u hu => ?_⟩
        have : u.ty ∈ (w :: vs).map (·.ty) := List.mem_map_of_mem hu
        simp only [List.map_cons, h2.2] at this
        obtain ⟨p, hp, he⟩ := List.mem_map.1 this
        have := List.eq_of_mem_replicate hp
        subst this
        exact he.symm
    · cases h1
  have hall : ∀ g ∈ builtins, (∃ t : Ty, t.isVariadic = false ∧ g.args = [t]) ∨ (∃ t, g.args = [.variadic t]) ∨ g.args = [.ident, .variadic .tokens] := by
    have : ∀ g ∈ builtins, (match g.args with | [.variadic _] => true | [.ident, .variadic .tokens] => true | [_] => true | _ => false) = true := by decide +kernel
    intro g hg
    have := this g hg
    split at this
    · rename_i t h; exact .inr (.inl ⟨t, h⟩)
    · rename_i h; exact .inr (.inr h)
    · rename_i t h' h
      refine .inl ⟨t, ?_, h⟩
      cases t <;> first | rfl | exact absurd rfl (h' _)
    · cases this
  rcases hall f hf with ⟨t, ht, ha⟩ | ⟨t, ha⟩ | ha
  · exact one t ht ha
  · exact many t ha
  · exact two ha

theorem textOf_exists (v : VKind) : TextOf E v (normalize2Text E v) := by
  cases v with
  | litInt i =>
    obtain ⟨n, r, k⟩ := i
    cases n
    · exact .nat r k
    · exact .neg r k
  | _ => constructor

theorem newIdent_panic {s : Str} : newIdent E s = .panic ↔ ¬ ValidIdent E.toCharClass s := by
  rw [← lexIdent_iff]
  unfold newIdent
  cases h : E.lexIdent s <;> simp

theorem nameMade_panic (hu : E.alnum '_' = false) {f : Func} {vs : List VKind} {s : Str} (hm : NameMade E f vs s) (ha : ArgsFit f vs) (h : ¬ ValidIdent E.toCharClass s) :
    f.impl E seed vs = .panic := by
  have hcase : ∀ (g : Str → Str) (t : Str), (Builtin "upper" f ∧ g = E.toUppercase) ∨ (Builtin "lower" f ∧ g = E.toLowercase) ∨
      (Builtin "snake_case" f ∧ g = E.snake) ∨ (Builtin "camel_case" f ∧ g = E.lowerCamel) ∨
      (Builtin "pascal_case" f ∧ g = E.pascal) → ArgsFit f [.ident t] → ¬ ValidIdent E.toCharClass (g t) → f.impl E seed [.ident t] = .panic := by
    intro g t hf ha h
    rcases C36_case_functions (E := E) (seed := seed) g hf ha with ⟨r, s, h1, -⟩ | ⟨s, h1, h2, -⟩
    · cases h1
    · cases h1; exact h2.2 h
  cases hm with
  | upper hf s => exact hcase _ s (.inl ⟨hf, rfl⟩) ha h
  | lower hf s => exact hcase _ s (.inr (.inl ⟨hf, rfl⟩)) ha h
  | snake hf s => exact hcase _ s (.inr (.inr (.inl ⟨hf, rfl⟩))) ha h
  | camel hf s => exact hcase _ s (.inr (.inr (.inr (.inl ⟨hf, rfl⟩)))) ha h
  | pascal hf s => exact hcase _ s (.inr (.inr (.inr (.inr ⟨hf, rfl⟩)))) ha h
  | normalize hf ht =>
    have e := normalize2Text_of ht
    subst e
    rw [← normalize_eq hu] at h
    rcases hf with hf | hf
    · simp only [builtin_iff builtin_normalize, List.mem_singleton] at hf
      subst hf
      obtain ⟨w, hw, ht⟩ := ha
      cases hw
      obtain ⟨ts, rfl⟩ := asRaw_of ht
      exact newIdent_panic.2 h
    · simp only [builtin_iff builtin_normalize2, List.mem_cons, List.not_mem_nil, or_false] at hf
      rcases hf with rfl | rfl | rfl | rfl | rfl | rfl | rfl
      all_goals
        obtain ⟨w, hw, ht⟩ := ha
        cases hw
        simp only [normalize2For, ht, if_true]
        exact newIdent_panic.2 h
  | concat hf ss =>
    rw [concatOf_ident hf]
    simp only [concatIdents, Res.bind_eq, allOf_map (sel := VKind.asIdent) (mk := .ident) (fun _ => rfl), Res.bind_ok]
    exact newIdent_panic.2 h

/-- When a built-in function panics. -/
theorem crashes_iff (hu : E.alnum '_' = false) (hC : DigitsContinue E.toCharClass) {f : Func} (hf : f ∈ builtins) {vs : List VKind} (ht : TypesFit f vs) :
    f.impl E seed vs = .panic ↔ Crashes E f vs := by
  have ha := argsFit_of_typesFit hf ht
  constructor
  · intro h
    have hcase : ∀ (g : Str → Str), (Builtin "upper" f ∧ g = E.toUppercase) ∨ (Builtin "lower" f ∧ g = E.toLowercase) ∨
        (Builtin "snake_case" f ∧ g = E.snake) ∨ (Builtin "camel_case" f ∧ g = E.lowerCamel) ∨
        (Builtin "pascal_case" f ∧ g = E.pascal) → (∀ t, f.args = [t] → t.isVariadic = false) → f.args.length = 1 →
        ∃ t, vs = [.ident t] ∧ ¬ ValidIdent E.toCharClass (g t) := by
      intro g hg hv hl
      obtain ⟨v, rfl⟩ : ∃ v, vs = [v] := by
        unfold ArgsFit at ha
        split at ha
        · rename_i t he; exact absurd (hv _ he) (by simp [Ty.isVariadic])
        · rename_i he; rw [he] at hl; simp at hl
        · obtain ⟨v, hv, -⟩ := ha; exact ⟨v, hv⟩
        · cases ha
      rcases C36_case_functions (E := E) (seed := seed) g hg ha with ⟨r, s, rfl, h1⟩ | ⟨s, rfl, h1, -⟩
      · rw [h] at h1; cases h1
      · exact ⟨s, rfl, h1.1 h⟩
    have hstr : ∀ id n G, f ∈ strFuncs id n G → (∀ t, f.args = [t] → t.isVariadic = false) ∧ f.args.length = 1 := by
      intro id n G hm
      simp only [strFuncs, List.mem_cons, List.not_mem_nil, or_false] at hm
      rcases hm with rfl | rfl <;> exact ⟨fun t ht => by (cases ht; rfl), rfl⟩
    have hn : ∀ {v : VKind}, newIdent E (normalize E.toCharClass (normalize2Text E v)) = .panic → vs = [v] → Builtin "normalize" f ∨ Builtin "normalize2" f →
        Crashes E f vs := by
      rintro v hp rfl hb
      rw [newIdent_panic, normalize_eq hu] at hp
      exact .name (.normalize hb (textOf_exists v)) hp
    have hcast : ∀ id n t, f = castFunc id n t → Crashes E f vs := by
      rintro id n t rfl
      exfalso
      obtain ⟨ps, h1, h2⟩ := ht
      obtain ⟨v, rfl, hv⟩ : ∃ v, vs = [v] ∧ v.ty = .tokens := ha
      obtain ⟨ts, rfl⟩ := asTokens_of hv
      exact tryCast_no_panic h
    simp only [builtins, List.mem_append, List.mem_cons, List.not_mem_nil, or_false] at hf
    rcases hf with (((((((hm | hm) | hm) | hm) | hm) | hm) | hm) | hm)
    · have hb : Builtin "upper" f := (builtin_iff builtin_upper).2 hm
      obtain ⟨t, rfl, hv⟩ := hcase _ (.inl ⟨hb, rfl⟩) (hstr _ _ _ hm).1 (hstr _ _ _ hm).2
      exact .name (.upper hb t) hv
    · have hb : Builtin "lower" f := (builtin_iff builtin_lower).2 hm
      obtain ⟨t, rfl, hv⟩ := hcase _ (.inr (.inl ⟨hb, rfl⟩)) (hstr _ _ _ hm).1 (hstr _ _ _ hm).2
      exact .name (.lower hb t) hv
    · have hb : Builtin "snake_case" f := (builtin_iff builtin_snake).2 hm
      obtain ⟨t, rfl, hv⟩ := hcase _ (.inr (.inr (.inl ⟨hb, rfl⟩))) (hstr _ _ _ hm).1 (hstr _ _ _ hm).2
      exact .name (.snake hb t) hv
    · have hb : Builtin "camel_case" f := (builtin_iff builtin_camel).2 hm
      obtain ⟨t, rfl, hv⟩ := hcase _ (.inr (.inr (.inr (.inl ⟨hb, rfl⟩)))) (hstr _ _ _ hm).1 (hstr _ _ _ hm).2
      exact .name (.camel hb t) hv
    · have hb : Builtin "pascal_case" f := (builtin_iff builtin_pascal).2 hm
      obtain ⟨t, rfl, hv⟩ := hcase _ (.inr (.inr (.inr (.inr ⟨hb, rfl⟩)))) (hstr _ _ _ hm).1 (hstr _ _ _ hm).2
      exact .name (.pascal hb t) hv
    · rcases hm with rfl | hm
      · obtain ⟨v, rfl, hv⟩ : ∃ v, vs = [v] ∧ v.ty = .raw := ha
        obtain ⟨ts, rfl⟩ := asRaw_of hv
        exact hn (v := .raw ts) h rfl (.inl ((builtin_iff builtin_normalize).2 (by simp)))
      · have hb : Builtin "normalize2" f := (builtin_iff builtin_normalize2).2 (by simpa using hm)
        obtain ⟨id, t, rfl, htv⟩ : ∃ id t, f = normalize2For id t ∧ t.isVariadic = false := by
          rcases hm with rfl | rfl | rfl | rfl | rfl | rfl | rfl <;> exact ⟨_, _, rfl, rfl⟩
        obtain ⟨v, rfl, hv⟩ : ∃ v, vs = [v] ∧ v.ty = t := by
          unfold ArgsFit at ha
          simp only [normalize2For] at ha
          cases t <;> first | (simp [Ty.isVariadic] at htv; done) | exact ha
        simp only [normalize2For, hv, if_true] at h
        exact hn h rfl (.inr hb)
    · have hb : Builtin "hash" f := (builtin_iff builtin_hash).2 hm
      exact (C36_hash (E := E) (seed := seed) hb hC ha |> fun ⟨w, hw⟩ => by (rw [h] at hw; cases hw))
    · rcases hm with rfl | rfl | rfl | rfl | rfl | hm | hm | hm | hm | hm | hm | rfl | rfl
      · obtain ⟨hne, hv⟩ : vs ≠ [] ∧ ∀ v ∈ vs, v.ty = .ident := ha
        obtain ⟨ss, rfl⟩ : ∃ ss : List Str, vs = ss.map .ident := by
          clear h ht hne hcase hn hcast
          induction vs with
          | nil => exact ⟨[], rfl⟩
          | cons v vs ih =>
            obtain ⟨ss, rfl⟩ := ih (fun w hw => hv w (by simp [hw]))
            obtain ⟨s, rfl⟩ := asIdent_of (hv v (by simp))
            exact ⟨s :: ss, rfl⟩
        simp only [concatIdents, Res.bind_eq, allOf_map (sel := VKind.asIdent) (mk := .ident) (fun _ => rfl), Res.bind_ok] at h
        exact .name (.concat ⟨(builtin_iff builtin_concat).2 (by simp), rfl⟩ ss) (newIdent_panic.1 h)
      · exfalso
        obtain ⟨v, ws, rfl, -, hv, hw⟩ : ∃ v ws, vs = v :: ws ∧ ws ≠ [] ∧ v.ty = .ident ∧ ∀ w ∈ ws, w.ty = .tokens := ha
        obtain ⟨l, hl⟩ := allOf_ok_of (sel := VKind.asTokens) (vs := ws) (fun w h => by obtain ⟨s, rfl⟩ := asTokens_of (hw w h); rfl)
        simp only [concatIdentTokens, Res.bind_eq, hl, Res.bind_ok] at h
        split at h <;> cases h
      · exfalso
        obtain ⟨-, hv⟩ : vs ≠ [] ∧ ∀ v ∈ vs, v.ty = .litStr := ha
        obtain ⟨l, hl⟩ := allOf_ok_of (sel := VKind.asLitStr) (vs := vs) (fun w h => by obtain ⟨r, s, rfl⟩ := asLitStr_of (hv w h); rfl)
        simp [concatLitStrs, hl] at h
      · obtain ⟨hne, hv⟩ : vs ≠ [] ∧ ∀ v ∈ vs, v.ty = .litInt := ha
        obtain ⟨is, rfl⟩ : ∃ is : List IntLit, vs = is.map .litInt := by
          clear h ht hne hcase hn hcast
          induction vs with
          | nil => exact ⟨[], rfl⟩
          | cons v vs ih =>
            obtain ⟨ss, rfl⟩ := ih (fun w hw => hv w (by simp [hw]))
            obtain ⟨s, rfl⟩ := asLitInt_of (hv v (by simp))
            exact ⟨s :: ss, rfl⟩
        cases is with
        | nil => simp at hne
        | cons i l =>
          have hc : ConcatOf .litInt (concatLitInts 24) := ⟨(builtin_iff builtin_concat).2 (by simp), rfl⟩
          by_cases hj : ∃ j ∈ l, j.neg = true
          · obtain ⟨j, h1, h2⟩ := hj
            exact .ints hc i l h1 h2
          · obtain ⟨ds, -, h2⟩ := (C31_concat_signed (E := E) (seed := seed) hc i l).1 (by simpa using hj)
            rw [h] at h2
            cases h2
      · exfalso
        obtain ⟨-, hv⟩ : vs ≠ [] ∧ ∀ v ∈ vs, v.ty = .tokens := ha
        obtain ⟨l, hl⟩ := allOf_ok_of (sel := VKind.asTokens) (vs := vs) (fun w h => by obtain ⟨s, rfl⟩ := asTokens_of (hv w h); rfl)
        simp [concatTokens, hl] at h
      · exact hcast _ _ _ hm
      · exact hcast _ _ _ hm
      · exact hcast _ _ _ hm
      · exact hcast _ _ _ hm
      · exact hcast _ _ _ hm
      · exact hcast _ _ _ hm
      · exfalso
        obtain ⟨v, rfl, hv⟩ : ∃ v, vs = [v] ∧ v.ty = .tokens := ha
        obtain ⟨ts, rfl⟩ := asTokens_of hv
        cases h
      · exfalso
        obtain ⟨v, rfl, hv⟩ : ∃ v, vs = [v] ∧ v.ty = .raw := ha
        obtain ⟨ts, rfl⟩ := asRaw_of hv
        cases h
  · intro h
    cases h with
    | name hm h => exact nameMade_panic hu hm ha h
    | ints hc i l hj h => exact (C31_concat_signed (E := E) (seed := seed) hc i l).2 ⟨_, hj, h⟩

/-! ## Definitions -/

/-- `Crashing E seed ρ te`: a call in the expression panics, and everything to be evaluated before it does not fail. -/
inductive Crashing (E : Ext) (seed : Nat) (ρ : Str → Option VKind) : TExpr → Prop
  | arg {f : Func} {pre : List TExpr} {te : TExpr} {post : List TExpr} {t : Ty} {vs : List VKind}
      (hp : TExpr.evalL E seed ρ pre = .ok vs) (h : Crashing E seed ρ te) : Crashing E seed ρ (.call f (pre ++ te :: post) t)
  | here {f : Func} {args : List TExpr} {t : Ty} {vs : List VKind} (ha : TExpr.evalL E seed ρ args = .ok vs) (h : Crashes E f vs) :
      Crashing E seed ρ (.call f args t)

/-- The first definition whose evaluation does not succeed panics. -/
inductive DefsCrash (E : Ext) (seed : Nat) : (Str → Option VKind) → List (Str × TExpr) → Prop
  | here {ρ : Str → Option VKind} {n : Str} {te : TExpr} {post : List (Str × TExpr)} (h : Crashing E seed ρ te) : DefsCrash E seed ρ ((n, te) :: post)
  | later {ρ : Str → Option VKind} {n : Str} {te : TExpr} {v : VKind} {post : List (Str × TExpr)} (hv : te.eval E seed ρ = .ok v)
      (h : DefsCrash E seed (extend ρ n v) post) : DefsCrash E seed ρ ((n, te) :: post)

theorem evalL_panic_iff {ρ : Str → Option VKind} : ∀ {tes : List TExpr}, TExpr.evalL E seed ρ tes = .panic ↔
    ∃ pre te post vs, tes = pre ++ te :: post ∧ TExpr.evalL E seed ρ pre = .ok vs ∧ te.eval E seed ρ = .panic
  | [] => ⟨fun h => by (simp only [TExpr.evalL] at h; cases h), fun ⟨pre, _, _, _, h, _⟩ => by (simp at h)⟩
  | te :: tes => by
    have ih := evalL_panic_iff (ρ := ρ) (tes := tes)
    constructor
    · intro h
      simp only [TExpr.evalL, Res.bind_eq] at h
      cases h1 : te.eval E seed ρ with
      | err e => rw [h1] at h; cases h
      | panic => exact ⟨[], te, tes, [], rfl, rfl, h1⟩
      | ok v =>
        rw [h1, Res.bind_ok] at h
        cases h2 : TExpr.evalL E seed ρ tes with
        | ok vs => rw [h2] at h; cases h
        | err e => rw [h2] at h; cases h
        | panic =>
          obtain ⟨pre, t, post, vs, rfl, h3, h4⟩ := ih.1 h2
          exact ⟨te :: pre, t, post, v :: vs, rfl, by simp only [TExpr.evalL, h1, h3]; rfl, h4⟩
    · rintro ⟨pre, t, post, vs, h1, h2, h3⟩
      cases pre with
      | nil => cases h1; simp only [TExpr.evalL, h3]; rfl
      | cons p pre =>
        cases h1
        simp only [TExpr.evalL, Res.bind_eq] at h2 ⊢
        cases h4 : te.eval E seed ρ with
        | err e => rw [h4] at h2; cases h2
        | panic => rfl
        | ok v =>
          rw [h4, Res.bind_ok] at h2
          rw [Res.bind_ok]
          cases h5 : TExpr.evalL E seed ρ pre with
          | err e => rw [h5] at h2; cases h2
          | panic => rw [h5] at h2; cases h2
          | ok ws => rw [ih.2 ⟨pre, t, post, ws, rfl, h5, h3⟩]; rfl

theorem crashing_iff (hu : E.alnum '_' = false) (hC : DigitsContinue E.toCharClass) {Γ : TyEnv} {ρ : Str → Option VKind} (hρ : Typed Γ ρ) {te : TExpr}
    (h : WT (InTable builtinFuncs) Γ te) : te.eval E seed ρ = .panic ↔ Crashing E seed ρ te := by
  have hF : ∀ f, InTable builtinFuncs f → Sound E seed f := fun f hf => builtins_sound (inTable_builtin hf)
  induction h with
  | @val k t h =>
    obtain ⟨w, hw, -⟩ := tryCast_plainly (E := E) (v := leaf ρ k) (t := t) (by rw [leaf_ty hρ]; exact h)
    rw [eval_val, hw]
    exact ⟨fun h => by (cases h), fun h => by (cases h)⟩
  | @call f tes t hf hp hfit hw ih =>
    have hfits : ∀ {vs}, TExpr.evalL E seed ρ tes = .ok vs → TypesFit f vs := by
      intro vs h1
      have ht := evalL_types (fun te hte => eval_sound hF hρ (hw te hte)) h1
      have hl : vs.length = tes.length := by
        have := congrArg List.length ht; simpa using this
      obtain ⟨ps, h3, h4⟩ := hfit
      exact ⟨ps, hl ▸ h3, ht.trans h4⟩
    constructor
    · intro he
      simp only [TExpr.eval, Res.bind_eq] at he
      cases h1 : TExpr.evalL E seed ρ tes with
      | err e => rw [h1] at he; cases he
      | panic =>
        obtain ⟨pre, te, post, vs, rfl, h2, h3⟩ := evalL_panic_iff.1 h1
        exact .arg h2 ((ih te (by simp)).1 h3)
      | ok vs =>
        rw [h1, Res.bind_ok] at he
        cases h2 : f.impl E seed vs with
        | err e => rw [h2] at he; cases he
        | panic => exact .here h1 ((crashes_iff hu hC (inTable_builtin hf) (hfits h1)).1 h2)
        | ok r =>
          rw [h2, Res.bind_ok] at he
          exact (tryCast_no_panic he).elim
    · intro hc
      simp only [TExpr.eval, Res.bind_eq]
      cases hc with
      | @arg _ pre te post _ vs hp h => rw [evalL_panic_iff.2 ⟨pre, te, post, vs, rfl, hp, (ih te (by simp)).2 h⟩]; rfl
      | here ha h => rw [ha, Res.bind_ok, (crashes_iff hu hC (inTable_builtin hf) (hfits ha)).2 h]; rfl

theorem defsCrash_iff (hu : E.alnum '_' = false) (hC : DigitsContinue E.toCharClass) : ∀ {items : List (Str × Expr)} {Γ : TyEnv} {ρ : Str → Option VKind}
    {tes : List (Str × TExpr)}, checkSpec builtinFuncs items Γ = .ok tes → Typed Γ ρ → (evalSpecT E seed tes ρ = .panic ↔ DefsCrash E seed ρ tes)
  | [], Γ, ρ, tes, h, _ => by
    simp only [checkSpec] at h
    cases h
    exact ⟨fun h => by (cases h), fun h => by (cases h)⟩
  | (name, e) :: items, Γ, ρ, tes, h, hρ => by
    simp only [checkSpec] at h
    split at h
    · cases h
    · rename_i c te hc
      split at h
      · cases h
      · split at h
        · cases h
        · rename_i rest hr
          cases h
          have hw : WT (InTable builtinFuncs) Γ te := by
            rcases check_good builtins_tame e (expected := none) (by intro t h; cases h) hc with ⟨h, -⟩ | ⟨t, h, -⟩
            · exact h
            · cases h
          have hF : ∀ f, InTable builtinFuncs f → Sound E seed f := fun f hf => builtins_sound (inTable_builtin hf)
          have hcr := crashing_iff (seed := seed) hu hC hρ hw
          have hrest : ∀ v, te.eval E seed ρ = .ok v → (evalSpecT E seed rest (extend ρ name v) = .panic ↔ DefsCrash E seed (extend ρ name v) rest) := by
            intro v hv
            have ht : v.ty = te.target := by
              rcases eval_sound hF hρ hw with ⟨v', hv', ht⟩ | ⟨x, hx, -⟩ | ⟨hp, -⟩
              · rw [hv] at hv'; cases hv'; exact ht
              · rw [hv] at hx; cases hx
              · rw [hv] at hp; cases hp
            exact defsCrash_iff hu hC hr (ht ▸ hρ.extend name v)
          simp only [evalSpecT, Res.bind_eq]
          constructor
          · intro he
            cases hv : te.eval E seed ρ with
            | err y => rw [hv] at he; cases he
            | panic => exact .here (hcr.1 hv)
            | ok v =>
              rw [hv, Res.bind_ok] at he
              cases hs : evalSpecT E seed rest (extend ρ name v) with
              | ok ws => rw [hs] at he; cases he
              | err y => rw [hs] at he; cases he
              | panic => exact .later hv ((hrest v hv).1 hs)
          · intro hd
            cases hd with
            | here h => rw [hcr.2 h]; rfl
            | @later _ _ _ v _ hv h => rw [hv, Res.bind_ok, (hrest v hv).2 h]; rfl

/-! ## Code -/

/-- `PieceJams valid look str node`: as written (if there is nothing to replace) or after some of the replacements, all of them in strings, the piece is
not of its kind. -/
def PieceJams (valid : Toks → Bool) (look : Str → Option Toks) (str : Str → Lit) (node : Toks) : Prop :=
  ∃ k, k ≤ (occAll look node).length ∧ (k = 0 → occAll look node = []) ∧ valid (substFirst look str k node) = false ∧
    (∀ j, 1 ≤ j → j < k → valid (substFirst look str j node) = true) ∧ lastAlias look node k = none

/-- `CodeJams`: the first piece which cannot be parsed again has nothing to blame it on. -/
def CodeJams (W : World) (fmt : Str → Str) (vs : Subs) (block : List Stmt) : Prop :=
  ∃ pre p post, stmtsParts block = pre ++ p :: post ∧
    (∀ q ∈ pre, StaysValid (validPart W.Y.toGrammar q.1) (valueToks vs) (litWith W.E fmt) q.2) ∧
    PieceJams (validPart W.Y.toGrammar p.1) (valueToks vs) (litWith W.E fmt) p.2

theorem piece_panic_iff {valid : Toks → Bool} {subs : Subs} {fmt : Str → Str} (hf : FormatsAll E subs fmt) (node : Toks) :
    substituteIdents E valid subs node = .panic ↔ PieceJams valid (valueToks subs) (litWith E fmt) node := by
  have hl : valueToks subs = lookToks subs := by funext n; simp [valueToks, codeOf_eq, lookToks, get_eq_lookup]
  rw [litWith_eq hf, hl]
  unfold substituteIdents PieceJams
  rw [walk_eq]
  rcases goList_checked (E := E) (valid := valid) (subs := subs) node id [] none with ⟨h1, h2⟩ | ⟨k, h1, h2, h3, h4, h5⟩
  · simp only [id_eq, List.nil_append] at h1
    rw [h2]
    simp only [Res.map, Res.bind_eq, Res.bind_ok]
    rw [← substFirst_all _ _ node _ (Nat.le_refl _)]
    constructor
    · intro h
      have hv : valid (substFirst (lookToks subs) (strLit E subs) (occAll (lookToks subs) node).length node) = false := by
        split at h
        · cases h
        · rename_i hv; simpa using hv
      have h0 : (occAll (lookToks subs) node).length = 0 := by
        refine Classical.byContradiction fun h0 => ?_
        rw [h1 _ (by omega) (Nat.le_refl _)] at hv
        cases hv
      exact ⟨0, by omega, fun _ => List.eq_nil_of_length_eq_zero h0, by rw [h0] at hv; exact hv, by omega, rfl⟩
    · rintro ⟨k, hk1, hk2, hk3, -⟩
      by_cases hk : k = 0
      · subst hk
        rw [hk2 rfl, List.length_nil, hk3]
        rfl
      · rw [h1 k (by omega) hk1] at hk3
        cases hk3
  · simp only [id_eq, List.nil_append] at h3 h4
    simp only [h5, stateAfter_lastAlias]
    constructor
    · intro h
      cases ha : lastAlias (lookToks subs) node k with
      | none => exact ⟨k, h2, by omega, h3, h4, ha⟩
      | some n => rw [ha] at h; cases h
    · rintro ⟨k', hk1, hk2, hk3, hk4, ha⟩
      have hkk : k' = k := by
        by_cases hlt : k' < k
        · by_cases h0 : k' = 0
          · rw [hk2 h0] at h2; simp at h2; omega
          · rw [h4 k' (by omega) hlt] at hk3; cases hk3
        · by_cases hgt : k < k'
          · rw [hk4 k h1 hgt] at h3; cases h3
          · omega
      subst hkk
      rw [ha]
      rfl

theorem code_panic_iff {W : World} {vs : Subs} {fmt : Str → Str} (hf : FormatsAll W.E vs fmt) {block : List Stmt}
    (hb : StatementsParse W.Y.toGrammar block) : visitBlock W.E W.Y.toGrammar vs block = .panic ↔ CodeJams W fmt vs block := by
  have hs := visitBlock_spec id (E := W.E) (subs := vs) block hb.parts
  have hrun : visitBlock W.E W.Y.toGrammar vs block = .panic ↔ runParts W.E W.Y.toGrammar vs (stmtsParts block) = .panic := by
    cases hr : runParts W.E W.Y.toGrammar vs (stmtsParts block) with
    | ok a => rw [hr] at hs; obtain ⟨b', h, -⟩ := hs; rw [h]; simp
    | err e => rw [hr] at hs; rw [hs]; simp
    | panic => rw [hr] at hs; simp [hs]
  rw [hrun]
  unfold CodeJams
  clear hs hrun hb
  generalize stmtsParts block = ps
  constructor
  · intro h
    induction ps with
    | nil => simp [runParts] at h
    | cons p ps ih =>
      simp only [runParts] at h
      rcases Res.bind_eq_panic.1 h with h | ⟨out, ho, h⟩
      · exact ⟨[], p, ps, rfl, by simp, (piece_panic_iff hf _).1 h⟩
      · obtain ⟨pre, q, post, rfl, h1, h2⟩ := ih h
        refine ⟨p :: pre, q, post, rfl, ?_, h2⟩
        intro q hq
        rcases List.mem_cons.1 hq with rfl | hq
        · exact (C88_piece hf _).1 ⟨out, ho⟩
        · exact h1 q hq
  · rintro ⟨pre, p, post, rfl, h1, h2⟩
    rw [runParts_append, runParts_ok fun q hq => (C88_piece hf _).2 (h1 q hq)]
    simp [runParts, (piece_panic_iff hf _).2 h2]

/-! ## The invocation -/

/-- `FirstPanic W seed block defs`: how an iteration panics. -/
inductive FirstPanic (W : World) (seed : Nat) (block : List Stmt) (defs : List (Str × Expr)) : Prop
  /-- costs do not fit into 32 bits; this is so whatever else is wrong with the definitions -/
  | costs (h : overflowsSpec builtinFuncs defs (fun _ => none) = true)
  /-- a function panics -/
  | values (ho : overflowsSpec builtinFuncs defs (fun _ => none) = false) {tes : List (Str × TExpr)}
      (hc : checkSpec builtinFuncs defs (fun _ => none) = .ok tes) (h : DefsCrash W.E seed (fun _ => none) tes)
  /-- the code cannot be parsed again -/
  | code {vs : List (Str × VKind)} (hv : outcome W.E (Env.builtin seed) defs = .ok vs) {fmt : Str → Str} (hf : FormatsAll W.E vs fmt)
      (h : CodeJams W fmt vs block)

theorem copy_panic_iff {W : World} {seed : Nat} {sv : Service} {block : List Stmt} (hu : W.E.alnum '_' = false) (hC : DigitsContinue W.E.toCharClass)
    (hb : StatementsParse W.Y.toGrammar block) {defs : List (Str × Expr)} :
    copyOf W (Env.builtin seed) sv block defs = .panic ↔ FirstPanic W seed block defs := by
  constructor
  · intro h
    unfold copyOf at h
    split at h
    · rename_i vs hv
      split at h
      · cases h
      · cases h
      · rename_i hy
        obtain ⟨fmt, hf⟩ := formatting_exists W.E vs
        exact .code hv hf ((code_panic_iff hf hb).1 hy)
    · cases h
    · rename_i hy
      unfold outcome at hy
      split at hy
      · rename_i ho; exact .costs ho
      · rename_i ho
        replace ho : overflowsSpec builtinFuncs defs (fun _ => none) = false := Bool.eq_false_iff.2 ho
        unfold denote at hy
        split at hy
        · cases hy
        · rename_i tes hc
          exact .values ho hc ((defsCrash_iff hu hC hc typed_empty).1 hy)
  · intro h
    cases h with
    | costs ho =>
      have : outcome W.E (Env.builtin seed) defs = .panic := by
        unfold outcome
        rw [show overflowsSpec (Env.builtin seed).funcs defs (fun _ => none) = true from ho]
        rfl
      simp only [copyOf, this]
    | @values ho tes hc h =>
      have : outcome W.E (Env.builtin seed) defs = .panic := by
        unfold outcome denote
        rw [show overflowsSpec (Env.builtin seed).funcs defs (fun _ => none) = false from ho,
          show checkSpec (Env.builtin seed).funcs defs (fun _ => none) = .ok tes from hc]
        exact (defsCrash_iff hu hC hc typed_empty).2 h
      simp only [copyOf, this]
    | code hv hf h => simp only [copyOf, hv, (code_panic_iff hf hb).2 h]

/-- **C95**: an invocation panics if and only if its input can be read and its loops unrolled, and the first iteration which gives no code panics: the
costs of its definitions overflow, or the first call in order of evaluation which does not succeed is one of a function which would make an identifier
out of a text which is none, or an integer with a minus sign inside, or the first piece of code which cannot be parsed again cannot be so before any
alias has been replaced in it. -/
theorem C95_exact {W : World} {hist : List (Invocation × Luck)} {inv : Invocation} {l : Luck} (hs : Scheduled W hist inv l)
    (hu : W.E.alnum '_' = false) (hC : DigitsContinue W.E.toCharClass) (hb : ∀ a, Reads W inv a → StatementsParse W.Y.toGrammar a.block) :
    output W hist inv l = .panicked ↔ ∃ a pre defs post, Reads W inv a ∧ InForce a (pre ++ defs :: post) ∧
      (∀ d ∈ pre, ∃ c, IsCopy W (l.ids 0) (serviceFor (macroPrefix (firstOn hist inv)) (withSemicolons a.spec)) a.block d c) ∧
      FirstPanic W (l.ids 0) a.block defs := by
  constructor
  · intro h
    by_cases ha : ∃ a, Reads W inv a
    · obtain ⟨a, ha⟩ := ha
      have ho := output_reads hs ha
      rw [h] at ho
      simp only [expansion] at ho
      cases hi : iterations (tree a) with
      | err e => rw [hi] at ho; cases ho
      | panic =>
        unfold iterations at hi
        cases he : expand (tree a) with
        | panic => exact (expand_no_panic _ he).elim
        | ok o => rw [he] at hi; cases hi
        | err e => rw [he] at hi; cases hi
      | ok its =>
        rw [hi] at ho
        simp only at ho
        generalize hj : joinAll _ = r at ho
        cases r with
        | ok t => cases ho
        | err e => cases ho
        | panic =>
          obtain ⟨pre, defs, post, rfl, h1, h2⟩ := joinAll_split hj (by simp)
          refine ⟨a, pre, defs, post, ha, inForce_of_iterations hi, fun d hd => ?_, (copy_panic_iff hu hC (hb a ha)).1 h2⟩
          obtain ⟨c, hc⟩ := h1 d hd
          exact ⟨c, isCopy_iff.1 hc⟩
    · have := output_unread hs fun a hr => ha ⟨a, hr⟩
      rw [h] at this
      cases this
  · rintro ⟨a, pre, defs, post, ha, hi, hp, h⟩
    rw [output_reads hs ha]
    simp only [expansion, iterations_of_inForce hi]
    obtain ⟨cs, hcs⟩ := copies_ok hp
    rw [show (tree a).block = a.block from rfl, List.map_append, List.map_cons, hcs, (copy_panic_iff hu hC (hb a ha)).2 h, joinAll_first _ _ _ (by simp)]
    rfl

/-! Panics and errors in one input. -/

/-- `x = concat(1, -2), y = to_int(a), { struct x {} }`: the first call which does not succeed panics. -/
def demoPanic : Toks := [id' "x", eq', id' "concat", paren [.lit (.int (c! "1") 1), comma, .punct '-' false, .lit (.int (c! "2") 2)], comma,
  id' "y", eq', id' "to_int", paren [id' "a"], comma, brace [id' "struct", id' "x", brace []]]

example : output demoWorld [] (.compose demoPanic) (demoLuck 2 1) = .panicked := by decide +kernel

example : ∃ a pre defs post, Reads demoWorld (.compose demoPanic) a ∧ InForce a (pre ++ defs :: post) ∧
    (∀ d ∈ pre, ∃ c, IsCopy demoWorld ((demoLuck 2 1).ids 0) (serviceFor (macroPrefix (firstOn [] (.compose demoPanic))) (withSemicolons a.spec)) a.block d c) ∧
    FirstPanic demoWorld ((demoLuck 2 1).ids 0) a.block defs := by
  refine (C95_exact (hist := []) (demo_scheduled _ _ (by decide +kernel)) (by decide) ascii_digitsContinue ?_).1 (by decide +kernel)
  intro a ha
  have hb := congrArg (·.2) (reads_unique ha (reads_of_parse (W := demoWorld) (inv := .compose demoPanic) (ids := fun k => k) (k := 0) rfl))
  have hb : a.block = _ := hb
  rw [hb]
  have key : ∀ b : List Stmt, (∀ p ∈ stmtsParts b, p.1 = .block → demoWorld.Y.toGrammar.validBlock p.2 = true) → StatementsParse demoWorld.Y.toGrammar b :=
    fun b h ts hm => h _ hm rfl
  exact key _ (by decide +kernel)

/-- `y = to_int(a), x = concat(1, -2), { struct x {} }`: an error. -/
example : output demoWorld [] (.compose [id' "y", eq', id' "to_int", paren [id' "a"], comma, id' "x", eq', id' "concat",
    paren [.lit (.int (c! "1") 1), comma, .punct '-' false, .lit (.int (c! "2") 2)], comma, brace [id' "struct", id' "x", brace []]])
    (demoLuck 2 1) = .compileError (.typeError (.cast .tokens .litInt)) := by decide +kernel

/-- `x = camel_case(_x1), { struct x {} }` is fine; `camel_case(_1)` would start with a digit. -/
example : output demoWorld [] (.compose [id' "x", eq', id' "camel_case", paren [id' "_x1"], comma, brace [id' "struct", id' "x", brace []]])
      (demoLuck 2 1) ≠ .panicked ∧
    output demoWorld [] (.compose [id' "x", eq', id' "camel_case", paren [id' "_1"], comma, brace [id' "struct", id' "x", brace []]])
      (demoLuck 2 1) = .panicked := by
  constructor
  · have : ∃ ts, output demoWorld [] (.compose [id' "x", eq', id' "camel_case", paren [id' "_x1"], comma, brace [id' "struct", id' "x", brace []]])
      (demoLuck 2 1) = .tokens ts := ⟨_, rfl⟩
    obtain ⟨ts, h⟩ := this
    rw [h]
    simp
  · decide +kernel

end Verif.Props
