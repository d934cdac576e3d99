import Verif.Model.Copies
import Verif.Spec.Copies
import Verif.Proofs.Steps
/-! # Facts about what is copied -/

namespace Verif
open Spec

/-- The same outcome, and at most `m` copies for each visit. -/
def Keeps {α : Type} (m : Nat) (x : TRes α) (y : CRes α) : Prop := x.1 = y.1 ∧ x.2.length ≤ m * y.2

namespace Keeps

theorem free {α : Type} {m : Nat} (r : Res α) : Keeps m (TRes.free r) (CRes.free r) := ⟨rfl, Nat.zero_le _⟩

theorem visited {α : Type} {m : Nat} {x : TRes α} {y : CRes α} (h : Keeps m x y) : Keeps m x (CRes.visit y) :=
  ⟨h.1, Nat.le_trans h.2 (Nat.mul_le_mul_left _ (Nat.le_succ _))⟩

theorem bind {α β : Type} {m : Nat} {x : TRes α} {y : CRes α} {f : α → TRes β} {g : α → CRes β} (h : Keeps m x y)
    (hf : ∀ a, Keeps m (f a) (g a)) : Keeps m (x.bind f) (y.bind g) := by
  obtain ⟨r, l⟩ := x
  obtain ⟨s, n⟩ := y
  obtain ⟨h1, h2⟩ := h
  cases h1
  replace h2 : l.length ≤ m * n := h2
  cases r with
  | ok a =>
    refine ⟨(hf a).1, ?_⟩
    show (l ++ (f a).2).length ≤ m * (n + (g a).2)
    rw [List.length_append, Nat.mul_add]
    exact Nat.add_le_add h2 (hf a).2
  | err e => exact ⟨rfl, h2⟩
  | panic => exact ⟨rfl, h2⟩

end Keeps

@[simp] theorem TRes.bind_eq {α β : Type} (x : TRes α) (f : α → TRes β) : x >>= f = x.bind f := rfl

theorem keeps_resolveCallForFunc {m name f args raw expected sc}
    {goT : List (Ty × Nat) → Nat → Scope → TRes (Nat × Scope × List Expr)} {goC : List (Ty × Nat) → Nat → Scope → CRes (Nat × Scope × List Expr)}
    (h : ∀ ps c sc, Keeps m (goT ps c sc) (goC ps c sc)) :
    Keeps m (resolveCallForFuncT name f args raw expected sc goT) (resolveCallForFuncC name f args raw expected sc goC) := by
  unfold resolveCallForFuncT resolveCallForFuncC
  simp only [TRes.bind_eq, CRes.bind_eq]
  refine (Keeps.free _).bind fun c => ?_
  cases f.rawArg raw with
  | some r => exact (Keeps.free _).visited.bind fun _ => Keeps.free _
  | none =>
    simp only
    split
    · exact h _ _ _
    · split
      · exact h _ _ _
      · exact Keeps.free _

theorem keeps_candidates {m : Nat} {sc : Scope} {aT : Func → TRes (Nat × Scope × List Expr)} {aC : Func → CRes (Nat × Scope × List Expr)}
    (h : ∀ f, Keeps m (aT f) (aC f)) : ∀ fs, (candidatesT sc aT fs).1 = (candidatesC aC fs).1 ∧
      (candidatesT sc aT fs).2.length ≤ fs.length + m * (candidatesC aC fs).2
  | [] => ⟨rfl, Nat.zero_le _⟩
  | f :: fs => by
    have ih := keeps_candidates (sc := sc) h fs
    have hf := h f
    rw [candidatesT, candidatesC]
    generalize aT f = x at hf ⊢
    generalize aC f = y at hf ⊢
    obtain ⟨r, l⟩ := x
    obtain ⟨s, n⟩ := y
    obtain ⟨h1, h2⟩ := hf
    cases h1
    replace h2 : l.length ≤ m * n := h2
    have h3 : (sc :: l).length ≤ fs.length + 1 + m * n := by simp only [List.length_cons]; omega
    have h4 : (sc :: l ++ (candidatesT sc aT fs).2).length ≤ fs.length + 1 + m * (n + (candidatesC aC fs).2) := by
      rw [Nat.mul_add, List.length_append, List.length_cons]
      have := ih.2
      omega
    cases r with
    | ok r => exact ⟨by simp only [ih.1], h4⟩
    | panic => exact ⟨rfl, h3⟩
    | err e => cases e <;> first | exact ⟨ih.1, h4⟩ | exact ⟨rfl, h3⟩

mutual
/-- The outcome is that of counting visits, and there are at most `m` copies for each visit, if functions have at most `m` overloads. -/
theorem keeps_resolve {env : Env} {m : Nat} (hT : ∀ name fs, env.funcs name = some fs → fs.length ≤ m) :
    ∀ (e : Expr) (expected : Option Ty) (sc : Scope), Keeps m (e.resolveT env expected sc) (e.resolveC env expected sc)
  | .value id k, expected, sc => by rw [Expr.resolveT, Expr.resolveC]; exact (Keeps.free _).visited
  | .call id name args raw, expected, sc => by
    have hargs := keeps_resolveArgs hT args
    rw [Expr.resolveT, Expr.resolveC]
    cases hf : env.funcs name with
    | none => exact (Keeps.free _).visited
    | some fs =>
      simp only [TRes.bind_eq, CRes.bind_eq]
      have h1 := keeps_candidates (sc := sc) (fun f => keeps_resolveCallForFunc (m := m) (name := name) (f := f) (args := args) (raw := raw)
        (expected := expected) (sc := sc) fun ps c sc => hargs ps c sc) fs
      generalize candidatesT sc _ fs = x at h1 ⊢
      generalize candidatesC _ fs = y at h1 ⊢
      obtain ⟨r, l⟩ := x
      obtain ⟨s, n⟩ := y
      obtain ⟨h1, h2⟩ := h1
      cases h1
      replace h2 : l.length ≤ fs.length + m * n := h2
      have h3 := hT _ _ hf
      have h4 : l.length ≤ m * (n + 1) := by rw [Nat.mul_add]; omega
      cases r with
      | ok a => exact ⟨rfl, by simpa [TRes.bind, TRes.free, CRes.bind, CRes.free, CRes.visit] using h4⟩
      | err e => exact ⟨rfl, h4⟩
      | panic => exact ⟨rfl, h4⟩
theorem keeps_resolveArgs {env : Env} {m : Nat} (hT : ∀ name fs, env.funcs name = some fs → fs.length ≤ m) :
    ∀ (es : List Expr) (ps : List (Ty × Nat)) (c : Nat) (sc : Scope), Keeps m (Expr.resolveArgsT env es ps c sc) (Expr.resolveArgsC env es ps c sc)
  | [], _, c, sc => by simp only [Expr.resolveArgsT, Expr.resolveArgsC]; exact Keeps.free _
  | _ :: _, [], c, sc => by simp only [Expr.resolveArgsT, Expr.resolveArgsC]; exact Keeps.free _
  | e :: es, (t, k) :: ps, c, sc => by
    have h1 := keeps_resolve hT e (some t) sc
    have h2 := keeps_resolveArgs hT es ps
    rw [Expr.resolveArgsT, Expr.resolveArgsC]
    simp only [TRes.bind_eq, CRes.bind_eq]
    exact h1.bind fun sc1 => (Keeps.free _).bind fun _ => (Keeps.free _).bind fun _ => (Keeps.free _).bind fun _ =>
      (h2 _ _).bind fun _ => Keeps.free _
end

theorem keeps_resolveSpec {env : Env} {m : Nat} (hT : ∀ name fs, env.funcs name = some fs → fs.length ≤ m) :
    ∀ (items : List (Alias × Expr)) (sc : Scope), Keeps m (resolveSpecT env items sc) (resolveSpecC env items sc)
  | [], _ => Keeps.free _
  | i :: items, sc => by
    simp only [resolveSpecT, resolveSpecC, resolveItemT, resolveItemC, TRes.bind_eq, CRes.bind_eq]
    exact ((keeps_resolve hT i.2 none sc).bind fun _ => Keeps.free _).bind fun sc1 => keeps_resolveSpec hT items sc1

/-! ## What is in a copy -/

/-- `P` holds of what is copied, `Q` of the result. -/
def Copying {α : Type} (P : Scope → Prop) (Q : α → Prop) (x : TRes α) : Prop := (∀ s ∈ x.2, P s) ∧ ∀ a, x.1 = .ok a → Q a

namespace Copying

theorem free {α : Type} {P : Scope → Prop} {Q : α → Prop} {r : Res α} (h : ∀ a, r = .ok a → Q a) : Copying P Q (TRes.free r) :=
  ⟨fun _ hs => by (exact absurd hs List.not_mem_nil), h⟩

theorem bind {α β : Type} {P : Scope → Prop} {Q : α → Prop} {R : β → Prop} {x : TRes α} {f : α → TRes β} (h : Copying P Q x)
    (hf : ∀ a, Q a → Copying P R (f a)) : Copying P R (x.bind f) := by
  obtain ⟨r, l⟩ := x
  obtain ⟨h1, h2⟩ := h
  cases r with
  | ok a =>
    obtain ⟨h3, h4⟩ := hf a (h2 a rfl)
    exact ⟨fun s hs => (List.mem_append.1 hs).elim (h1 s) (h3 s), h4⟩
  | err e => exact ⟨h1, fun _ h => by cases h⟩
  | panic => exact ⟨h1, fun _ h => by cases h⟩

theorem mono {α : Type} {P P' : Scope → Prop} {Q Q' : α → Prop} {x : TRes α} (h : Copying P Q x) (hP : ∀ s, P s → P' s) (hQ : ∀ a, Q a → Q' a) :
    Copying P' Q' x := ⟨fun s hs => hP s (h.1 s hs), fun a ha => hQ a (h.2 a ha)⟩

end Copying

theorem Spec.HoldsOnly.mono {N N' : List Nat} {A A' : List Str} {sc : Scope} (h : HoldsOnly N A sc) (hN : N ⊆ N') (hA : A ⊆ A') : HoldsOnly N' A' sc :=
  ⟨fun i hi => hN (h.vals i hi), fun i hi => hN (h.calls i hi), fun n hn => hA (h.aliases n hn)⟩

theorem holdsOnly_empty : HoldsOnly [] [] Scope.empty := ⟨fun _ h => by (cases h), fun _ h => by (cases h), fun _ h => by (cases h)⟩

theorem Spec.HoldsOnly.resolveValue {N : List Nat} {A : List Str} {sc sc' : Scope} {id k expected} (hi : id ∈ N) (h : HoldsOnly N A sc)
    (hr : resolveValue id k expected sc = .ok sc') : HoldsOnly N A sc' := by
  simp only [Verif.resolveValue, Res.bind_eq, Res.bind_eq_ok] at hr
  obtain ⟨t, -, hr⟩ := hr
  split at hr
  · cases hr
    refine ⟨fun i h1 => ?_, h.calls, h.aliases⟩
    simp only [Metadata.setValue] at h1
    split at h1
    · rename_i heq; exact heq ▸ hi
    · exact h.vals i h1
  · cases hr

theorem copying_candidates {P : Scope → Prop} {Q : Scope → Prop} {sc : Scope} (hsc : P sc) {attempt : Func → TRes (Nat × Scope × List Expr)}
    (h : ∀ f, Copying P (fun r => Q r.2.1) (attempt f)) : ∀ fs, Copying P (fun cs => ∀ c ∈ cs, Q c.scope) (candidatesT sc attempt fs)
  | [] => ⟨fun _ h => by (cases h), fun cs h => by (cases h; exact fun _ h => by cases h)⟩
  | f :: fs => by
    have ih := copying_candidates hsc h fs
    have hf := h f
    rw [candidatesT]
    generalize attempt f = x at hf ⊢
    generalize candidatesT sc attempt fs = y at ih ⊢
    obtain ⟨r, l⟩ := x
    obtain ⟨s, l'⟩ := y
    obtain ⟨h1, h2⟩ := hf
    obtain ⟨h3, h4⟩ := ih
    have h5 : ∀ t ∈ sc :: l, P t := fun t ht => (List.mem_cons.1 ht).elim (fun e => e ▸ hsc) (h1 t)
    have h6 : ∀ t ∈ sc :: l ++ l', P t := fun t ht => (List.mem_append.1 ht).elim (h5 t) (h3 t)
    cases r with
    | ok r =>
      refine ⟨h6, fun cs hcs => ?_⟩
      cases s with
      | ok cs' =>
        cases hcs
        intro c hc
        rcases List.mem_cons.1 hc with rfl | hc
        · exact h2 _ rfl
        · exact h4 _ rfl c hc
      | err e => cases hcs
      | panic => cases hcs
    | panic => exact ⟨h5, fun _ h => by cases h⟩
    | err e => cases e <;> first | exact ⟨h6, h4⟩ | exact ⟨h5, fun _ h => by cases h⟩

theorem copying_select {N : List Nat} {A : List Str} {id ref expected cs} (hi : id ∈ N) (h : ∀ c ∈ cs, HoldsOnly N A c.scope) :
    Copying (HoldsOnly N A) (HoldsOnly N A) (TRes.free (selectCandidate id ref expected cs)) := by
  refine Copying.free fun sc hsc => ?_
  rw [selectCandidate_eq] at hsc
  split at hsc
  · cases hsc
  · rename_i c hc
    have hw := h c (bestC_mem hc)
    cases hsc
    refine ⟨hw.vals, fun i h1 => ?_, hw.aliases⟩
    simp only [Metadata.setCall] at h1
    split at h1
    · rename_i heq; exact heq ▸ hi
    · exact hw.calls i h1

theorem copying_resolveCallForFunc {N : List Nat} {A : List Str} {name f args raw expected sc} (hsc : HoldsOnly N A sc)
    (hraw : ∀ r, raw = some r → r.1 ∈ N) {go : List (Ty × Nat) → Nat → Scope → TRes (Nat × Scope × List Expr)}
    (h : ∀ ps c, Copying (HoldsOnly N A) (fun r => HoldsOnly N A r.2.1) (go ps c sc)) :
    Copying (HoldsOnly N A) (fun r => HoldsOnly N A r.2.1) (resolveCallForFuncT name f args raw expected sc go) := by
  unfold resolveCallForFuncT
  simp only [TRes.bind_eq]
  refine (Copying.free (Q := fun _ => True) fun _ _ => trivial).bind fun c _ => ?_
  cases hr : f.rawArg raw with
  | some r =>
    have hr' : raw = some r := by
      unfold Func.rawArg at hr
      split at hr
      · exact hr
      · cases hr
    refine (Copying.free (Q := HoldsOnly N A) fun sc' h' => hsc.resolveValue (hraw _ hr') h').bind fun sc' h' => Copying.free fun _ h => ?_
    cases h
    exact h'
  | none =>
    simp only
    split
    · exact h _ _
    · split
      · exact h _ _
      · exact Copying.free fun _ h => by cases h

mutual
theorem copying_resolve {env : Env} {N : List Nat} {A : List Str} : ∀ (e : Expr) (expected : Option Ty) (sc : Scope), ids e ⊆ N → HoldsOnly N A sc →
    Copying (HoldsOnly N A) (HoldsOnly N A) (e.resolveT env expected sc)
  | .value id k, expected, sc, hN, hsc => by
    rw [Expr.resolveT]
    exact Copying.free fun sc' h => hsc.resolveValue (hN (by simp [ids])) h
  | .call id name args raw, expected, sc, hN, hsc => by
    have hargs := copying_resolveArgs (env := env) (N := N) (A := A) args
    rw [Expr.resolveT]
    cases env.funcs name with
    | none => exact Copying.free fun _ h => by cases h
    | some fs =>
      simp only [TRes.bind_eq]
      refine (copying_candidates (Q := HoldsOnly N A) hsc (fun f => copying_resolveCallForFunc hsc (fun r hr => hN ?_) fun ps c => ?_) fs).bind
        fun cs hcs => copying_select (hN (by simp [ids])) hcs
      · subst hr; simp [ids]
      · exact hargs ps c sc (fun i hi => hN (by simp [ids, hi])) hsc
theorem copying_resolveArgs {env : Env} {N : List Nat} {A : List Str} : ∀ (es : List Expr) (ps : List (Ty × Nat)) (c : Nat) (sc : Scope), idsL es ⊆ N →
    HoldsOnly N A sc → Copying (HoldsOnly N A) (fun r => HoldsOnly N A r.2.1) (Expr.resolveArgsT env es ps c sc)
  | [], _, c, sc, _, hsc => by simp only [Expr.resolveArgsT]; exact Copying.free fun _ h => by (cases h; exact hsc)
  | _ :: _, [], c, sc, _, hsc => by simp only [Expr.resolveArgsT]; exact Copying.free fun _ h => by (cases h; exact hsc)
  | e :: es, (t, k) :: ps, c, sc, hN, hsc => by
    have h1 := copying_resolve (env := env) (A := A) e (some t) sc (fun i hi => hN (by simp [idsL, hi])) hsc
    have h2 := copying_resolveArgs (env := env) (N := N) (A := A) es ps
    rw [Expr.resolveArgsT]
    simp only [TRes.bind_eq]
    exact h1.bind fun sc1 hsc1 => (Copying.free (Q := fun _ => True) fun _ _ => trivial).bind fun _ _ =>
      (Copying.free (Q := fun _ => True) fun _ _ => trivial).bind fun _ _ => (Copying.free (Q := fun _ => True) fun _ _ => trivial).bind fun _ _ =>
      (h2 _ _ (fun i hi => hN (by simp [idsL, hi])) hsc1).bind fun r hr => Copying.free fun _ h => by (cases h; exact hr)
end

theorem Spec.HoldsOnly.tryAddName {N : List Nat} {A : List Str} {sc sc' : Scope} {n : Str} {id : Nat} (h : HoldsOnly N A sc)
    (hr : sc.tryAddName n id = .ok sc') : HoldsOnly N (A ++ [n]) sc' := by
  unfold Scope.tryAddName at hr
  split at hr
  · cases hr
  · cases hr
    refine ⟨h.vals, h.calls, fun m hm => ?_⟩
    simp only at hm
    split at hm
    · rename_i heq; simp [heq]
    · exact List.mem_append_left _ (h.aliases m hm)

/-- A copy made for a definition holds what belongs to the definitions before and to this one. -/
theorem copies_resolveSpec {env : Env} : ∀ (items before : List (Alias × Expr)) (sc : Scope),
    HoldsOnly (idsL (before.map (·.2))) (before.map (·.1.2)) sc → ∀ s ∈ (resolveSpecT env items sc).2,
    ∃ pre i post, before ++ items = pre ++ i :: post ∧ HoldsOnly (idsL (pre.map (·.2)) ++ ids i.2) (pre.map (·.1.2)) s
  | [], _, _, _, s, hs => by cases hs
  | i :: items, before, sc, hsc, s, hs => by
    have hids : ∀ l : List (Alias × Expr), idsL (l.map (·.2)) ++ ids i.2 = idsL ((l ++ [i]).map (·.2)) := by
      intro l
      induction l with
      | nil => simp [idsL]
      | cons x xs ih => simp only [List.map_cons, List.cons_append, idsL, List.append_assoc, ih]
    have h1 := copying_resolve (env := env) i.2 none sc (N := idsL (before.map (·.2)) ++ ids i.2) (A := before.map (·.1.2))
      (List.subset_append_right _ _) (hsc.mono (List.subset_append_left _ _) (List.Subset.refl _))
    have h2 : Copying (HoldsOnly (idsL (before.map (·.2)) ++ ids i.2) (before.map (·.1.2)))
        (HoldsOnly (idsL ((before ++ [i]).map (·.2))) ((before ++ [i]).map (·.1.2))) (resolveItemT env i sc) := by
      simp only [resolveItemT, TRes.bind_eq]
      refine h1.bind fun sc1 h => Copying.free fun sc2 h' => ?_
      have := h.tryAddName h'
      rw [← hids, List.map_append]
      exact this
    simp only [resolveSpecT, TRes.bind_eq] at hs
    generalize resolveItemT env i sc = x at h2 hs
    obtain ⟨r, l⟩ := x
    have hl : s ∈ l → ∃ pre j post, before ++ i :: items = pre ++ j :: post ∧ HoldsOnly (idsL (pre.map (·.2)) ++ ids j.2) (pre.map (·.1.2)) s :=
      fun h => ⟨before, i, items, rfl, h2.1 s h⟩
    cases r with
    | err e => exact hl hs
    | panic => exact hl hs
    | ok sc1 =>
      rcases List.mem_append.1 hs with h | h
      · exact hl h
      · have := copies_resolveSpec items (before ++ [i]) sc1 (h2.2 sc1 rfl) s h
        simpa using this

/-! ## Definitions without calls within calls -/

/-- Number of overloads. -/
def overloads (env : Env) (name : Str) : Nat := ((env.funcs name).getD []).length

theorem bind_ok {α β : Type} {x : TRes α} {f : α → TRes β} {b : β} {l : List Scope} (h : x.bind f = (.ok b, l)) :
    ∃ a l1 l2, x = (.ok a, l1) ∧ f a = (.ok b, l2) ∧ l = l1 ++ l2 := by
  obtain ⟨r, l1⟩ := x
  cases r with
  | ok a =>
    have h1 : (f a).1 = .ok b := congrArg Prod.fst h
    have h2 : l1 ++ (f a).2 = l := congrArg Prod.snd h
    exact ⟨a, l1, (f a).2, rfl, Prod.ext h1 rfl, h2.symm⟩
  | err e => cases (congrArg Prod.fst h : Res.err e = _)
  | panic => cases (congrArg Prod.fst h : Res.panic = _)

theorem candidatesT_all {sc : Scope} {attempt : Func → TRes (Nat × Scope × List Expr)} (h : ∀ f, (attempt f).2 = []) :
    ∀ {fs : List Func} {cs l}, candidatesT sc attempt fs = (.ok cs, l) → l = List.replicate fs.length sc
  | [], _, _, h' => by cases h'; rfl
  | f :: fs, cs, l, h' => by
    have hf := h f
    rw [candidatesT] at h'
    have ih := @candidatesT_all sc attempt h fs
    generalize attempt f = x at hf h'
    generalize candidatesT sc attempt fs = y at h' ih
    obtain ⟨r, l1⟩ := x
    obtain ⟨s, l2⟩ := y
    cases hf
    have key : (s, sc :: l2) = ((.ok cs, l) : TRes (List Candidate)) → l = List.replicate (f :: fs).length sc := by
      intro h
      cases h
      rw [ih rfl]; rfl
    cases r with
    | ok r =>
      cases s with
      | ok cs' =>
        have h3 : sc :: l2 = l := congrArg Prod.snd h'
        rw [← h3, ih rfl]; rfl
      | err e => cases (congrArg Prod.fst h' : Res.err e = _)
      | panic => cases (congrArg Prod.fst h' : Res.panic = _)
    | panic => cases (congrArg Prod.fst h' : Res.panic = _)
    | err e => cases e <;> first | exact key h' | cases (congrArg Prod.fst h' : Res.err _ = _)

theorem resolveArgsT_flat {env : Env} : ∀ (es : List Expr) (ps : List (Ty × Nat)) (c : Nat) (sc : Scope), nestingL es = 0 →
    (Expr.resolveArgsT env es ps c sc).2 = []
  | [], _, _, _, _ => by simp [Expr.resolveArgsT, TRes.free]
  | _ :: _, [], _, _, _ => by simp [Expr.resolveArgsT, TRes.free]
  | .call .. :: _, _ :: _, _, _, h => by simp [nestingL, nesting] at h
  | .value id k :: es, (t, m) :: ps, c, sc, h => by
    have hn : nestingL es = 0 := by simp [nestingL] at h; omega
    have ih := resolveArgsT_flat (env := env) es ps
    have hfree : ∀ {α β : Type} (r : Res α) (f : α → TRes β), (∀ a, (f a).2 = []) → ((TRes.free r).bind f).2 = [] := by
      intro α β r f hf
      cases r with
      | ok a => simp [TRes.free, TRes.bind, hf a]
      | err e => rfl
      | panic => rfl
    rw [Expr.resolveArgsT, Expr.resolveT]
    simp only [TRes.bind_eq]
    refine hfree _ _ fun sc1 => hfree _ _ fun _ => hfree _ _ fun _ => hfree _ _ fun c1 => ?_
    have h1 := ih c1 sc1 hn
    generalize Expr.resolveArgsT env es ps c1 sc1 = x at h1 ⊢
    obtain ⟨r, l⟩ := x
    cases h1
    cases r <;> rfl

theorem resolveT_flat {env : Env} {id name args raw expected sc sc' l} (hn : nestingL args = 0)
    (h : (Expr.call id name args raw).resolveT env expected sc = (.ok sc', l)) : l = List.replicate (overloads env name) sc := by
  rw [Expr.resolveT] at h
  unfold overloads
  cases hf : env.funcs name with
  | none => rw [hf] at h; cases (congrArg Prod.fst h : Res.err _ = _)
  | some fs =>
    rw [hf] at h
    simp only [TRes.bind_eq] at h
    obtain ⟨cs, l1, l2, h1, h2, rfl⟩ := bind_ok h
    have h3 : l2 = [] := by
      have := congrArg Prod.snd h2
      exact this.symm
    subst h3
    rw [List.append_nil]
    refine candidatesT_all (fun f => ?_) h1
    unfold resolveCallForFuncT
    simp only [TRes.bind_eq]
    cases outCoercion f expected with
    | err e => rfl
    | panic => rfl
    | ok c =>
      cases f.rawArg raw with
      | some r =>
        simp only [TRes.free, TRes.bind, List.nil_append]
        cases resolveValue r.1 (.raw r.2) (some .raw) sc <;> rfl
      | none =>
        show ((TRes.free (.ok c)).bind fun c => _).2 = _
        rw [show ∀ {α β : Type} (a : α) (g : α → TRes β), (TRes.free (.ok a)).bind g = g a from fun _ _ => rfl]
        simp only
        by_cases hc : (!f.isVariadic && f.args.length == args.length) = true
        · rw [if_pos hc]; exact resolveArgsT_flat args _ _ _ hn
        · rw [if_neg hc]
          by_cases hv : (f.isVariadic && decide (f.args.length ≤ args.length)) = true
          · rw [if_pos hv]; exact resolveArgsT_flat args _ _ _ hn
          · rw [if_neg hv]; rfl

end Verif
