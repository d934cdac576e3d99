import Verif.Model.Declare
import Verif.Proofs.BuiltinSound
/-!
# Property C89: functions are declared as the code requires
-/

namespace Verif.Props
open Verif Verif.Spec

/-- Parameters of which at most the last one is variadic, and `raw` is the only one if it is there. -/
def Declarable (args : List Ty) : Prop :=
  (∃ fixed last, args = fixed ++ last ∧ (∀ t ∈ fixed, ∀ u, t ≠ .variadic u) ∧ (last = [] ∨ ∃ t, last = [.variadic t])) ∧ (.raw ∈ args → args = [.raw])

theorem isVariadic_variadic {t : Ty} : t.isVariadic = true ↔ ∃ u, t = .variadic u := by
  cases t <;> simp [Ty.isVariadic]

theorem findIdx_variadic : ∀ {args : List Ty}, oneVariadic args = true → variadicLast args = true →
    ∃ fixed last, args = fixed ++ last ∧ (∀ t ∈ fixed, ∀ u, t ≠ .variadic u) ∧ (last = [] ∨ ∃ t, last = [.variadic t])
  | [], _, _ => ⟨[], [], rfl, by simp, .inl rfl⟩
  | t :: ts, h1, h2 => by
    by_cases ht : t.isVariadic = true
    · unfold variadicLast at h2
      simp only [List.findIdx?_cons, ht, if_true, List.length_cons, Nat.add_sub_cancel, beq_iff_eq] at h2
      obtain ⟨u, rfl⟩ := isVariadic_variadic.1 ht
      have : ts = [] := by cases ts; rfl; simp at h2
      subst this
      exact ⟨[], _, rfl, by simp, .inr ⟨u, rfl⟩⟩
    · have h1' : oneVariadic ts = true := by simpa [oneVariadic, ht] using h1
      have h2' : variadicLast ts = true := by
        unfold variadicLast at h2 ⊢
        rw [List.findIdx?_cons, if_neg ht] at h2
        cases hf : ts.findIdx? Ty.isVariadic with
        | none => rfl
        | some i =>
          rw [hf] at h2
          have hne : ts ≠ [] := by rintro rfl; simp at hf
          have := List.length_pos_iff.2 hne
          simp at h2 ⊢
          omega
      obtain ⟨fixed, last, rfl, h3, h4⟩ := findIdx_variadic h1' h2'
      refine ⟨t :: fixed, last, rfl, ?_, h4⟩
      intro x hx u hu
      rcases List.mem_cons.1 hx with rfl | hx
      · exact ht (isVariadic_variadic.2 ⟨u, hu⟩)
      · exact h3 x hx u hu

theorem filter_fixed {fixed : List Ty} (h : ∀ t ∈ fixed, ∀ u, t ≠ .variadic u) : fixed.filter Ty.isVariadic = [] := by
  rw [List.filter_eq_nil_iff]
  intro t ht hv
  obtain ⟨u, rfl⟩ := isVariadic_variadic.1 hv
  exact h _ ht u rfl

/-- **C89**: the assertions of `Func::new` say just this: at most the last parameter is variadic, and `raw` is alone. -/
theorem C89_exact (id : Nat) (name : Str) (args : List Ty) (out : Ty) (impl : Ext → Nat → List VKind → Res VKind) :
    (Declarable args → Func.declare id name args out impl = .ok ⟨id, name, args, out, impl⟩) ∧
    (¬ Declarable args → Func.declare id name args out impl = .panic) := by
  have key : (oneVariadic args && variadicLast args && rawAlone args) = true ↔ Declarable args := by
    simp only [Bool.and_eq_true]
    constructor
    · rintro ⟨⟨h1, h2⟩, h3⟩
      refine ⟨findIdx_variadic h1 h2, fun hr => ?_⟩
      unfold rawAlone at h3
      rw [if_pos (by simpa using hr)] at h3
      match args, hr with
      | [t], hr => exact (List.mem_singleton.1 hr) ▸ rfl
      | t :: u :: ts, _ => simp at h3
    · rintro ⟨⟨fixed, last, rfl, h3, h4⟩, hr⟩
      have hf := filter_fixed h3
      refine ⟨⟨?_, ?_⟩, ?_⟩
      · unfold oneVariadic
        rw [List.filter_append, hf]
        rcases h4 with rfl | ⟨t, rfl⟩
        · simp
        · exact decide_eq_true (List.length_filter_le _ _)
      · unfold variadicLast
        have hn : fixed.findIdx? Ty.isVariadic = none := by
          rw [List.findIdx?_eq_none_iff]
          intro t ht
          cases hv : t.isVariadic with
          | false => rfl
          | true => obtain ⟨u, rfl⟩ := isVariadic_variadic.1 hv; exact (h3 _ ht u rfl).elim
        rw [List.findIdx?_append, hn]
        rcases h4 with rfl | ⟨t, rfl⟩ <;> simp [Ty.isVariadic, List.findIdx?_cons]
      · unfold rawAlone
        split
        · rename_i h
          rw [hr (by simpa using h)]; rfl
        · rfl
  unfold Func.declare
  constructor
  · intro h; rw [if_pos (key.2 h)]
  · intro h; rw [if_neg (fun h' => h (key.1 h'))]

/-- **C89**: all built-in functions can be declared: setting up the environment does not panic in a debug build. -/
theorem C89_declared : ∀ f ∈ builtins, Declarable f.args ∧ Func.declare f.id f.name f.args f.out f.impl = .ok f := by
  have h : ∀ f ∈ builtins, (oneVariadic f.args && variadicLast f.args && rawAlone f.args) = true := by decide +kernel
  intro f hf
  have hd : Func.declare f.id f.name f.args f.out f.impl = .ok f := by unfold Func.declare; rw [if_pos (h f hf)]
  refine ⟨?_, hd⟩
  apply Classical.byContradiction
  intro hn
  rw [(C89_exact _ _ _ _ _).2 hn] at hd
  cases hd

/-- The type expected at a position: that of the parameter there, or, from the variadic parameter on, what that one repeats. -/
def ExpectedAt (params : List Ty) (i : Nat) (t : Ty) : Prop :=
  (params[i]? = some t ∧ ∀ u, t ≠ .variadic u) ∨ ∃ j, j ≤ i ∧ j + 1 = params.length ∧ params[j]? = some (.variadic t)

/-- **C89**: therefore each argument of a call is checked against the parameter at its position, and all from the variadic parameter on against that one;
the number of arguments being as many as there are parameters or, with a variadic one, at least as many. -/
theorem C89_positions {f : Func} (hf : Declarable f.args) {n : Nat}
    (hn : (f.isVariadic = false ∧ n = f.args.length) ∨ (f.isVariadic = true ∧ f.args.length ≤ n)) :
    (f.params n).length = n ∧ ∀ i p, (f.params n)[i]? = some p → ExpectedAt f.args i p.1 ∧ (p.2 = if f.args.length ≤ i + 1 ∧ f.isVariadic = true then 2 else 1) := by
  obtain ⟨⟨fixed, last, he, h3, h4⟩, -⟩ := hf
  have hnv : ∀ t ∈ fixed, t.isVariadic = false := by
    intro t ht
    cases hv : t.isVariadic with
    | false => rfl
    | true => obtain ⟨u, rfl⟩ := isVariadic_variadic.1 hv; exact (h3 _ ht u rfl).elim
  have hnf : fixed.filter (fun t => !t.isVariadic) = fixed := List.filter_eq_self.2 (fun t ht => by simp [hnv t ht])
  have hff : fixed.find? Ty.isVariadic = none := List.find?_eq_none.2 (fun t ht => by simp [hnv t ht])
  have hany : fixed.any Ty.isVariadic = false := List.any_eq_false.2 (fun t ht => by simp [hnv t ht])
  rcases h4 with rfl | ⟨t, rfl⟩
  · rw [List.append_nil] at he
    have hv : f.isVariadic = false := by unfold Func.isVariadic; rw [he, hany]
    have hn' : n = f.args.length := by
      rcases hn with h | h
      · exact h.2
      · rw [hv] at h; cases h.1
    have hp : f.params n = f.args.map (fun t => (t, 1)) := by
      unfold Func.params Func.fixedArgs Func.variadicArg
      rw [he, hnf, hff]; simp
    refine ⟨by rw [hp, List.length_map, hn'], ?_⟩
    intro i p hi
    rw [hp, List.getElem?_map] at hi
    cases hg : f.args[i]? with
    | none => rw [hg] at hi; cases hi
    | some t =>
      rw [hg] at hi; cases hi
      refine ⟨.inl ⟨hg, ?_⟩, by simp [hv]⟩
      exact h3 t (he ▸ List.mem_of_getElem? hg)
  · have hv : f.isVariadic = true := by
      unfold Func.isVariadic; rw [he, List.any_append, hany]; rfl
    have hlen : f.args.length = fixed.length + 1 := by rw [he]; simp
    have hn' : fixed.length + 1 ≤ n := by
      rcases hn with h | h
      · rw [hv] at h; cases h.1
      · omega
    have hfx : f.fixedArgs = fixed := by
      unfold Func.fixedArgs; rw [he, List.filter_append, hnf]; simp [Ty.isVariadic]
    have hva : f.variadicArg = some t := by
      unfold Func.variadicArg; rw [he, List.find?_append, hff]; rfl
    have hp : f.params n = fixed.map (fun t => (t, 1)) ++ List.replicate (n - fixed.length) (t, 2) := by
      unfold Func.params; rw [hfx, hva]
    refine ⟨by rw [hp]; simp; omega, ?_⟩
    intro i p hi
    rw [hp] at hi
    by_cases hl : i < fixed.length
    · rw [List.getElem?_append_left (by simpa using hl), List.getElem?_map, List.getElem?_eq_getElem hl] at hi
      cases hi
      refine ⟨.inl ⟨?_, h3 _ (List.getElem_mem _)⟩, ?_⟩
      · rw [he, List.getElem?_append_left hl, List.getElem?_eq_getElem hl]
      · rw [if_neg (by omega)]
    · rw [List.getElem?_append_right (by simpa using hl)] at hi
      obtain ⟨rfl⟩ : p = (t, 2) := List.eq_of_mem_replicate (List.mem_of_getElem? hi)
      refine ⟨.inr ⟨fixed.length, by omega, by omega, ?_⟩, ?_⟩
      · rw [he]; simp
      · rw [if_pos ⟨by omega, hv⟩]

theorem paramsFor_params {f : Func} {n : Nat} {ps : List (Ty × Nat)} (h : paramsFor f n = some ps) :
    ps = f.params n ∧ ((f.isVariadic = false ∧ n = f.args.length) ∨ (f.isVariadic = true ∧ f.args.length ≤ n)) := by
  unfold paramsFor at h
  cases hv : f.variadicArg with
  | none =>
    rw [hv] at h
    simp only [] at h
    split at h
    · next hl =>
      cases h
      have hnv : f.isVariadic = false := by
        cases hb : f.isVariadic with
        | false => rfl
        | true =>
          obtain ⟨t, ht, hb⟩ := List.any_eq_true.1 hb
          obtain ⟨u, rfl⟩ := isVariadic_variadic.1 hb
          unfold Func.variadicArg at hv
          cases hx : f.args.find? Ty.isVariadic with
          | none => exact ((List.find?_eq_none.1 hx) _ ht rfl).elim
          | some y =>
            obtain ⟨w, rfl⟩ := isVariadic_variadic.1 (List.find?_some hx)
            rw [hx] at hv; cases hv
      refine ⟨?_, .inl ⟨hnv, hl.symm⟩⟩
      have : f.fixedArgs = f.args := by
        refine List.filter_eq_self.2 (fun t ht => ?_)
        have := List.any_eq_false.1 hnv t ht
        simpa using this
      unfold Func.params
      rw [hv, this]; simp
    · cases h
  | some t =>
    rw [hv] at h
    simp only [] at h
    split at h
    · next hl =>
      cases h
      refine ⟨by unfold Func.params; rw [hv], .inr ⟨?_, hl⟩⟩
      unfold Func.variadicArg at hv
      cases hx : f.args.find? Ty.isVariadic with
      | none => rw [hx] at hv; cases hv
      | some y => exact List.any_eq_true.2 ⟨y, List.mem_of_find?_eq_some hx, List.find?_some hx⟩
    · cases h

theorem checkArgs_targets {T : Str → Option (List Func)} {Γ : TyEnv} : ∀ {es : List Expr} {ps : List (Ty × Nat)} {c : Nat} {tes : List TExpr},
    es.length = ps.length → checkArgs T Γ es ps = some (c, tes) → tes.map TExpr.target = ps.map (·.1)
  | [], [], _, _, _, h => by rw [checkArgs] at h; cases h; rfl; simp
  | e :: es, (t, m) :: ps, c, tes, hl, h => by
    have ih := fun c tes => checkArgs_targets (T := T) (Γ := Γ) (es := es) (ps := ps) (c := c) (tes := tes) (by simpa using hl)
    rw [checkArgs] at h
    cases hc : check T Γ e (some t) with
    | error x => rw [hc] at h; cases h
    | ok p =>
      obtain ⟨c1, te⟩ := p
      rw [hc] at h
      cases hr : checkArgs T Γ es ps with
      | none => rw [hr] at h; cases h
      | some r =>
        obtain ⟨c2, tes2⟩ := r
        rw [hr] at h
        cases h
        rw [List.map_cons, List.map_cons, ih _ _ hr]
        congr 1
        cases e with
        | value i k =>
          rw [check] at hc
          split at hc
          · cases hc; rfl
          · cases hc
        | call i name args raw =>
          rw [check] at hc
          split at hc
          · cases hc
          · split at hc
            · cases hc; rfl
            · cases hc

/-- **C89**: in an accepted call of a built-in function that does not take its argument raw there are as many typed arguments as written ones, and each has
the type of the parameter at its position. -/
theorem C89_call {Γ : TyEnv} {id : Nat} {name : Str} {args : List Expr} {raw : Option (Nat × Toks)} {expected : Option Ty} {c : Nat} {f : Func}
    {tes : List TExpr} {t : Ty} (h : check builtinFuncs Γ (.call id name args raw) expected = .ok (c, .call f tes t)) :
    f ∈ builtins ∧ f.name = name ∧ ((f.args = [.raw] ∧ ∃ i ts, raw = some (i, ts) ∧ tes = [.val (.raw ts) .raw]) ∨
      (tes.length = args.length ∧ ∀ i te, tes[i]? = some te → ExpectedAt f.args i te.target)) := by
  rw [check] at h
  split at h
  · cases h
  · next fs hfs =>
    split at h
    · next ch hb =>
      cases h
      obtain ⟨g, hg, hu⟩ := List.mem_filterMap.1 (best_mem hb)
      obtain ⟨hm, hname⟩ := (builtinFuncs_mem hfs).1 hg
      unfold usable at hu
      cases ho : outCost g.out expected with
      | none => rw [ho] at hu; cases hu
      | some co =>
        rw [ho] at hu
        simp only [Option.bind_eq_bind, Option.bind_some] at hu
        split at hu
        · next i ts hr =>
          cases hu
          split at hr
          · next ha => exact ⟨hm, hname, .inl ⟨ha, _, _, hr, rfl⟩⟩
          · cases hr
        · cases hp : paramsFor g args.length with
          | none => rw [hp] at hu; cases hu
          | some ps =>
            rw [hp] at hu
            simp only [Option.bind_some] at hu
            cases hc : checkArgs builtinFuncs Γ args ps with
            | none => rw [hc] at hu; cases hu
            | some r =>
              obtain ⟨c2, tes⟩ := r
              rw [hc] at hu
              cases hu
              obtain ⟨hps, hn⟩ := paramsFor_params hp
              obtain ⟨hlen, hpos⟩ := C89_positions (C89_declared g hm).1 hn
              have ht := checkArgs_targets (by rw [hps, hlen]) hc
              refine ⟨hm, hname, .inr ⟨?_, ?_⟩⟩
              · have := congrArg List.length ht
                rw [List.length_map, List.length_map, hps, hlen] at this
                exact this
              · intro i te hi
                have hi' : (ps.map (·.1))[i]? = some te.target := by rw [← ht, List.getElem?_map, hi]; rfl
                rw [List.getElem?_map] at hi'
                cases hq : ps[i]? with
                | none => rw [hq] at hi'; cases hi'
                | some q =>
                  rw [hq] at hi'
                  have := (hpos i q (hps ▸ hq)).1
                  exact (Option.some.inj hi') ▸ this
    · cases h

/-- Not vacuous: there are built-in functions with a variadic parameter and one of raw tokens; and there are lists of parameters that are refused. -/
example : (builtins.map (·.args)).contains [.variadic .tokens] = true ∧ (builtins.map (·.args)).contains [.raw] = true ∧
    ¬ Declarable [.variadic .ident, .ident] ∧ ¬ Declarable [.variadic .ident, .variadic .ident] ∧ ¬ Declarable [.ident, .raw] := by
  refine ⟨by decide +kernel, by decide +kernel, ?_, ?_, ?_⟩
  all_goals
    intro h
    have := (C89_exact 0 [] _ .ident (fun _ _ _ => .panic)).1 h
    have h2 : ∀ {x : Func}, (Res.panic : Res Func) ≠ .ok x := by intro x hx; cases hx
    exact h2 this

/-- Not vacuous: `concat(a, 1, b)` is the concatenation whose first parameter is an identifier, the others being tokens. -/
example : ∃ c f tes t, check builtinFuncs (fun _ => none) (.call 0 c! "concat" [.value 1 (.ident c! "a"), .value 2 (.litInt ⟨false, c! "1", 1⟩), .value 3 (.ident c! "b")] none)
    none = .ok (c, .call f tes t) ∧ f.args = [.ident, .variadic .tokens] ∧ tes.map TExpr.target = [.ident, .tokens, .tokens] :=
  ⟨_, _, _, _, rfl, rfl, rfl⟩

end Verif.Props
