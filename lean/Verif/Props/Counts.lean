import Verif.Props.Whole
/-!
# The number of arguments, for whole invocations (C27)
-/

namespace Verif.Props
open Spec

/-- The calls that are made when `e` is evaluated: `e` itself, and those in its arguments, unless it is a call of `raw` or `normalize`, which take their
arguments as they are written. -/
inductive Made : Expr → Expr → Prop
  | self (id : Nat) (n : Str) (args : List Expr) (r : Option (Nat × Toks)) : Made (.call id n args r) (.call id n args r)
  | arg {id : Nat} {n : Str} {args : List Expr} {r : Option (Nat × Toks)} {a c : Expr} (hn : n ≠ S "raw" ∧ n ≠ S "normalize") (ha : a ∈ args) (h : Made a c) :
      Made (.call id n args r) c

/-- `concat` takes one argument or more, other functions take exactly one; `raw` and `normalize` take anything. -/
def Takes (n : Str) (k : Nat) : Prop := n = S "raw" ∨ n = S "normalize" ∨ (n = S "concat" ∧ 1 ≤ k) ∨ k = 1

theorem builtins_count : ∀ f ∈ builtins, (f.args = [.raw] ∧ (f.name = S "raw" ∨ f.name = S "normalize")) ∨
    (f.args ≠ [.raw] ∧ (f.variadicArg.isSome = true ∧ f.name = S "concat" ∧ 1 ≤ f.args.length ∧ f.fixedArgs.length ≤ f.args.length ∨
      f.variadicArg = none ∧ f.args.length = 1)) := by decide +kernel

theorem best_mem {l : List Choice} {c : Choice} (h : best l = some c) : c ∈ l := by
  induction l generalizing c with
  | nil => cases h
  | cons x xs ih =>
    rw [best] at h
    split at h
    · cases h; simp
    · split at h
      · cases h; exact List.mem_cons_of_mem _ (ih ‹_›)
      · cases h; simp

theorem checkArgs_mem {T : Str → Option (List Func)} {Γ : TyEnv} : ∀ {es : List Expr} {ps : List (Ty × Nat)} {r : Nat × List TExpr},
    checkArgs T Γ es ps = some r → es.length ≤ ps.length → ∀ e ∈ es, ∃ t c, check T Γ e (some t) = .ok c
  | [], _, _, _, _, e, he => by cases he
  | e :: es, [], _, _, hl, _, _ => by simp at hl
  | e :: es, (t, m) :: ps, r, h, hl, a, ha => by
    rw [checkArgs] at h
    split at h
    · next c te hc =>
      cases hr : checkArgs T Γ es ps with
      | none => rw [hr] at h; cases h
      | some r' =>
        rcases List.mem_cons.1 ha with rfl | ha
        · exact ⟨_, _, hc⟩
        · exact checkArgs_mem hr (by simpa using hl) a ha
    · cases h

/-- The overload that is used for a call fits the number of arguments, and its arguments are typed if it is not one that takes them as written. -/
theorem check_call {Γ : TyEnv} {id : Nat} {n : Str} {args : List Expr} {r : Option (Nat × Toks)} {exp : Option Ty} {x : Nat × TExpr}
    (h : check builtinFuncs Γ (.call id n args r) exp = .ok x) :
    Takes n args.length ∧ (n ≠ S "raw" ∧ n ≠ S "normalize" → ∀ a ∈ args, ∃ t c, check builtinFuncs Γ a (some t) = .ok c) := by
  rw [check] at h
  split at h
  · cases h
  · next fs hf =>
    split at h
    · next ch hb =>
      have hm := best_mem hb
      rw [List.mem_filterMap] at hm
      obtain ⟨f, hfm, hu⟩ := hm
      obtain ⟨hb, rfl⟩ := (builtinFuncs_mem hf).1 hfm
      rcases builtins_count f hb with ⟨-, h1⟩ | ⟨h1, h2⟩
      · refine ⟨?_, fun hn => ?_⟩
        · rcases h1 with h1 | h1
          · exact .inl h1
          · exact .inr (.inl h1)
        · rcases h1 with h1 | h1
          · exact (hn.1 h1).elim
          · exact (hn.2 h1).elim
      · unfold usable at hu
        rw [if_neg h1] at hu
        cases ho : outCost f.out exp with
        | none => rw [ho] at hu; cases hu
        | some co =>
          rw [ho] at hu
          cases hp : paramsFor f args.length with
          | none => rw [hp] at hu; cases hu
          | some ps =>
            rw [hp] at hu
            have hps : ps.length = args.length ∧ Takes f.name args.length := by
              unfold paramsFor at hp
              rcases h2 with ⟨h2, h3, h4, h5⟩ | ⟨h2, h3⟩
              · cases hv : f.variadicArg with
                | none => rw [hv] at h2; cases h2
                | some t =>
                  rw [hv] at hp
                  simp only at hp
                  split at hp
                  · cases hp
                    refine ⟨?_, .inr (.inr (.inl ⟨h3, by omega⟩))⟩
                    simp only [List.length_append, List.length_map, List.length_replicate]
                    omega
                  · cases hp
              · rw [h2] at hp
                simp only at hp
                split at hp
                · cases hp
                  refine ⟨by simpa, .inr (.inr (.inr (by omega)))⟩
                · cases hp
            refine ⟨hps.2, fun _ => ?_⟩
            cases hc : checkArgs builtinFuncs Γ args ps with
            | none => simp [hc] at hu
            | some r => exact checkArgs_mem hc (by omega)
    · cases h

theorem made_takes {e c : Expr} (h : Made e c) : ∀ {Γ : TyEnv} {exp : Option Ty} {x : Nat × TExpr}, check builtinFuncs Γ e exp = .ok x →
    ∀ {id n args r}, c = .call id n args r → Takes n args.length := by
  induction h with
  | self id n args r => rintro Γ exp x h _ _ _ _ ⟨rfl⟩; exact (check_call h).1
  | arg hn ha _ ih =>
    intro Γ exp x h id n args r hc
    obtain ⟨t, y, hy⟩ := (check_call h).2 hn _ ha
    exact ih hy hc

theorem checkSpec_mem {T : Str → Option (List Func)} : ∀ {defs : List (Str × Expr)} {Γ : TyEnv} {r : List (Str × TExpr)}, checkSpec T defs Γ = .ok r →
    ∀ d ∈ defs, ∃ Γ' x, check T Γ' d.2 none = .ok x
  | [], _, _, _, _, hd => by cases hd
  | (n, e) :: defs, Γ, r, h, d, hd => by
    rw [checkSpec] at h
    split at h
    · cases h
    · next te hc =>
      split at h
      · cases h
      · split at h
        · cases h
        · next hr =>
          rcases List.mem_cons.1 hd with rfl | hd
          · exact ⟨_, _, hc⟩
          · exact checkSpec_mem hr d hd

/-- **C27** for whole invocations: if an invocation gives code, all calls that are made, however deep, have a number of arguments that the function
takes. -/
theorem C27_in_code {W : World} {hist : List (Invocation × Luck)} {inv : Invocation} {l : Luck} (hs : Scheduled W hist inv l) {ts : Toks}
    (h : output W hist inv l = .tokens ts) {a : PAst} {its : List (List (Str × Expr))} (ha : Reads W inv a) (hi : InForce a its)
    {defs : List (Str × Expr)} (hd : defs ∈ its) {m : Str} {e : Expr} (he : (m, e) ∈ defs) {id : Nat} {n : Str} {args : List Expr}
    {r : Option (Nat × Toks)} (hc : Made e (.call id n args r)) : Takes n args.length := by
  obtain ⟨c, hc'⟩ := (C54_all_or_nothing hs ha (iterations_of_inForce hi)).1 ⟨ts, h⟩ defs hd
  cases hc' with
  | mk vs hv stmts hv' =>
    rw [outcome_ok] at hv
    have hv := hv.2
    unfold denote at hv
    split at hv
    · cases hv
    · next tes hk =>
      obtain ⟨Γ, x, hx⟩ := checkSpec_mem hk _ he
      exact made_takes hc hx rfl

/-- No overload can be used with a wrong number of arguments. -/
theorem unusable {f : Func} (hf : f ∈ builtins) {k : Nat} (hk : ¬ Takes f.name k) (r : Option (Nat × Toks)) (exp : Option Ty)
    (args : List (Ty × Nat) → Option (Nat × List TExpr)) : usable r k exp args f = none ∧ f.args ≠ [.raw] ∧ paramsFor f k = none := by
  rcases builtins_count f hf with ⟨-, h1⟩ | ⟨h1, h2⟩
  · exact (hk (by rcases h1 with h1 | h1 <;> simp [Takes, h1])).elim
  · have hp : paramsFor f k = none := by
      unfold paramsFor
      rcases h2 with ⟨h2, h3, h4, h5⟩ | ⟨h2, h3⟩
      · have : k = 0 := by
          rcases Nat.eq_zero_or_pos k with h | h
          · exact h
          · exact (hk (.inr (.inr (.inl ⟨h3, h⟩)))).elim
        cases hv : f.variadicArg with
        | none => rw [hv] at h2; cases h2
        | some t => exact if_neg (by omega)
      · rw [h2]
        exact if_neg (fun e => hk (.inr (.inr (.inr (by omega)))))
    refine ⟨?_, h1, hp⟩
    unfold usable
    rw [if_neg h1, hp]
    cases outCost f.out exp <;> rfl

/-- **C27**: a definition whose value is a call with a wrong number of arguments makes the invocation fail with the signatures of the function and
the call, whatever the arguments are and whatever comes after it. -/
theorem C27_reported {W : World} {hist : List (Invocation × Luck)} {inv : Invocation} {l : Luck} (hs : Scheduled W hist inv l)
    {a : PAst} (ha : Reads W inv a) {defs : List (Str × Expr)} {its : List (List (Str × Expr))} (hi : InForce a (defs :: its))
    {pre rest : List (Str × Expr)} {m n : Str} {id : Nat} {args : List Expr} {r : Option (Nat × Toks)}
    (hd : defs = pre ++ (m, .call id n args r) :: rest) {vs : List (Str × VKind)} (hp : outcome W.E (Env.builtin (l.ids 0)) pre = .ok vs)
    (hb : isBuiltin n = true) (hk : ¬ Takes n args.length) :
    output W hist inv l = .compileError (.signature (sigsText (builtins.filter fun f => f.name == n)) (exprText (.call id n args r))) := by
  have hT : builtinFuncs n = some (builtins.filter fun f => f.name == n) := by
    unfold isBuiltin at hb
    unfold builtinFuncs at hb ⊢
    split at hb
    · cases hb
    · rfl
  have hmem : ∀ f ∈ builtins.filter (fun f => f.name == n), f ∈ builtins ∧ f.name = n := fun f hf => by simpa using hf
  have hc : ∀ Γ, check builtinFuncs Γ (.call id n args r) none = .error (refusal (builtins.filter fun f => f.name == n) (.call id n args r)) := by
    intro Γ
    rw [check, hT]
    have : (builtins.filter fun f => f.name == n).filterMap (usable r args.length none fun ps => checkArgs builtinFuncs Γ args ps) = [] := by
      rw [List.filterMap_eq_nil_iff]
      intro f hf
      obtain ⟨h1, rfl⟩ := hmem f hf
      exact (unusable h1 hk r none _).1
    simp only [this, best]
  have ho : ∀ Γ, overflows builtinFuncs Γ (.call id n args r) none = false := by
    intro Γ
    rw [overflows, hT, List.any_eq_false]
    intro f hf
    obtain ⟨h1, rfl⟩ := hmem f hf
    obtain ⟨-, h2, h3⟩ := unusable h1 hk r none (fun _ => none)
    rw [if_neg h2, h3]
    cases outCost f.out none <;> simp
  have hout : outcome W.E (Env.builtin (l.ids 0)) defs = .err (refusal (builtins.filter fun f => f.name == n) (.call id n args r)) := by
    rw [hd, outcome_append rfl hp]
    simp only [Env.builtin, overflowsSpec, checkSpec, hc, ho]
    rfl
  have := C54_first_failure hs ha (pre := []) (post := its) (iterations_of_inForce hi) (by simp) (r := .err _) (by
    unfold copyOf; rw [hout]) (by simp)
  exact this

/-- `B = x, A = upper(B, y), { struct A {} }`. -/
def demoCount : Toks := [id' "B", eq', id' "x", comma, id' "A", eq', id' "upper", paren [id' "B", comma, id' "y"], comma, brace [id' "struct", id' "A", brace []]]

example : output demoWorld [] (.compose demoCount) (demoLuck 2 1) =
    .compileError (.signature c! "upper(str) -> str | upper(ident) -> ident" [.str c! "upper", .str c! "(", .str c! "B", .str c! ", ", .str c! "y", .str c! ")"]) := by
  decide +kernel

example : ∃ a defs its, Reads demoWorld (.compose demoCount) a ∧ InForce a (defs :: its) ∧ ∃ pre rest m n id args r vs,
    defs = pre ++ (m, .call id n args r) :: rest ∧ outcome demoWorld.E (Env.builtin 1) pre = .ok vs ∧ isBuiltin n = true ∧ ¬ Takes n args.length :=
  ⟨_, _, _, reads_of_parse (ids := fun k => k) (k := 0) rfl, inForce_of_iterations rfl, [_], [], _, _, _, _, _, _, rfl, rfl, rfl, by simp [Takes]; decide⟩

/-- `A = upper(lower(x)), { struct A {} }`. -/
def demoCounted : Toks := [id' "A", eq', id' "upper", paren [id' "lower", paren [id' "x"]], comma, brace [id' "struct", id' "A", brace []]]

example : ∃ a its defs m e id args r ts, Scheduled demoWorld [] (.compose demoCounted) (demoLuck 2 1) ∧
    output demoWorld [] (.compose demoCounted) (demoLuck 2 1) = .tokens ts ∧ Reads demoWorld (.compose demoCounted) a ∧ InForce a its ∧ defs ∈ its ∧
    (m, e) ∈ defs ∧ Made e (.call id c! "lower" args r) ∧ args.length = 1 :=
  ⟨_, _, _, _, _, _, _, _, _, demo_scheduled _ _ (by decide +kernel), rfl, reads_of_parse (ids := fun k => k) (k := 0) rfl, inForce_of_iterations rfl,
    List.mem_singleton.2 rfl, List.mem_singleton.2 rfl, .arg (by decide) (List.mem_singleton.2 rfl) (.self _ _ _ _), rfl⟩

end Verif.Props
