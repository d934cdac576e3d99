import Verif.Proofs.Failures
import Verif.Props.Run
/-!
# What a failed expansion says

C65: every compile error is of one of six kinds, and what it says is the case. The kinds are: the input cannot be read; a combination
of loop values cannot be bound; a name is defined twice; no overload of a function fits; a function fails on arguments which fit;
the value of an alias does not fit where the alias stands.
-/

namespace Verif.Props
open Verif Spec

/-- The functions that convert tokens. -/
def conversions : List Str := [S "to_ident", S "to_path", S "to_type", S "to_expr", S "to_str", S "to_int"]

/-- `Fault W seed block defs x`: what is wrong with an iteration with the definitions `defs` when it ends in the error `x`. -/
inductive Fault (W : World) (seed : Nat) (block : List Stmt) (defs : List (Str × Expr)) : Err → Prop
  /-- A name is defined twice: the definitions up to the second one of `n` have different names. -/
  | redefined (pre : List (Str × Expr)) (n : Str) (e : Expr) (post : List (Str × Expr)) (h : defs = pre ++ (n, e) :: post)
      (hd : (pre.map (·.1)).Nodup) (hn : n ∈ pre.map (·.1)) : Fault W seed block defs (.redefined n)
  /-- A definition is a call of the function `n`, the definitions before it have types, and no overload of `n` can be used. The
  error lists all overloads and quotes the call. -/
  | signature (pre : List (Str × Expr)) (m : Str) (id : Nat) (n : Str) (args : List Expr) (raw : Option (Nat × Toks))
      (post : List (Str × Expr)) (h : defs = pre ++ (m, .call id n args raw) :: post) (tes : List (Str × TExpr))
      (hp : checkSpec builtinFuncs pre (fun _ => none) = .ok tes) (fs : List Func) (hf : builtinFuncs n = some fs)
      (hu : ∀ f ∈ fs, usable raw args.length none (fun ps => checkArgs builtinFuncs (tyEnv (fun _ => none) tes) args ps) f = none) :
      Fault W seed block defs (refusal fs (.call id n args raw))
  /-- All definitions have types, and during their evaluation one of the conversion functions is applied to tokens which cannot be
  read as what it converts to. The error names the type and says that there are tokens (or, in one case, a string literal). -/
  | conversion (tes : List (Str × TExpr)) (h : checkSpec builtinFuncs defs (fun _ => none) = .ok tes) (f : Func) (hf : f ∈ builtins)
      (hn : f.name ∈ conversions) (ts : Toks) (ha : AppliedSpec W.E seed tes (fun _ => none) f [.tokens ts])
      (hc : ∀ v, tryCast W.E (.tokens ts) f.out ≠ .ok v) (frm : Ty)
      (hfrm : frm = .tokens ∨ frm = .litStr ∧ f.out = .ident ∧ ∃ r s, ts = [.lit (.str r s)]) :
      Fault W seed block defs (.typeError (.cast frm f.out))
  /-- All definitions have types, and during their evaluation `concat` is applied to an identifier and tokens whose texts together are
  not an identifier. The error lists the arguments. -/
  | concat (tes : List (Str × TExpr)) (h : checkSpec builtinFuncs defs (fun _ => none) = .ok tes) (f : Func) (hf : f ∈ builtins)
      (hn : f.name = S "concat") (s : Str) (rest : List Toks)
      (ha : AppliedSpec W.E seed tes (fun _ => none) f (.ident s :: rest.map .tokens))
      (hc : parseStrIdent W.E (W.E.render [.ident s] ++ (rest.map W.E.render).flatten) = none) :
      Fault W seed block defs (.evalError ([.ident s] :: rest))
  /-- All definitions have values, and that of `n` does not fit in the block. -/
  | substitution (vs : List (Str × VKind)) (h : outcome W.E (Env.builtin seed) defs = .ok vs) (n : Str) (v : VKind) (hv : (n, v) ∈ vs)
      (hb : visitBlock W.E W.Y.toGrammar vs block = .err (.substitution n (W.E.render v.toTokens))) :
      Fault W seed block defs (.substitution n (W.E.render v.toTokens))

theorem outcome_names {W : World} {seed : Nat} {defs : List (Str × Expr)} {vs : List (Str × VKind)}
    (h : outcome W.E (Env.builtin seed) defs = .ok vs) : (vs.map (·.1)).Nodup := by
  unfold outcome at h
  split at h
  · cases h
  · exact (denote_names h).2

theorem fault_of_copyOf {W : World} {seed : Nat} {sv : Service} {block : List Stmt} {defs : List (Str × Expr)} {x : Err}
    (h : copyOf W (Env.builtin seed) sv block defs = .err x) (hn : ∀ n, x ≠ .undefinedFunction n) : Fault W seed block defs x := by
  unfold copyOf at h
  split at h
  · rename_i vs ho
    split at h
    · cases h
    · rename_i hv
      cases h
      obtain ⟨n, v, hg, rfl⟩ := visitBlock_err hv
      exact .substitution vs ho n v ((Subs.get_eq_some (outcome_names ho)).1 hg) hv
    · cases h
  · rename_i y ho
    cases h
    unfold outcome at ho
    split at ho
    · cases ho
    · unfold denote at ho
      split at ho
      · rename_i y hc
        cases ho
        obtain ⟨pre, n, e, post, tes, h1, h2, h3 | h3⟩ := checkSpec_error hc
        · obtain ⟨id, m, args, raw, rfl, ⟨-, h4⟩ | ⟨fs, h4, rfl, h5⟩⟩ := check_none_error h3
          · exact (hn m h4).elim
          · exact .signature pre n id m args raw post h1 tes h2 fs h4 h5
        · subst h3
          obtain ⟨pre, e, post, h1, h2, -, h3 | h3⟩ := checkSpec_redefined hc
          · exact .redefined pre n e post h1 h2 h3
          · cases h3
      · rename_i tes hc
        obtain ⟨f, vs, h1, h2⟩ := evalSpecT_applied (E := W.E) (env := Env.builtin seed) rfl hc typed_empty ho
        obtain ⟨h3, h4⟩ := appliedSpec_fits (env := Env.builtin seed) rfl hc typed_empty h1
        cases builtins_fail h3 h2 with
        | cast id n t ts hm frm h hf =>
          exact .conversion tes hc (castFunc id n t) h3 hm ts h1 (fun v hv => by rw [castFunc, h] at hv; cases hv) frm hf
        | concat id first rest h =>
          obtain ⟨ps, h5, h6⟩ := h4
          obtain ⟨s, rfl⟩ : ∃ s, first = .ident s := by
            have h7 : ps = (.ident, 1) :: List.replicate rest.length (.tokens, 2) := by
              have : 1 ≤ rest.length ∧ ps = (.ident, 1) :: List.replicate rest.length (.tokens, 2) := by
                simpa [paramsFor, Func.variadicArg, Func.fixedArgs, concatIdentTokens, Ty.isVariadic] using h5.symm
              exact this.2
            rw [h7] at h6
            simp only [List.map_cons, List.cons.injEq] at h6
            cases first <;> simp only [VKind.ty, reduceCtorEq, false_and] at h6
            exact ⟨_, rfl⟩
          exact .concat tes hc _ h3 rfl s rest h1 h
  · cases h

theorem joinAll_split {α : Type} {f : α → Res Toks} : ∀ {xs : List α} {x : Res Toks}, joinAll (xs.map f) = x → (∀ t, x ≠ .ok t) →
    ∃ pre a post, xs = pre ++ a :: post ∧ (∀ b ∈ pre, ∃ t, f b = .ok t) ∧ f a = x
  | [], x, h, hx => (hx [] h.symm).elim
  | a :: xs, x, h, hx => by
    simp only [List.map_cons] at h
    cases ha : f a with
    | err e => rw [ha] at h; exact ⟨[], a, xs, rfl, by simp, ha.trans h⟩
    | panic => rw [ha] at h; exact ⟨[], a, xs, rfl, by simp, ha.trans h⟩
    | ok t =>
      rw [ha] at h
      simp only [joinAll] at h
      have hj : joinAll (xs.map f) = x := by
        cases hj : joinAll (xs.map f) with
        | ok u => rw [hj] at h; exact (hx _ h.symm).elim
        | err e => rw [hj] at h; exact h
        | panic => rw [hj] at h; exact h
      obtain ⟨pre, b, post, rfl, h1, h2⟩ := joinAll_split hj hx
      exact ⟨a :: pre, b, post, rfl, by simpa [ha] using h1, h2⟩

/-- **C65**: the error says what is wrong. Either the input cannot be read, or in some combination of loop values one does not match its variable, or
there is a first iteration which fails, and the error describes a fault of that iteration. -/
theorem C65_says_what_is_wrong {W : World} {hist : List (Invocation × Luck)} {inv : Invocation} {l : Luck} (hs : Scheduled W hist inv l)
    {x : Err} (h : output W hist inv l = .compileError x) :
    (x = .parse ∧ ∀ a, ¬ Reads W inv a) ∨
    ∃ a, Reads W inv a ∧
      ((∃ (loops : List (LoopAlias Str × List (LoopSourceValue Expr))) (vals : List (LoopSourceValue Expr)) (i : Nat)
          (al : LoopAlias Str × List (LoopSourceValue Expr)) (v : LoopSourceValue Expr) (w : Mismatch), (tree a).loops = some loops ∧ vals ∈ combinations (loops.map (·.2)) ∧
          loops[i]? = some al ∧ vals[i]? = some v ∧ Unmatched al.1 v w ∧ x = .typeError w) ∨
       ∃ pre defs post, InForce a (pre ++ defs :: post) ∧
        (∀ d ∈ pre, ∃ c, IsCopy W (l.ids 0) (serviceFor (macroPrefix (firstOn hist inv)) (withSemicolons a.spec)) a.block d c) ∧
        Fault W (l.ids 0) a.block defs x) := by
  have hu := C28_never_undefined hs
  by_cases ha : ∃ a, Reads W inv a
  · obtain ⟨a, ha⟩ := ha
    refine .inr ⟨a, ha, ?_⟩
    have ho := output_reads hs ha
    rw [h] at ho
    simp only [expansion] at ho
    cases hi : iterations (tree a) with
    | panic => rw [hi] at ho; cases ho
    | err e =>
      rw [hi] at ho
      cases ho
      unfold iterations at hi
      cases he : expand (tree a) with
      | panic => rw [he] at hi; cases hi
      | ok o => rw [he] at hi; cases hi
      | err e => rw [he] at hi; cases hi; exact .inl (expand_err he)
    | ok its =>
      rw [hi] at ho
      simp only at ho
      generalize hj : joinAll _ = r at ho
      cases r with
      | ok t => cases ho
      | panic => cases ho
      | err e =>
        cases ho
        obtain ⟨pre, defs, post, rfl, h1, h2⟩ := joinAll_split hj (by simp)
        refine .inr ⟨pre, defs, post, inForce_of_iterations hi, fun d hd => ?_, fault_of_copyOf h2 fun n hn => ?_⟩
        · obtain ⟨c, hc⟩ := h1 d hd
          exact ⟨c, isCopy_iff.1 hc⟩
        · rw [hn] at h
          exact hu n h
  · refine .inl ⟨?_, fun a hr => ha ⟨a, hr⟩⟩
    have := output_unread hs fun a hr => ha ⟨a, hr⟩
    rw [h] at this
    cases this
    rfl

/-- **C65**: a parse error is reported for exactly the inputs which cannot be read. -/
theorem C65_parse_iff {W : World} {hist : List (Invocation × Luck)} {inv : Invocation} {l : Luck} (hs : Scheduled W hist inv l) :
    output W hist inv l = .compileError .parse ↔ ∀ a, ¬ Reads W inv a := by
  refine ⟨fun h => ?_, output_unread hs⟩
  rcases C65_says_what_is_wrong hs h with ⟨-, h⟩ | ⟨a, -, ⟨_, _, _, _, _, _, -, -, -, -, -, h⟩ | ⟨pre, defs, post, -, -, h⟩⟩
  · exact h
  · cases h
  · cases h

/-- **C65**: internal errors are never reported. -/
theorem C65_never_internal {W : World} {hist : List (Invocation × Luck)} {inv : Invocation} {l : Luck} (hs : Scheduled W hist inv l) :
    output W hist inv l ≠ .compileError .internal := by
  intro h
  rcases C65_says_what_is_wrong hs h with ⟨h, -⟩ | ⟨a, -, ⟨_, _, _, _, _, _, -, -, -, -, -, h⟩ | ⟨pre, defs, post, -, -, h⟩⟩ <;> cases h

/-- A panic of an invocation which is read as `a`, see `C65_panics`. -/
theorem panics_at {W : World} {hist : List (Invocation × Luck)} {inv : Invocation} {l : Luck} (hs : Scheduled W hist inv l)
    {a : PAst} (ha : Reads W inv a) (h : output W hist inv l = .panicked) :
    ∃ pre defs post, InForce a (pre ++ defs :: post) ∧
      (∀ d ∈ pre, ∃ c, IsCopy W (l.ids 0) (serviceFor (macroPrefix (firstOn hist inv)) (withSemicolons a.spec)) a.block d c) ∧
      (overflowsSpec builtinFuncs defs (fun _ => none) = true ∨
       (∃ tes f vs, checkSpec builtinFuncs defs (fun _ => none) = .ok tes ∧ f ∈ builtins ∧
          AppliedSpec W.E (l.ids 0) tes (fun _ => none) f vs ∧ TypesFit f vs ∧ f.impl W.E (l.ids 0) vs = .panic) ∨
       ∃ vs, outcome W.E (Env.builtin (l.ids 0)) defs = .ok vs ∧ visitBlock W.E W.Y.toGrammar vs a.block = .panic) := by
  have ho := output_reads hs ha
  rw [h] at ho
  simp only [expansion] at ho
  cases hi : iterations (tree a) with
  | err e => rw [hi] at ho; cases ho
  | panic =>
    unfold iterations at hi
    cases he : expand (tree a) with
    | panic => exact (expand_no_panic _ he).elim
    | ok o => rw [he] at hi; cases hi
    | err e => rw [he] at hi; cases hi
  | ok its =>
    rw [hi] at ho
    simp only at ho
    generalize hj : joinAll _ = r at ho
    cases r with
    | ok t => cases ho
    | err e => cases ho
    | panic =>
      obtain ⟨pre, defs, post, rfl, h1, h2⟩ := joinAll_split hj (by simp)
      refine ⟨pre, defs, post, inForce_of_iterations hi, fun d hd => ?_, ?_⟩
      · obtain ⟨c, hc⟩ := h1 d hd
        exact ⟨c, isCopy_iff.1 hc⟩
      · unfold copyOf at h2
        split at h2
        · rename_i vs hv
          split at h2
          · cases h2
          · cases h2
          · rename_i hb
            exact .inr (.inr ⟨vs, hv, hb⟩)
        · cases h2
        · rename_i hv
          unfold outcome at hv
          split at hv
          · exact .inl (by assumption)
          · unfold denote at hv
            split at hv
            · cases hv
            · rename_i tes hc
              rcases evalSpecT_sound (E := W.E) (env := Env.builtin (l.ids 0)) rfl hc typed_empty with ⟨vs, h3, -⟩ | ⟨x, h3, -⟩ | ⟨-, f, vs, h3, h4, h5⟩
              · rw [hv] at h3; cases h3
              · rw [hv] at h3; cases h3
              · exact .inr (.inl ⟨tes, f, vs, hc, (appliedSpec_fits (env := Env.builtin (l.ids 0)) rfl hc typed_empty h3).1, h3, h4, h5⟩)

/-- **C65**: a panic happens in the first iteration which fails, and is an overflow of the costs, a built-in function which panics on
arguments of the types of its parameters, or a part of the block which cannot be parsed again. -/
theorem C65_panics {W : World} {hist : List (Invocation × Luck)} {inv : Invocation} {l : Luck} (hs : Scheduled W hist inv l)
    (h : output W hist inv l = .panicked) :
    ∃ a pre defs post, Reads W inv a ∧ InForce a (pre ++ defs :: post) ∧
      (∀ d ∈ pre, ∃ c, IsCopy W (l.ids 0) (serviceFor (macroPrefix (firstOn hist inv)) (withSemicolons a.spec)) a.block d c) ∧
      (overflowsSpec builtinFuncs defs (fun _ => none) = true ∨
       (∃ tes f vs, checkSpec builtinFuncs defs (fun _ => none) = .ok tes ∧ f ∈ builtins ∧
          AppliedSpec W.E (l.ids 0) tes (fun _ => none) f vs ∧ TypesFit f vs ∧ f.impl W.E (l.ids 0) vs = .panic) ∨
       ∃ vs, outcome W.E (Env.builtin (l.ids 0)) defs = .ok vs ∧ visitBlock W.E W.Y.toGrammar vs a.block = .panic) := by
  by_cases ha : ∃ a, Reads W inv a
  · obtain ⟨a, ha⟩ := ha
    obtain ⟨pre, defs, post, hp⟩ := panics_at hs ha h
    exact ⟨a, pre, defs, post, ha, hp⟩
  · have := output_unread hs fun a hr => ha ⟨a, hr⟩
    rw [h] at this
    cases this

/-! Every kind of failure occurs. -/

/-- `x = a, x = b, { struct x {} }` -/
example : output demoWorld [] (.compose [id' "x", eq', id' "a", comma, id' "x", eq', id' "b", comma, brace [id' "struct", id' "x", brace []]])
    (demoLuck 2 1) = .compileError (.redefined (S "x")) := by decide +kernel

/-- `x = upper(a, b), { struct x {} }` -/
example : output demoWorld [] (.compose [id' "x", eq', id' "upper", paren [id' "a", comma, id' "b"], comma, brace [id' "struct", id' "x", brace []]])
    (demoLuck 2 1) = .compileError (.signature (S "upper(str) -> str | upper(ident) -> ident")
      [.str (S "upper"), .str (S "("), .str (S "a"), .str (S ", "), .str (S "b"), .str (S ")")]) := by decide +kernel

/-- `x = to_int(a), { struct x {} }` -/
example : output demoWorld [] (.compose [id' "x", eq', id' "to_int", paren [id' "a"], comma, brace [id' "struct", id' "x", brace []]])
    (demoLuck 2 1) = .compileError (.typeError (.cast .tokens .litInt)) := by decide +kernel

/-- `for (x, y) in [a] { struct x {} }` -/
example : output demoWorld [] (.compose [id' "for", paren [id' "x", comma, id' "y"], id' "in", .group .bracket [id' "a"], brace [id' "struct", id' "x", brace []]])
    (demoLuck 2 1) = .compileError (.typeError .loopKind) := by decide +kernel

/-- `x = concat(a, "b c"), { struct x {} }` -/
example : output demoWorld [] (.compose [id' "x", eq', id' "concat", paren [id' "a", comma, .lit (.str (c! "\"b c\"") (c! "b c"))], comma, brace [id' "struct", id' "x", brace []]])
    (demoLuck 2 1) = .compileError (.evalError [[id' "a"], [.lit (.str (c! "\"b c\"") (c! "b c"))]]) := by decide +kernel

example : Scheduled demoWorld [] (.compose [id' "x", eq', id' "to_int", paren [id' "a"], comma, brace [id' "struct", id' "x", brace []]]) (demoLuck 2 1) :=
  demo_scheduled _ _ (by decide +kernel)

/-- `x y` -/
example : output demoWorld [] (.compose [id' "x", id' "y"]) (demoLuck 2 1) = .compileError .parse := by decide +kernel

end Verif.Props
