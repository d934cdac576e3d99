import Verif.Proofs.Twice
import Verif.Props.NormalizeValue
/-!
# Property C99: a function applied twice

Applying a function of the macro to what it has made itself should change nothing: `upper(upper(x))` is `upper(x)`, `to_path(to_path(x))` is `to_path(x)`.
-/

namespace Verif.Props
open Verif Spec

/-! ## Definitions with the same values -/

theorem defsBy_append {R : Expr → Expr → Prop} (hR : ∀ e, R e e) {ds ds' : List (Str × Expr)} (h : DefsBy R ds ds') :
    ∀ items : List (Str × Expr), DefsBy R (items ++ ds) (items ++ ds')
  | [] => h
  | (n, e) :: items => .cons n (hR e) (defsBy_append hR h items)

theorem copyOf_by {W : World} {env : Env} {sv : Service} {b : List Stmt} {ds ds' : List (Str × Expr)}
    (h : blurR (outcome W.E env ds) = blurR (outcome W.E env ds') ∨ outcome W.E env ds = .panic ∨ outcome W.E env ds' = .panic) :
    blurR (copyOf W env sv b ds) = blurR (copyOf W env sv b ds') ∨ copyOf W env sv b ds = .panic ∨ copyOf W env sv b ds' = .panic := by
  rcases h with h | h | h
  · exact .inl (copyOf_alike h)
  · exact .inr (.inl (by unfold copyOf; rw [h]))
  · exact .inr (.inr (by unfold copyOf; rw [h]))

theorem joinAll_by {α : Type} {f g : α → Res Toks} : ∀ {its : List α}, (∀ i ∈ its, blurR (f i) = blurR (g i) ∨ f i = .panic ∨ g i = .panic) →
    blurR (joinAll (its.map f)) = blurR (joinAll (its.map g)) ∨ joinAll (its.map f) = .panic ∨ joinAll (its.map g) = .panic
  | [], _ => .inl rfl
  | i :: its, h => by
    have ih := joinAll_by fun j hj => h j (List.mem_cons_of_mem _ hj)
    have hi := h i List.mem_cons_self
    simp only [List.map_cons]
    rcases hi with hi | hi | hi
    · rcases blurR_cases hi with hi | ⟨x, y, h1, h2, h3⟩
      · rw [hi]
        cases g i with
        | err e => exact .inl rfl
        | panic => exact .inl rfl
        | ok ts =>
          simp only [joinAll]
          rcases ih with ih | ih | ih
          · rcases blurR_cases ih with ih | ⟨x, y, h1, h2, h3⟩
            · rw [ih]; exact .inl rfl
            · rw [h1, h2]; simp only [Res.map, blurR, h3, true_or]
          · rw [ih]; exact .inr (.inl rfl)
          · rw [ih]; exact .inr (.inr rfl)
      · rw [h1, h2]; simp only [joinAll, blurR, h3, true_or]
    · rw [hi]; exact .inr (.inl rfl)
    · rw [hi]; exact .inr (.inr rfl)

/-- Definitions whose values are the same give the same output, unless one of the invocations panics (because of its costs). -/
theorem output_by {W : World} {hist hist' : List (Invocation × Luck)} {inv inv' : Invocation} {l l' : Luck} {a a' : PAst}
    (hs : Scheduled W hist inv l) (ha : Reads W inv a) (hs' : Scheduled W hist' inv' l') (ha' : Reads W inv' a')
    (hal : SameSetting hist inv l a hist' inv' l' a') (hl : (tree a').loops = (tree a).loops) (hb : a'.block = a.block)
    {R : Expr → Expr → Prop} (hR : ∀ e e', R e e' → SameValue W.E (l.ids 0) (NoAlias a) e e') (hr : ∀ e, R e e)
    (hd : DefsBy R (definitions a) (definitions a')) :
    blurO (output W hist' inv' l') = blurO (output W hist inv l) ∨ output W hist inv l = .panicked ∨ output W hist' inv' l' = .panicked := by
  rw [setting_output hs' ha' hal, output_reads hs ha]
  have hbd : loopBindings (tree a') = loopBindings (tree a) := by unfold loopBindings; rw [hl]
  have hb' : (tree a').block = (tree a).block := hb
  have key : ∀ {x y : Res Toks} (f : Res Toks → Output), (∀ {x y}, blurR x = blurR y → blurO (f x) = blurO (f y)) → f .panic = .panicked →
      (blurR x = blurR y ∨ x = .panic ∨ y = .panic) → blurO (f y) = blurO (f x) ∨ f x = .panicked ∨ f y = .panicked := by
    intro x y f hf hp h
    rcases h with h | h | h
    · exact .inl (hf h.symm)
    · exact .inr (.inl (by rw [h, hp]))
    · exact .inr (.inr (by rw [h, hp]))
  refine key _ blurO_ofRes rfl ?_
  unfold expansion
  rw [iterations_eq, iterations_eq, hbd, hb']
  cases hi : loopBindings (tree a) with
  | err e => exact .inl rfl
  | panic => exact .inl rfl
  | ok its =>
    have hin : InForce a (its.map (· ++ definitions a)) := inForce_of_iterations (by rw [iterations_eq, hi]; rfl)
    simp only [Res.map, List.map_map]
    refine joinAll_by fun items hm => copyOf_by ?_
    exact outcome_by hR (defsBy_append hr hd items) fun d hd hF => hF _ hin _ (List.mem_map.2 ⟨items, hm, rfl⟩) d hd rfl

/-! ## Whole invocations -/

/-- **C99**, functions that work on words (`upper`, `lower`, `snake_case`, `camel_case`, `pascal_case`), where on texts `f` after `g` is `f` (with `g = f`: where
`f` applied twice is `f`): `f(g(e))` may be written as `f(e)`, for any `e`, in any definition and at any depth. The output is the same, apart from the quotation of
a call in an error message. (What is missing: `C99_false`.) -/
theorem C99_words_partial {W : World} {hist hist' : List (Invocation × Luck)} {inv inv' : Invocation} {l l' : Luck} {a a' : PAst}
    (hs : Scheduled W hist inv l) (ha : Reads W inv a) (hs' : Scheduled W hist' inv' l') (ha' : Reads W inv' a')
    (hal : SameSetting hist inv l a hist' inv' l' a') (hl : (tree a').loops = (tree a).loops) (hb : a'.block = a.block)
    (hd : ExchangedDefs (Absorbed W.E) (definitions a) (definitions a')) :
    blurO (output W hist' inv' l') = blurO (output W hist inv l) :=
  output_exchanged hs ha hs' ha' hal hl hb (fun _ _ => absorbed_interchangeable) hd

/-- **C99**, `normalize2` of a value for whose text normalizing twice is normalizing once (`C05_exact` says which these are): `normalize2(normalize2(v))` may be
written as `normalize2(v)`, in any definition and at any depth. The output is the same, apart from the quotation of a call in an error message, unless one of the
two panics. (What is missing: `C99_false`.) -/
theorem C99_normalize2_partial {W : World} {hist hist' : List (Invocation × Luck)} {inv inv' : Invocation} {l l' : Luck} {a a' : PAst}
    (hs : Scheduled W hist inv l) (ha : Reads W inv a) (hs' : Scheduled W hist' inv' l') (ha' : Reads W inv' a')
    (hal : SameSetting hist inv l a hist' inv' l' a') (hl : (tree a').loops = (tree a).loops) (hb : a'.block = a.block)
    (hd : ExchangedDefs (NormalizedTwice W.E (NoAlias a)) (definitions a) (definitions a')) :
    blurO (output W hist' inv' l') = blurO (output W hist inv l) ∨ output W hist inv l = .panicked ∨ output W hist' inv' l' = .panicked :=
  output_by hs ha hs' ha' hal hl hb (R := Exchanged (NormalizedTwice W.E (NoAlias a)))
    (fun _ _ h => (exchanged_same (fun _ _ => normalizedTwice_same) h).value) .same hd

/-- **C99**, the functions that cast: `to_x(to_x(e))` may be written as `to_x(e)`, for any `e`, in any definition and at any depth except inside the first argument of
`concat`. The output is the same, apart from the quotation of a call in an error message, unless one of the two panics. (What is missing: inside the first argument
of `concat` the overloads weigh the higher cost differently, `C99_casts_false`.) -/
theorem C99_casts_partial {W : World} {hist hist' : List (Invocation × Luck)} {inv inv' : Invocation} {l l' : Luck} {a a' : PAst}
    (hs : Scheduled W hist inv l) (ha : Reads W inv a) (hs' : Scheduled W hist' inv' l') (ha' : Reads W inv' a')
    (hal : SameSetting hist inv l a hist' inv' l' a') (hl : (tree a').loops = (tree a).loops) (hb : a'.block = a.block)
    (hd : DefsBy (Within CastTwice) (definitions a) (definitions a')) :
    blurO (output W hist' inv' l') = blurO (output W hist inv l) ∨ output W hist inv l = .panicked ∨ output W hist' inv' l' = .panicked := by
  refine output_by hs ha hs' ha' hal hl hb (fun e e' h => ?_) (fun e => .same (.same e)) hd
  obtain ⟨d, hd⟩ := within_shifted (fun _ _ => castTwice_shifted) h
  exact hd.value

/-! ## Exactly -/

theorem outcome_single {E : Ext} {seed : Nat} {y : Str} {e : Expr} {c : Nat} {te : TExpr} (ho : overflows builtinFuncs (fun _ => none) e none = false)
    (hc : check builtinFuncs (fun _ => none) e none = .ok (c, te)) :
    outcome E (Env.builtin seed) [(y, e)] = (te.eval E seed fun _ => none).map fun v => [(y, v)] := by
  simp only [outcome, overflowsSpec, ho, hc, denote, checkSpec, Bool.false_or, Option.isSome_none, Bool.not_false, Bool.true_and, Bool.false_eq_true, if_false,
    evalSpecT, Env.builtin, Res.bind_eq]
  cases te.eval E seed fun _ => none <;> rfl

section
variable {f g : Str} {F G : Ext → Str → Str} (hf : WordFunction f F) (hg : WordFunction g G)

/-- A value as an argument. -/
theorem check_argument (j : Nat) (k : VKind) (t : Ty) :
    (check builtinFuncs (fun _ => none) (.value j k) (some t)).toOption = (coercionCost k.ty t).map fun c => (c, .val k t) := by
  have hk : natural (fun _ => none) k = k.ty := by cases k <;> rfl
  simp only [check, hk, Option.getD_some]
  cases coercionCost k.ty t <;> rfl

include hf in
/-- A function of words, of a string. -/
theorem outcome_word (E : Ext) (seed : Nat) (y : Str) (i j : Nat) (r s : Str) (raw : Option (Nat × Toks)) :
    outcome E (Env.builtin seed) [(y, .call i f [.value j (.litStr r s)] raw)] = .ok [(y, newLitStr E (F E s))] := by
  obtain ⟨id, hb⟩ := wordFunction_builtin hf
  have hc : check builtinFuncs (fun _ => none) (.call i f [.value j (.litStr r s)] raw) none =
      .ok (0, .call (strOf id f F) [.val (.litStr r s) .litStr] .litStr) := by
    rw [check_word hb, check_argument, check_argument]
    rfl
  rw [outcome_single (by rw [overflows_word hb, check_argument, check_argument]; rfl) hc]
  rw [TExpr.eval, TExpr.evalL, TExpr.evalL]
  rfl

include hf hg in
/-- A function of words, of another, of a string. -/
theorem outcome_word_word (E : Ext) (seed : Nat) (y : Str) (i j k : Nat) (r s : Str) (raw raw' : Option (Nat × Toks)) :
    outcome E (Env.builtin seed) [(y, .call i f [.call j g [.value k (.litStr r s)] raw] raw')] = .ok [(y, newLitStr E (F E (G E s)))] := by
  obtain ⟨id, hb⟩ := wordFunction_builtin hf
  obtain ⟨id', hb'⟩ := wordFunction_builtin hg
  have hin := check_inner hb' (fun _ => none) j (.value k (.litStr r s)) raw
  rw [check_argument, check_argument] at hin
  have hc : check builtinFuncs (fun _ => none) (.call i f [.call j g [.value k (.litStr r s)] raw] raw') none =
      .ok (0, .call (strOf id f F) [.call (strOf id' g G) [.val (.litStr r s) .litStr] .litStr] .litStr) := by
    rw [check_word hb, hin.1, hin.2]
    rfl
  rw [outcome_single (by rw [overflows_word hb, hin.1, hin.2, overflows_word hb', overflows_word hb', check_argument, check_argument]; rfl) hc]
  rw [TExpr.eval, TExpr.evalL, TExpr.evalL, TExpr.eval, TExpr.evalL, TExpr.evalL]
  rfl

include hf hg in
/-- **C99**, strings exactly: as the only definition, `y = f(g("s"))` and `y = f("s")` give the same if and only if the texts are the same. -/
theorem C99_string_exact (E : Ext) (seed : Nat) (y : Str) (i i' j k k' : Nat) (r r' s : Str) (raw raw' raw'' : Option (Nat × Toks)) :
    outcome E (Env.builtin seed) [(y, .call i f [.call j g [.value k (.litStr r s)] raw] raw')] =
        outcome E (Env.builtin seed) [(y, .call i' f [.value k' (.litStr r' s)] raw'')] ↔
      F E (G E s) = F E s := by
  rw [outcome_word hf, outcome_word_word hf hg]
  simp only [newLitStr, Res.ok.injEq, List.cons.injEq, Prod.mk.injEq, VKind.litStr.injEq, true_and, and_true]
  exact ⟨fun h => h.2, fun h => ⟨by rw [h], h⟩⟩

include hf in
/-- A function of words, of a name. -/
theorem outcome_word_name (E : Ext) (seed : Nat) (y : Str) (i j : Nat) (s : Str) (raw : Option (Nat × Toks)) :
    outcome E (Env.builtin seed) [(y, .call i f [.value j (.ident s)] raw)] = if E.lexIdent (F E s) then .ok [(y, .ident (F E s))] else .panic := by
  obtain ⟨id, hb⟩ := wordFunction_builtin hf
  have hc : check builtinFuncs (fun _ => none) (.call i f [.value j (.ident s)] raw) none =
      .ok (0, .call (identOf id f F) [.val (.ident s) .ident] .ident) := by
    rw [check_word hb, check_argument, check_argument]
    rfl
  rw [outcome_single (by rw [overflows_word hb, check_argument, check_argument]; rfl) hc]
  rw [TExpr.eval, TExpr.evalL, TExpr.evalL, show TExpr.eval E seed (fun _ => none) (.val (.ident s) .ident) = .ok (.ident s) from rfl]
  simp only [Res.bind_eq, Res.bind_ok, identOf, newIdent]
  split <;> rfl

include hf hg in
/-- A function of words, of another, of a name. -/
theorem outcome_word_word_name (E : Ext) (seed : Nat) (y : Str) (i j k : Nat) (s : Str) (raw raw' : Option (Nat × Toks)) :
    outcome E (Env.builtin seed) [(y, .call i f [.call j g [.value k (.ident s)] raw] raw')] =
      if E.lexIdent (G E s) && E.lexIdent (F E (G E s)) then .ok [(y, .ident (F E (G E s)))] else .panic := by
  obtain ⟨id, hb⟩ := wordFunction_builtin hf
  obtain ⟨id', hb'⟩ := wordFunction_builtin hg
  have hin := check_inner hb' (fun _ => none) j (.value k (.ident s)) raw
  rw [check_argument, check_argument] at hin
  have hc : check builtinFuncs (fun _ => none) (.call i f [.call j g [.value k (.ident s)] raw] raw') none =
      .ok (0, .call (identOf id f F) [.call (identOf id' g G) [.val (.ident s) .ident] .ident] .ident) := by
    rw [check_word hb, hin.1, hin.2]
    rfl
  have hci : ∀ s, tryCast E (.ident s) .ident = .ok (.ident s) := fun _ => tryCast_refl rfl
  rw [outcome_single (by rw [overflows_word hb, hin.1, hin.2, overflows_word hb', overflows_word hb', check_argument, check_argument]; rfl) hc]
  rw [TExpr.eval, TExpr.evalL, TExpr.evalL, TExpr.eval, TExpr.evalL, TExpr.evalL,
    show TExpr.eval E seed (fun _ => none) (.val (.ident s) .ident) = .ok (.ident s) from rfl]
  simp only [Res.bind_eq, Res.bind_ok, identOf, newIdent]
  by_cases h1 : E.lexIdent (G E s) = true
  · simp only [h1, if_true, Res.bind_ok, hci, Bool.true_and]
    split <;> rfl
  · simp only [h1, Bool.false_and, Bool.false_eq_true, if_false]
    rfl

include hf hg in
/-- **C99**, names exactly: as the only definition, `y = f(g(x))` and `y = f(x)` give the same if and only if both texts on the way are identifiers and the results
are the same, or both definitions panic. -/
theorem C99_name_exact (E : Ext) (seed : Nat) (y : Str) (i i' j k k' : Nat) (s : Str) (raw raw' raw'' : Option (Nat × Toks)) :
    outcome E (Env.builtin seed) [(y, .call i f [.call j g [.value k (.ident s)] raw] raw')] =
        outcome E (Env.builtin seed) [(y, .call i' f [.value k' (.ident s)] raw'')] ↔
      (E.lexIdent (G E s) = true ∧ E.lexIdent (F E s) = true ∧ F E (G E s) = F E s) ∨
        (E.lexIdent (F E s) = false ∧ (E.lexIdent (G E s) = false ∨ E.lexIdent (F E (G E s)) = false)) := by
  rw [outcome_word_name hf, outcome_word_word_name hf hg]
  cases h1 : E.lexIdent (G E s) <;> cases h2 : E.lexIdent (F E s) <;> cases h3 : E.lexIdent (F E (G E s)) <;> simp
  intro h
  rw [h, h2] at h3
  cases h3
end

/-! ## Examples -/

/-- `y = concat(x, f(g(t))), { y }` -/
def twiceDemo (f g : String) (t : Tok) : Toks := [id' "y", eq', id' "concat", paren [id' "x", comma, id' f, paren [id' g, paren [t]]], comma, brace [id' "y"]]
/-- `y = f(g(t)), { y }` -/
def castDemo (f g : String) (t : Tok) : Toks := [id' "y", eq', id' f, paren [id' g, paren [t]], comma, brace [id' "y"]]
/-- `y = f(t), { y }` -/
def onceDemo (f : String) (t : Tok) : Toks := [id' "y", eq', id' f, paren [t], comma, brace [id' "y"]]

/-- **C99**, full statement, which is false: `normalize2("a__")` is `a_`, which is `a` when it is normalized again; and a hash has another hash. (The `pascal_case` and
the `camel_case` of the crate `heck` are other examples, see `Lite/Findings`: `a_b_c` becomes `ABC` and then `Abc`, or `aBC` and then `aBc`.) -/
theorem C99_false :
    output demoWorld [] (.compose (onceDemo "normalize2" (.lit (.str (c! "\"a__\"") (c! "a__"))))) (demoLuck 2 1) = .tokens [id' "a_"] ∧
    output demoWorld [] (.compose (castDemo "normalize2" "normalize2" (.lit (.str (c! "\"a__\"") (c! "a__"))))) (demoLuck 2 1) = .tokens [id' "a"] ∧
    output demoWorld [] (.compose (castDemo "hash" "hash" (id' "a"))) (demoLuck 2 1) ≠
      output demoWorld [] (.compose (onceDemo "hash" (id' "a"))) (demoLuck 2 1) := by
  decide +kernel

/-- `y = concat(to_ident(…to_ident(f)…), n), { y }` -/
def deepDemo (k : Nat) : Toks :=
  [id' "y", eq', id' "concat", paren ((List.replicate k (id' "to_ident")).foldr (fun f ts => [f, paren ts]) [id' "f"] ++ [comma, id' "n"]), comma,
    brace [id' "y"]]

/-- **C99**, casts in the first argument of `concat`: there the claim is false. With two casts the identifiers `f` and `n` are joined to `fn`. With three, the overload
for an identifier followed by tokens is cheaper, which does not make keywords. -/
theorem C99_casts_false :
    output demoWorld [] (.compose (deepDemo 2)) (demoLuck 2 1) = .tokens [id' "fn"] ∧
    output demoWorld [] (.compose (deepDemo 3)) (demoLuck 2 1) = .compileError (.evalError [[id' "f"], [id' "n"]]) := by
  decide +kernel

/-- In the world of the examples `camel_case` leaves underscores out, and twice is once. -/
theorem demo_camel_twice (s : Str) : Ext.demo.lowerCamel (Ext.demo.lowerCamel s) = Ext.demo.lowerCamel s := by
  show (s.filter (· ≠ '_')).filter (· ≠ '_') = s.filter (· ≠ '_')
  rw [List.filter_filter]
  simp

theorem camelDemo_exchanged (i j k c c' v : Nat) (raw raw' raw'' raw1 raw2 : Option (Nat × Toks)) (e : Expr) :
    ExchangedDefs (Absorbed Ext.demo)
      [(S "y", .call c (S "concat") [.value v (.ident (S "x")), .call i (S "camel_case") [.call j (S "camel_case") [e] raw] raw'] raw1)]
      [(S "y", .call c' (S "concat") [.value v (.ident (S "x")), .call k (S "camel_case") [e] raw''] raw2)] :=
  .cons _ (.call _ _ _ _ _ (by decide) (by decide) (.cons (.same _) (.cons (.here (.mk _ _ _ (.same e) .camel .camel demo_camel_twice fun _ h => h)) .nil))) .nil

example : ExchangedDefs (Absorbed demoWorld.E) (definitions (demoParse (twiceDemo "camel_case" "camel_case" (id' "b_c"))))
      (definitions (demoParse (plainDemo "camel_case" (id' "b_c")))) ∧
    (tree (demoParse (plainDemo "camel_case" (id' "b_c")))).loops = (tree (demoParse (twiceDemo "camel_case" "camel_case" (id' "b_c")))).loops ∧
    (demoParse (plainDemo "camel_case" (id' "b_c"))).block = (demoParse (twiceDemo "camel_case" "camel_case" (id' "b_c"))).block ∧
    Reads demoWorld (.compose (twiceDemo "camel_case" "camel_case" (id' "b_c"))) (demoParse (twiceDemo "camel_case" "camel_case" (id' "b_c"))) ∧
    Reads demoWorld (.compose (plainDemo "camel_case" (id' "b_c"))) (demoParse (plainDemo "camel_case" (id' "b_c"))) ∧
    Scheduled demoWorld [] (.compose (twiceDemo "camel_case" "camel_case" (id' "b_c"))) (demoLuck 2 1) ∧
    Scheduled demoWorld [] (.compose (plainDemo "camel_case" (id' "b_c"))) (demoLuck 2 1) ∧
    SameSetting [] (.compose (twiceDemo "camel_case" "camel_case" (id' "b_c"))) (demoLuck 2 1) (demoParse (twiceDemo "camel_case" "camel_case" (id' "b_c")))
      [] (.compose (plainDemo "camel_case" (id' "b_c"))) (demoLuck 2 1) (demoParse (plainDemo "camel_case" (id' "b_c"))) := by
  refine ⟨camelDemo_exchanged _ _ _ _ _ _ _ _ _ _ _ _, rfl, rfl, reads_of_parse (ids := fun k => k) (k := 0) rfl, reads_of_parse (ids := fun k => k) (k := 0) rfl,
    demo_scheduled _ _ (by decide +kernel), demo_scheduled _ _ (by decide +kernel), .inl rfl, rfl, .inl rfl⟩

example : output demoWorld [] (.compose (twiceDemo "camel_case" "camel_case" (id' "b_c"))) (demoLuck 2 1) = .tokens [id' "xbc"] ∧
    output demoWorld [] (.compose (plainDemo "camel_case" (id' "b_c"))) (demoLuck 2 1) = .tokens [id' "xbc"] := by decide +kernel

/-- For a string which does not end with underscores. -/
theorem dash_normalizedTwice {F : Str → Prop} (i j k l l' : Nat) (raw raw' raw'' : Option (Nat × Toks)) :
    NormalizedTwice Ext.demo F (.call i (S "normalize2") [.call j (S "normalize2") [.value l (.litStr (c! "\"a-b\"") (c! "a-b"))] raw] raw')
      (.call k (S "normalize2") [.value l' (.litStr (c! "\"a-b\"") (c! "a-b"))] raw'') :=
  .mk _ _ _ _ _ (by decide) (fun _ h => nomatch h) (by decide)

example : output demoWorld [] (.compose (castDemo "normalize2" "normalize2" dashTok)) (demoLuck 2 1) = .tokens [id' "a_b"] ∧
    output demoWorld [] (.compose (onceDemo "normalize2" dashTok)) (demoLuck 2 1) = .tokens [id' "a_b"] := by decide +kernel

/-- `y = concat(x, to_ident(to_ident(b))), z = b, { z y }`, and the same with one `to_ident`. -/
def twoDemo (twice : Bool) : Toks :=
  [id' "y", eq', id' "concat", paren [id' "x", comma, id' "to_ident", paren (if twice then [id' "to_ident", paren [id' "b"]] else [id' "b"])], comma,
    id' "z", eq', id' "b", comma, brace [id' "z", id' "y"]]

example : DefsBy (Within CastTwice) (definitions (demoParse (twoDemo true))) (definitions (demoParse (twoDemo false))) :=
  .cons _ (.call _ _ _ _ _ (by decide) (by decide) (fun _ => .value _ _ _) (.cons (.same (.value _ _ _)) (.cons (.here (.mk _ _ _ (.value _ _ _) .ident)) .nil)))
    (.cons _ (.same (.value _ _ _)) .nil)

example : (tree (demoParse (twoDemo false))).loops = (tree (demoParse (twoDemo true))).loops ∧ (demoParse (twoDemo false)).block = (demoParse (twoDemo true)).block ∧
    Reads demoWorld (.compose (twoDemo true)) (demoParse (twoDemo true)) ∧ Reads demoWorld (.compose (twoDemo false)) (demoParse (twoDemo false)) ∧
    Scheduled demoWorld [] (.compose (twoDemo true)) (demoLuck 2 1) ∧ Scheduled demoWorld [] (.compose (twoDemo false)) (demoLuck 2 1) :=
  ⟨rfl, rfl, reads_of_parse (ids := fun k => k) (k := 0) rfl, reads_of_parse (ids := fun k => k) (k := 0) rfl, demo_scheduled _ _ (by decide +kernel),
    demo_scheduled _ _ (by decide +kernel)⟩

example : output demoWorld [] (.compose (twoDemo true)) (demoLuck 2 1) = .tokens [id' "b", id' "xb"] ∧
    output demoWorld [] (.compose (twoDemo false)) (demoLuck 2 1) = .tokens [id' "b", id' "xb"] := by decide +kernel

example : output demoWorld [] (.compose (castDemo "to_path" "to_path" (id' "b"))) (demoLuck 2 1) = .tokens [id' "b"] ∧
    output demoWorld [] (.compose (onceDemo "to_path" (id' "b"))) (demoLuck 2 1) = .tokens [id' "b"] := by decide +kernel

example : ¬ Ext.demo.lexIdent (Ext.demo.lowerCamel (S "_")) = true ∧ Ext.demo.lexIdent (Ext.demo.lowerCamel (S "b_c")) = true ∧
    WordFunction (S "camel_case") Ext.lowerCamel := ⟨by decide, by decide, .camel⟩

end Verif.Props
