import Verif.Props.Whole
/-!
# Properties C80 and C81: laws of loops and blocks

Inputs which are written differently and have the same output: a loop over one value and a definition, nested loops and a loop over
tuples, a list of values and its parts, a block and its parts.
-/

namespace Verif.Props
open Verif Spec

/-! ## Lists -/

theorem mapRes_append {γ δ : Type} (f : γ → Res δ) (xs ys : List γ) :
    mapRes f (xs ++ ys) = (do let a ← mapRes f xs; let b ← mapRes f ys; .ok (a ++ b)) := by
  induction xs with
  | nil => simp only [List.nil_append, mapRes, Res.bind_eq, Res.bind_ok]; cases mapRes f ys <;> rfl
  | cons x xs ih =>
    simp only [List.cons_append, mapRes, ih, Res.bind_eq]
    cases f x with
    | err e => rfl
    | panic => rfl
    | ok y =>
      cases mapRes f xs with
      | err e => rfl
      | panic => rfl
      | ok ys' => cases mapRes f ys <;> rfl

theorem mapRes_congr_map {γ γ' δ : Type} {f : γ → Res δ} {g : γ' → Res δ} {k : γ → γ'} {xs : List γ} (h : ∀ x ∈ xs, f x = g (k x)) :
    mapRes f xs = mapRes g (xs.map k) := by
  induction xs with
  | nil => rfl
  | cons x xs ih =>
    simp only [List.map_cons, mapRes, h x List.mem_cons_self, ih fun y hy => h y (List.mem_cons_of_mem _ hy)]

theorem picks_append {γ : Type} (ss tt : List (List γ)) :
    picks (ss ++ tt) = (picks ss).flatMap fun xs => (picks tt).map fun ys => xs ++ ys := by
  induction ss with
  | nil => simp [picks]
  | cons s ss ih => simp [picks, ih, List.flatMap_assoc, List.flatMap_map, List.map_flatMap, Function.comp_def]

theorem flatMap_one {γ δ : Type} (f : γ → δ) (xs : List γ) : (xs.flatMap fun x => [f x]) = xs.map f := by
  induction xs with
  | nil => rfl
  | cons x xs ih => simp [ih]

/-! ## Loops -/

/-- The output depends only on what is bound in each iteration and on the block. -/
theorem output_of_bindings {W : World} {hist hist' : List (Invocation × Luck)} {inv inv' : Invocation} {l l' : Luck} {a a' : PAst}
    (hs : Scheduled W hist inv l) (ha : Reads W inv a) (hs' : Scheduled W hist' inv' l') (ha' : Reads W inv' a')
    (hal : SameSetting hist inv l a hist' inv' l' a') (hb : a'.block = a.block) (hi : iterations (tree a') = iterations (tree a)) :
    output W hist' inv' l' = output W hist inv l := by
  rw [setting_output hs' ha' hal, output_reads hs ha]
  unfold expansion
  rw [hi]
  have : (tree a').block = (tree a).block := hb
  rw [this]

abbrev Loops := List (LoopAlias Str × List (LoopSourceValue Expr))

theorem loopSpecItems_append {ls ms : Loops} {xs ys : List (LoopSourceValue Expr)} (hl : xs.length = ls.length) :
    loopSpecItems (ls ++ ms) (xs ++ ys) = (do let a ← loopSpecItems ls xs; let b ← loopSpecItems ms ys; .ok (a ++ b)) := by
  induction ls generalizing xs with
  | nil =>
    cases xs with
    | nil =>
      simp only [List.nil_append, loopSpecItems, Res.bind_eq, Res.bind_ok]
      cases loopSpecItems ms ys <;> rfl
    | cons => cases hl
  | cons l ls ih =>
    cases xs with
    | nil => cases hl
    | cons x xs =>
      simp only [List.cons_append, loopSpecItems, ih (by simpa using hl), Res.bind_eq]
      cases makeSpecItems l.1 x with
      | err e => rfl
      | panic => rfl
      | ok i =>
        cases loopSpecItems ls xs with
        | err e => rfl
        | panic => rfl
        | ok j =>
          cases loopSpecItems ms ys with
          | err e => rfl
          | panic => rfl
          | ok k => simp [Res.bind]

theorem mapRes_id {γ δ : Type} (f : γ → Res δ) (xs : List γ) : mapRes f xs = mapRes id (xs.map f) :=
  mapRes_congr_map (g := id) (k := f) fun _ _ => rfl

/-- What the loops bind in each iteration. -/
def bound (ls : Loops) : List (Res (List (Str × Expr))) := (picks (ls.map (·.2))).map (loopSpecItems ls)

/-- Bindings of the outer loops and of the inner loops. -/
def both (r s : Res (List (Str × Expr))) : Res (List (Str × Expr)) := do
  let a ← r
  let b ← s
  .ok (a ++ b)

theorem bound_append (ls ms : Loops) : bound (ls ++ ms) = (bound ls).flatMap fun r => (bound ms).map fun s => both r s := by
  unfold bound
  rw [List.map_append, picks_append, List.flatMap_map, List.map_flatMap]
  refine congrArg List.flatten (List.map_congr_left fun p hp => ?_)
  rw [List.map_map, List.map_map]
  refine List.map_congr_left fun q _ => ?_
  exact loopSpecItems_append (by simpa using picks_mem_length _ _ hp)

theorem bindings_bound {t : RawAst Str Expr (List Stmt)} {ls : Loops} (h : t.loops = some ls) (hn : ls ≠ []) :
    loopBindings t = mapRes id (bound ls) := by
  unfold loopBindings bound
  rw [h]
  have hm : ls.map (·.2) ≠ [] := by simpa using hn
  simp only [combinations, hm, if_false]
  exact mapRes_id _ _

/-- What simple loops bind. -/
theorem loopSpecItems_simple {ls : List (Str × List Expr)} {es : List Expr} (hl : es.length = ls.length) :
    loopSpecItems (ls.map fun x => (LoopAlias.simple x.1, x.2.map LoopSourceValue.value)) (es.map .value) =
      .ok (List.zip (ls.map (·.1)) es) := by
  induction ls generalizing es with
  | nil => rfl
  | cons l ls ih =>
    cases es with
    | nil => cases hl
    | cons e es => simp [loopSpecItems, makeSpecItems, ih (es := es) (by simpa using hl)]

theorem flat_vals {γ : Type} (xs : List γ) (n : Nat) (h : xs.length ≤ n) :
    Tup.leavesAux n (xs.map .val) = xs ∧ Tup.kindsAux n (xs.map .val) = List.replicate xs.length true := by
  induction xs generalizing n with
  | nil => cases n <;> exact ⟨rfl, rfl⟩
  | cons x xs ih =>
    cases n with
    | zero => simp at h
    | succ n =>
      obtain ⟨h1, h2⟩ := ih n (by simpa using h)
      simp [Tup.leavesAux, Tup.kindsAux, h1, h2, List.replicate_succ]

/-- What a loop over flat tuples binds. -/
theorem makeSpecItems_flat {xs : List Str} {es : List Expr} (hl : es.length = xs.length) :
    makeSpecItems (.tuple (xs.map .val)) (.tuple (es.map .val)) = .ok (List.zip xs es) := by
  have hx := flat_vals xs _ (by simpa using length_le_sizeL (xs.map Tup.val))
  have he := flat_vals es _ (by simpa using length_le_sizeL (es.map Tup.val))
  simp only [makeSpecItems, matchTuples_eq, Tup.kinds, Tup.leaves, hx.1, hx.2, he.1, he.2, hl]
  simp

/-! ## C80 -/

/-- **C80**: the innermost loop, if it is over one value, is a definition in front of the others. -/
theorem C80_one_value {W : World} {hist hist' : List (Invocation × Luck)} {inv inv' : Invocation} {l l' : Luck} {a a' : PAst}
    (hs : Scheduled W hist inv l) (ha : Reads W inv a) (hs' : Scheduled W hist' inv' l') (ha' : Reads W inv' a')
    (hal : SameSetting hist inv l a hist' inv' l' a') (hb : a'.block = a.block) {loops : Loops} {x : Str} {e : Expr}
    (hl : (tree a).loops = some (loops ++ [(.simple x, [.value e])]))
    (hl' : (tree a').loops = if loops = [] then none else some loops) (hd : definitions a' = (x, e) :: definitions a) :
    output W hist' inv' l' = output W hist inv l := by
  refine output_of_bindings hs ha hs' ha' hal hb ?_
  rw [iterations_eq, iterations_eq, hd]
  by_cases hn : loops = []
  · subst hn
    unfold loopBindings
    rw [hl, hl']
    simp [mapRes, combinations, picks, loopSpecItems, makeSpecItems, Res.map]
  · rw [if_neg hn] at hl'
    rw [bindings_bound hl' hn, bindings_bound hl (by simp), bound_append]
    have h1 : bound [(LoopAlias.simple x, [LoopSourceValue.value e])] = [.ok [(x, e)]] := rfl
    have h2 : ((bound loops).flatMap fun r => List.map (fun s => both r s) (bound [(LoopAlias.simple x, [LoopSourceValue.value e])])) =
        (bound loops).map fun r => (id r).map (· ++ [(x, e)]) := by
      rw [h1]
      simp only [List.map_cons, List.map_nil]
      rw [flatMap_one]
      refine List.map_congr_left fun r _ => ?_
      cases r <;> rfl
    rw [h2, ← mapRes_id (fun r => (id r).map (· ++ [(x, e)])) (bound loops), mapRes_map]
    cases mapRes id (bound loops) with
    | err e => rfl
    | panic => rfl
    | ok its => simp [Res.map]

/-- Several simple loops, one inside the other. -/
def simpleLoops (ls : List (Str × List Expr)) : Loops := ls.map fun x => (.simple x.1, x.2.map .value)

/-- One loop with a tuple of names, over the tuples of values of these loops. -/
def tupleLoop (ls : List (Str × List Expr)) : LoopAlias Str × List (LoopSourceValue Expr) :=
  (.tuple (ls.map fun x => .val x.1), (picks (ls.map (·.2))).map fun es => .tuple (es.map .val))

theorem bound_tupleLoop (ls : List (Str × List Expr)) : bound [tupleLoop ls] = bound (simpleLoops ls) := by
  have h1 : picks ((simpleLoops ls).map (·.2)) = (picks (ls.map (·.2))).map (·.map .value) := by
    rw [← picks_map]
    simp [simpleLoops, Function.comp_def]
  have h2 : picks ([tupleLoop ls].map (·.2)) = (picks (ls.map (·.2))).map fun es => [.tuple (es.map .val)] := by
    simp [picks, tupleLoop, List.flatMap_map, flatMap_one]
  unfold bound
  rw [h1, h2, List.map_map, List.map_map]
  refine List.map_congr_left fun es he => ?_
  have hl : es.length = ls.length := by simpa using picks_mem_length _ _ he
  simp only [Function.comp_apply]
  rw [simpleLoops, loopSpecItems_simple hl]
  have h3 := makeSpecItems_flat (xs := ls.map (·.1)) (es := es) (by simpa using hl)
  rw [List.map_map] at h3
  simp only [loopSpecItems, tupleLoop]
  simp only [Function.comp_def] at h3
  simp [h3]

/-- **C80**: adjacent loops over single values are the same as one loop over the tuples of these values. -/
theorem C80_tuples {W : World} {hist hist' : List (Invocation × Luck)} {inv inv' : Invocation} {l l' : Luck} {a a' : PAst}
    (hs : Scheduled W hist inv l) (ha : Reads W inv a) (hs' : Scheduled W hist' inv' l') (ha' : Reads W inv' a')
    (hal : SameSetting hist inv l a hist' inv' l' a') (hb : a'.block = a.block) {outer inner : Loops} {ls : List (Str × List Expr)}
    (hne : ls ≠ []) (hl : (tree a).loops = some (outer ++ simpleLoops ls ++ inner))
    (hl' : (tree a').loops = some (outer ++ [tupleLoop ls] ++ inner)) (hd : definitions a' = definitions a) :
    output W hist' inv' l' = output W hist inv l := by
  refine output_of_bindings hs ha hs' ha' hal hb ?_
  have hn : simpleLoops ls ≠ [] := by simpa [simpleLoops] using hne
  rw [iterations_eq, iterations_eq, hd, bindings_bound hl (by simp [hn]), bindings_bound hl' (by simp), bound_append, bound_append,
    bound_append, bound_append, bound_tupleLoop]

theorem tokens_join {r s : Res Toks} {ts : Toks} : (joinAll [r, s] = .ok ts) ↔ ∃ t u, r = .ok t ∧ s = .ok u ∧ ts = t ++ u := by
  cases r <;> cases s <;> simp [joinAll, Res.map, eq_comm]

theorem ofRes_tokens {r : Res Toks} {ts : Toks} : Output.ofRes r = .tokens ts ↔ r = .ok ts := by
  cases r <;> simp [Output.ofRes]

theorem joinAll_append (rs ss : List (Res Toks)) : joinAll (rs ++ ss) = joinAll [joinAll rs, joinAll ss] := by
  induction rs with
  | nil => cases h : joinAll ss <;> simp [joinAll, Res.map, h]
  | cons r rs ih =>
    cases r with
    | err e => rfl
    | panic => rfl
    | ok t =>
      simp only [List.cons_append, joinAll, ih]
      cases joinAll rs with
      | err e => rfl
      | panic => rfl
      | ok u => cases joinAll ss <;> simp [joinAll, Res.map]

theorem expansion_ok {W : World} {env : Env} {sv : Service} {t : RawAst Str Expr (List Stmt)} {ts : Toks} :
    expansion W env sv t = .ok ts ↔ ∃ its, iterations t = .ok its ∧ joinAll (its.map (copyOf W env sv t.block)) = .ok ts := by
  unfold expansion
  cases iterations t <;> simp

theorem iterations_ok {a : PAst} {its : List (List (Str × Expr))} :
    iterations (tree a) = .ok its ↔ ∃ bs, loopBindings (tree a) = .ok bs ∧ its = bs.map (· ++ definitions a) := by
  rw [iterations_eq]
  cases loopBindings (tree a) <;> simp [Res.map, eq_comm]

/-- **C80**: the list of values of the outermost loop may be cut in two: the code for the whole is the code for the first part followed
by the code for the second. -/
theorem C80_parts {W : World} {hist hist1 hist2 : List (Invocation × Luck)} {inv inv1 inv2 : Invocation} {l l1 l2 : Luck} {a a1 a2 : PAst}
    (hs : Scheduled W hist inv l) (ha : Reads W inv a) (hs1 : Scheduled W hist1 inv1 l1) (ha1 : Reads W inv1 a1)
    (hs2 : Scheduled W hist2 inv2 l2) (ha2 : Reads W inv2 a2)
    (hal1 : SameSetting hist inv l a hist1 inv1 l1 a1) (hal2 : SameSetting hist inv l a hist2 inv2 l2 a2)
    (hb1 : a1.block = a.block) (hb2 : a2.block = a.block) (hd1 : definitions a1 = definitions a) (hd2 : definitions a2 = definitions a)
    {al : LoopAlias Str} {vs ws : List (LoopSourceValue Expr)} {inner : Loops} (hl : (tree a).loops = some ((al, vs ++ ws) :: inner))
    (hl1 : (tree a1).loops = some ((al, vs) :: inner)) (hl2 : (tree a2).loops = some ((al, ws) :: inner)) (ts : Toks) :
    output W hist inv l = .tokens ts ↔
      ∃ t u, output W hist1 inv1 l1 = .tokens t ∧ output W hist2 inv2 l2 = .tokens u ∧ ts = t ++ u := by
  rw [setting_output hs1 ha1 hal1, setting_output hs2 ha2 hal2, output_reads hs ha]
  simp only [ofRes_tokens, expansion_ok, iterations_ok, hd1, hd2, bindings_bound hl (by simp), bindings_bound hl1 (by simp),
    bindings_bound hl2 (by simp)]
  have hbb : bound ((al, vs ++ ws) :: inner) = bound ((al, vs) :: inner) ++ bound ((al, ws) :: inner) := by
    rw [← List.singleton_append, ← List.singleton_append (x := (al, vs)), ← List.singleton_append (x := (al, ws)),
      bound_append, bound_append, bound_append, ← List.flatMap_append]
    congr 1
    have hx : ∀ us vs : List (LoopSourceValue Expr), (loopSpecItems [(al, us)] ∘ fun x => [x]) = (loopSpecItems [(al, vs)] ∘ fun x => [x]) :=
      fun _ _ => rfl
    simp only [bound, picks, flatMap_one, List.map_cons, List.map_nil, List.map_append, List.map_map]
    rw [hx (vs ++ ws) vs, hx ws vs]
  have e1 : (tree a1).block = (tree a).block := hb1
  have e2 : (tree a2).block = (tree a).block := hb2
  rw [hbb, mapRes_append, e1, e2]
  constructor
  · rintro ⟨_, ⟨bs, h, rfl⟩, hj⟩
    obtain ⟨b1, h1, h⟩ := Res.bind_eq_ok.1 h
    obtain ⟨b2, h2, h⟩ := Res.bind_eq_ok.1 h
    cases h
    rw [List.map_append, List.map_append, joinAll_append, tokens_join] at hj
    obtain ⟨t, u, h3, h4, rfl⟩ := hj
    exact ⟨t, u, ⟨_, ⟨b1, h1, rfl⟩, h3⟩, ⟨_, ⟨b2, h2, rfl⟩, h4⟩, rfl⟩
  · rintro ⟨t, u, ⟨_, ⟨b1, h1, rfl⟩, h3⟩, ⟨_, ⟨b2, h2, rfl⟩, h4⟩, rfl⟩
    refine ⟨_, ⟨b1 ++ b2, by rw [h1, h2]; rfl, rfl⟩, ?_⟩
    rw [List.map_append, List.map_append, joinAll_append, tokens_join]
    exact ⟨t, u, h3, h4, rfl⟩

/-! ## C81 -/

section
variable {E : Ext} {G : Grammar} {subs : Subs}

theorem visitStmts_step (s : Stmt) (c : List Stmt) : visitStmts E G subs (s :: c) none =
    match visitStmt E G subs s none with
    | .ok (new, none) =>
      (match visitStmts E G subs c none with
       | .ok (rest, err) => .ok (new ++ rest, err)
       | .err e => .err e
       | .panic => .panic)
    | .ok (new, some e) => .ok (new ++ c, some e)
    | .err e => .err e
    | .panic => .panic := by
  rw [visitStmts]
  simp only [bind, StateT.bind, pure, VisitM.failed]
  cases visitStmt E G subs s none with
  | err e => rfl
  | panic => rfl
  | ok r =>
    obtain ⟨new, err⟩ := r
    cases err with
    | some e => rfl
    | none =>
      simp only [Res.bind, Option.isSome_none, Bool.false_eq_true, if_false, StateT.bind, bind]
      cases visitStmts E G subs c none <;> rfl

theorem visitStmts_append (b c : List Stmt) : visitStmts E G subs (b ++ c) none =
    match visitStmts E G subs b none with
    | .ok (new, none) =>
      (match visitStmts E G subs c none with
       | .ok (rest, err) => .ok (new ++ rest, err)
       | .err e => .err e
       | .panic => .panic)
    | .ok (new, some e) => .ok (new ++ c, some e)
    | .err e => .err e
    | .panic => .panic := by
  induction b with
  | nil =>
    have : visitStmts E G subs [] none = .ok ([], none) := by rw [visitStmts]; rfl
    rw [this]
    simp only [List.nil_append]
    cases visitStmts E G subs c none <;> rfl
  | cons s b ih =>
    rw [List.cons_append, visitStmts_step, visitStmts_step, ih]
    cases visitStmt E G subs s none with
    | err e => rfl
    | panic => rfl
    | ok r =>
      obtain ⟨new, err⟩ := r
      cases err with
      | some e => simp
      | none =>
        simp only
        cases visitStmts E G subs b none with
        | err e => rfl
        | panic => rfl
        | ok r =>
          obtain ⟨rest, err⟩ := r
          cases err with
          | some e => simp
          | none => cases visitStmts E G subs c none <;> simp

/-- A block is rewritten statement by statement. -/
theorem visitBlock_append (b c : List Stmt) : visitBlock E G subs (b ++ c) =
    (do let s ← visitBlock E G subs b; let t ← visitBlock E G subs c; .ok (s ++ t)) := by
  unfold visitBlock
  rw [visitStmts_append]
  cases visitStmts E G subs b none with
  | err e => rfl
  | panic => rfl
  | ok r =>
    obtain ⟨new, err⟩ := r
    cases err with
    | some e => rfl
    | none =>
      simp only [Res.bind_eq, Res.bind_ok]
      cases visitStmts E G subs c none with
      | err e => rfl
      | panic => rfl
      | ok r =>
        obtain ⟨rest, err⟩ := r
        cases err <;> rfl
end

theorem stmtsCst_append (sites : Sites) (b c : List Stmt) : stmtsCst sites (b ++ c) = stmtsCst sites b ++ stmtsCst sites c := by
  induction b with
  | nil => simp [stmtsCst]
  | cons s b ih => simp [stmtsCst, ih]

theorem cstsPrint_append (b c : List Cst) : cstsPrint (b ++ c) = cstsPrint b ++ cstsPrint c := by
  induction b with
  | nil => simp [cstsPrint]
  | cons s b ih => simp [cstsPrint, ih]

theorem copyOf_append {W : World} {env : Env} {sv : Service} (hw : sv.warnings = []) {b c : List Stmt} {defs : List (Str × Expr)} :
    copyOf W env sv (b ++ c) defs = joinAll [copyOf W env sv b defs, copyOf W env sv c defs] := by
  unfold copyOf
  cases outcome W.E env defs with
  | err e => rfl
  | panic => rfl
  | ok vs =>
    simp only [visitBlock_append, Res.bind_eq]
    cases visitBlock W.E W.Y.toGrammar vs b with
    | err e => rfl
    | panic => rfl
    | ok s =>
      cases visitBlock W.E W.Y.toGrammar vs c with
      | err e => rfl
      | panic => rfl
      | ok t => simp [joinAll, Res.map, Res.bind, Service.emit, hw, stmtsCst_append, cstsPrint_append]

/-- **C81**: without loops and warnings a block can be cut in two: the output for the whole is that for the first part followed by that
for the second; if one of them fails, the first failure is the output. -/
theorem C81_block {W : World} {hist hist1 hist2 : List (Invocation × Luck)} {inv inv1 inv2 : Invocation} {l l1 l2 : Luck} {a a1 a2 : PAst}
    (hs : Scheduled W hist inv l) (ha : Reads W inv a) (hs1 : Scheduled W hist1 inv1 l1) (ha1 : Reads W inv1 a1)
    (hs2 : Scheduled W hist2 inv2 l2) (ha2 : Reads W inv2 a2)
    (hal1 : SameSetting hist inv l a hist1 inv1 l1 a1) (hal2 : SameSetting hist inv l a hist2 inv2 l2 a2)
    (hb : a.block = a1.block ++ a2.block) (hd1 : definitions a1 = definitions a) (hd2 : definitions a2 = definitions a)
    (hl : (tree a).loops = none) (hl1 : (tree a1).loops = none) (hl2 : (tree a2).loops = none) (hw : withSemicolons a.spec = false) :
    output W hist inv l = joinOutputs [output W hist1 inv1 l1, output W hist2 inv2 l2] := by
  rw [setting_output hs1 ha1 hal1, setting_output hs2 ha2 hal2, output_reads hs ha, expansion_once hl, expansion_once hl1,
    expansion_once hl2, hb, hd1, hd2, hw, copyOf_append rfl]
  exact (joinOutputs_ofRes [_, _]).symm

/-! ## C61: adding a definition -/

theorem outcome_add {E : Ext} {env : Env} (henv : env.funcs = builtinFuncs) {pre post : List (Str × Expr)} {n : Str} {e : Expr}
    (hu : n ∉ usedIn post) (hn : n ∉ post.map (·.1)) {vs r : Subs} (h : outcome E env (pre ++ post) = .ok vs)
    (hr : outcome E env (pre ++ [(n, e)]) = .ok r) :
    ∃ vs' : Subs, outcome E env (pre ++ (n, e) :: post) = .ok vs' ∧ ∀ m, m ≠ n → vs'.get m = vs.get m := by
  obtain ⟨ws, us, h0, rfl⟩ := outcome_prefix h
  obtain ⟨v, rfl, hnp⟩ := outcome_one henv h0 hr
  have hne : ∀ m, m ∈ usedIn post ∨ m ∈ post.map (·.1) → m ≠ n := by
    rintro m (hm | hm) rfl
    · exact hu hm
    · exact hn hm
  have hget : ∀ m, m ≠ n → Subs.get ws m = Subs.get (ws ++ [(n, v)]) m := by
    intro m hm
    rw [Subs.get_append]
    have hx : Subs.get [(n, v)] m = none := Subs.get_eq_none.2 (by simpa using hm)
    rw [hx]
    simp
  obtain ⟨o, h1, h2⟩ := outcome_post henv (post := post) h0 hr fun m hm => hget m (hne m hm)
  rw [h] at h1
  cases o with
  | err x => cases h1
  | panic => cases h1
  | ok xs =>
    have h3 : us = xs := by simpa [Res.bind] using h1
    subst h3
    refine ⟨_, by simpa using h2, fun m hm => ?_⟩
    have h4 : ws ++ (n, v) :: us = ws ++ [(n, v)] ++ us := by simp
    rw [h4, Subs.get_append, ← hget m hm, Subs.get_append]

/-- Code comes from the copies of all iterations. -/
theorem output_tokens_iff {W : World} {hist hist' : List (Invocation × Luck)} {inv inv' : Invocation} {l l' : Luck} {a a' : PAst}
    (hs' : Scheduled W hist' inv' l') (ha' : Reads W inv' a') (hal : SameSetting hist inv l a hist' inv' l' a') {ts : Toks} :
    output W hist' inv' l' = .tokens ts ↔ ∃ (bs : List (List (Str × Expr))) (cs : List Toks), loopBindings (tree a') = .ok bs ∧ ts = cs.flatten ∧
      bs.map (fun b => copyOf W (Env.builtin (l.ids 0)) (serviceFor (macroPrefix (firstOn hist inv)) (withSemicolons a.spec)) a'.block
        (b ++ definitions a')) = cs.map .ok := by
  rw [setting_output hs' ha' hal, ofRes_tokens, expansion_ok]
  simp only [iterations_ok]
  constructor
  · rintro ⟨_, ⟨bs, h1, rfl⟩, h2⟩
    obtain ⟨cs, h3, rfl⟩ := joinAll_ok h2
    rw [List.map_map] at h3
    exact ⟨bs, cs, h1, rfl, h3⟩
  · rintro ⟨bs, cs, h1, rfl, h3⟩
    refine ⟨_, ⟨bs, h1, rfl⟩, ?_⟩
    rw [List.map_map]
    exact (congrArg joinAll h3).trans (joinAll_map_ok cs)

/-- **C61**: a definition can be added whose name is not defined or used after it, nor used in the block, provided that it makes sense
where it stands: an invocation (with whatever block) in which it is the last definition gives code. -/
theorem C61_added {W : World} {hist hist' hist1 : List (Invocation × Luck)} {inv inv' inv1 : Invocation} {l l' l1 : Luck} {a a' a1 : PAst}
    (hs : Scheduled W hist inv l) (ha : Reads W inv a) (hs' : Scheduled W hist' inv' l') (ha' : Reads W inv' a')
    (hs1 : Scheduled W hist1 inv1 l1) (ha1 : Reads W inv1 a1)
    (hal : SameSetting hist inv l a hist' inv' l' a') (hal1 : SameSetting hist inv l a hist1 inv1 l1 a1)
    (hl : (tree a').loops = (tree a).loops) (hl1 : (tree a1).loops = (tree a).loops) (hb : a'.block = a.block)
    {n : Str} {e : Expr} {d1 d2 : List (Str × Expr)} (hd : definitions a = d1 ++ d2) (hd' : definitions a' = d1 ++ (n, e) :: d2)
    (hd1 : definitions a1 = d1 ++ [(n, e)]) (hn : n ∉ usedIn d2) (hn' : n ∉ d2.map (·.1))
    (hu : ¬ UsedInBlock W.E.toCharClass n a.block) {ts us : Toks} (h : output W hist inv l = .tokens ts)
    (h1 : output W hist1 inv1 l1 = .tokens us) : output W hist' inv' l' = .tokens ts := by
  have hself : SameSetting hist inv l a hist inv l a := ⟨.inl rfl, rfl, .inr rfl⟩
  obtain ⟨bs, cs, e1, rfl, e2⟩ := (output_tokens_iff hs ha hself).1 h
  obtain ⟨bs', cs', e3, -, e4⟩ := (output_tokens_iff hs1 ha1 hal1).1 h1
  have x1 : loopBindings (tree a1) = loopBindings (tree a) := by unfold loopBindings; rw [hl1]
  have x2 : loopBindings (tree a') = loopBindings (tree a) := by unfold loopBindings; rw [hl]
  rw [x1, e1] at e3
  cases e3
  refine (output_tokens_iff hs' ha' hal).2 ⟨bs, cs, x2.trans e1, rfl, ?_⟩
  rw [← e2]
  refine List.map_congr_left fun b hbs => ?_
  have ok : ∀ {f : List (Str × Expr) → Res Toks} {cs : List Toks}, bs.map f = cs.map .ok → ∃ c, f b = .ok c := by
    intro f cs hf
    have := List.mem_map_of_mem (f := f) hbs
    rw [hf, List.mem_map] at this
    obtain ⟨c, -, hc⟩ := this
    exact ⟨c, hc.symm⟩
  obtain ⟨c, hc⟩ := ok e2
  obtain ⟨c1, hc1⟩ := ok e4
  obtain ⟨vs, stmts, k1, k2, rfl⟩ := copyOf_ok.1 hc
  obtain ⟨vs1, stmts1, k3, -, -⟩ := copyOf_ok.1 hc1
  rw [hd, ← List.append_assoc] at k1
  rw [hd1, ← List.append_assoc] at k3
  obtain ⟨vs', k4, k5⟩ := outcome_add (E := W.E) (env := Env.builtin (l.ids 0)) rfl hn hn' k1 k3
  rw [hc]
  refine copyOf_ok.2 ⟨vs', stmts, by rw [hd', ← List.append_assoc]; exact k4, ?_, rfl⟩
  rw [hb, ← k2]
  refine visitBlock_local _ fun p hp => agreeOn_of_get fun m hm => k5 m ?_
  rintro rfl
  exact hu ⟨p, hp, hm⟩

/-! ## Examples -/


def listOf (ts : Toks) : Tok := .group .bracket ts

/-- `for x in [vs] y = concat(x, 1), { struct y {} }` -/
def demoOver (vs : Toks) : Toks := demoLoop.set 3 (listOf vs)

/-- A loop over one value. -/
example : ∃ x e, Reads demoWorld (.compose (demoOver [id' "a"])) (demoParse (demoOver [id' "a"])) ∧
    Reads demoWorld (.compose (demoOnce "a")) (demoParse (demoOnce "a")) ∧
    (tree (demoParse (demoOver [id' "a"]))).loops = some ([] ++ [(.simple x, [.value e])]) ∧
    (tree (demoParse (demoOnce "a"))).loops = none ∧
    definitions (demoParse (demoOnce "a")) = (x, e) :: definitions (demoParse (demoOver [id' "a"])) ∧
    SameSetting [] (.compose (demoOver [id' "a"])) (demoLuck 2 1) (demoParse (demoOver [id' "a"])) [] (.compose (demoOnce "a")) (demoLuck 2 1)
      (demoParse (demoOnce "a")) :=
  ⟨_, _, reads_of_parse (ids := fun k => k) (k := 0) rfl, reads_of_parse (ids := fun k => k) (k := 0) rfl, rfl, rfl, rfl,
    .inl rfl, rfl, .inl rfl⟩

example : output demoWorld [] (.compose (demoOnce "a")) (demoLuck 2 1) = output demoWorld [] (.compose (demoOver [id' "a"])) (demoLuck 2 1) ∧
    output demoWorld [] (.compose (demoOnce "a")) (demoLuck 2 1) = .tokens [id' "struct", id' "a1", brace []] := by decide +kernel

/-- `y = concat(x, z), { struct y {} }` -/
def demoTail : Toks := [id' "y", eq', id' "concat", paren [id' "x", comma, id' "z"], comma, brace [id' "struct", id' "y", brace []]]

/-- `for x in [a, b] for z in [c, d] y = concat(x, z), { struct y {} }` -/
def demoNested : Toks := [id' "for", id' "x", id' "in", listOf [id' "a", comma, id' "b"], id' "for", id' "z", id' "in",
  listOf [id' "c", comma, id' "d"]] ++ demoTail

/-- `for (x, z) in [(a, c), (a, d), (b, c), (b, d)] y = concat(x, z), { struct y {} }` -/
def demoPairs : Toks := [id' "for", paren [id' "x", comma, id' "z"], id' "in", listOf [paren [id' "a", comma, id' "c"], comma,
  paren [id' "a", comma, id' "d"], comma, paren [id' "b", comma, id' "c"], comma, paren [id' "b", comma, id' "d"]]] ++ demoTail

/-- Nested loops and a loop over tuples. -/
example : ∃ ls, Reads demoWorld (.compose demoNested) (demoParse demoNested) ∧ Reads demoWorld (.compose demoPairs) (demoParse demoPairs) ∧
    ls.length = 2 ∧ (tree (demoParse demoNested)).loops = some ([] ++ simpleLoops ls ++ []) ∧
    (tree (demoParse demoPairs)).loops = some ([] ++ [tupleLoop ls] ++ []) ∧
    definitions (demoParse demoPairs) = definitions (demoParse demoNested) ∧ (demoParse demoPairs).block = (demoParse demoNested).block :=
  ⟨[(S "x", [.value 0 (.ident (S "a")), .value 0 (.ident (S "b"))]), (S "z", [.value 0 (.ident (S "c")), .value 0 (.ident (S "d"))])],
    reads_of_parse (ids := fun k => k) (k := 0) rfl, reads_of_parse (ids := fun k => k) (k := 0) rfl, rfl, rfl, rfl, rfl, rfl⟩

example : output demoWorld [] (.compose demoPairs) (demoLuck 2 1) = output demoWorld [] (.compose demoNested) (demoLuck 2 1) ∧
    output demoWorld [] (.compose demoPairs) (demoLuck 2 1) = .tokens [id' "struct", id' "ac", brace [], id' "struct", id' "ad", brace [],
      id' "struct", id' "bc", brace [], id' "struct", id' "bd", brace []] := by decide +kernel

/-- A list of values in two parts. -/
example : ∃ al vs ws, (tree (demoParse demoLoop)).loops = some ((al, vs ++ ws) :: []) ∧
    (tree (demoParse (demoOver [id' "a"]))).loops = some ((al, vs) :: []) ∧ (tree (demoParse (demoOver [id' "b"]))).loops = some ((al, ws) :: []) ∧
    vs ≠ [] ∧ ws ≠ [] :=
  ⟨.simple (S "x"), [.value (.value 0 (.ident (S "a")))], [.value (.value 0 (.ident (S "b")))], rfl, rfl, rfl, by simp, by simp⟩

/-- Structs without fields, one after the other. -/
def demoMany : Toks → List Stmt
  | .ident s :: .ident n :: .group .brace [] :: ts => demoStmts [.ident s, .ident n, .group .brace []] ++ demoMany ts
  | [] => []
  | ts => [.other ts]

def manyWorld : World := ⟨Ext.demo, { Syn.demo with parseBlock := fun ts => some (demoMany ts) }, noSites⟩

/-- `y = a, { b }` -/
def demoWith (b : Toks) : Toks := [id' "y", eq', id' "a", comma, brace b]

def manyParse (ts : Toks) : PAst :=
  match (parseArgs manyWorld.Y isBuiltin (fun k => k) 0 (some demoService) (.compose ts)).1 with
  | .ok a => a
  | _ => ⟨0, none, none, []⟩

def structY : Toks := [id' "struct", id' "y", brace []]
def structZ : Toks := [id' "struct", id' "z", brace []]

/-- A block of two items. -/
example : Reads manyWorld (.compose (demoWith (structY ++ structZ))) (manyParse (demoWith (structY ++ structZ))) ∧
    (manyParse (demoWith (structY ++ structZ))).block = (manyParse (demoWith structY)).block ++ (manyParse (demoWith structZ)).block ∧
    definitions (manyParse (demoWith structY)) = definitions (manyParse (demoWith (structY ++ structZ))) ∧
    withSemicolons (manyParse (demoWith (structY ++ structZ))).spec = false ∧
    output manyWorld [] (.compose (demoWith (structY ++ structZ))) (demoLuck 2 1) =
      joinOutputs [output manyWorld [] (.compose (demoWith structY)) (demoLuck 2 1), output manyWorld [] (.compose (demoWith structZ)) (demoLuck 2 1)] ∧
    output manyWorld [] (.compose (demoWith (structY ++ structZ))) (demoLuck 2 1) =
      .tokens [id' "struct", id' "a", brace [], id' "struct", id' "z", brace []] :=
  ⟨reads_of_parse (ids := fun k => k) (k := 0) rfl, rfl, rfl, rfl, by decide +kernel, by decide +kernel⟩

/-- With loops it is not so: the copies of the whole block follow each other. -/
example : output manyWorld [] (.compose ((demoOver [id' "a", comma, id' "b"]).set 9 (brace (structY ++ structZ)))) (demoLuck 2 1) ≠
      joinOutputs [output manyWorld [] (.compose ((demoOver [id' "a", comma, id' "b"]).set 9 (brace structY))) (demoLuck 2 1),
        output manyWorld [] (.compose ((demoOver [id' "a", comma, id' "b"]).set 9 (brace structZ))) (demoLuck 2 1)] := by decide +kernel

/-- `x = a, z = q, { }` gives code (here none), so that `z = q` can be added to `x = a, y = concat(x, 1), { struct y {} }`. -/
example : definitions (demoParse [id' "x", eq', id' "a", comma, id' "z", eq', id' "q", comma, brace []]) =
      [(S "x", .value 0 (.ident (S "a")))] ++ [(S "z", .value 0 (.ident (S "q")))] ∧
    (∃ e, definitions (demoParse (demoOnce "a")) = [(S "x", .value 0 (.ident (S "a")))] ++ [(S "y", e)] ∧
      definitions (demoParse demoMoved) = [(S "x", .value 0 (.ident (S "a")))] ++ (S "z", .value 0 (.ident (S "q"))) :: [(S "y", e)] ∧
      S "z" ∉ usedIn [(S "y", e)]) ∧
    output demoWorld [] (.compose [id' "x", eq', id' "a", comma, id' "z", eq', id' "q", comma, brace []]) (demoLuck 2 1) = .tokens [] ∧
    output demoWorld [] (.compose demoMoved) (demoLuck 2 1) = output demoWorld [] (.compose (demoOnce "a")) (demoLuck 2 1) :=
  ⟨rfl, ⟨_, rfl, rfl, by decide⟩, by decide +kernel, by decide +kernel⟩

end Verif.Props
