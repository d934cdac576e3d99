import Verif.Props.Failures
import Verif.Props.WhenCode
import Verif.Props.Exact
import Verif.Proofs.First
/-!
# Of several mistakes, which one is reported (C94)

C65 says that what an error says is the case. An input can have many mistakes, and only one is reported. Here is, for every error, exactly when it is
the one which is reported.
-/

namespace Verif.Props
open Verif Spec

/-! ## Loops -/

section Loops
variable {α ε : Type}

/-- `Refused a v w`: the value cannot be bound to the loop variable. (Tuples of different shapes with values and tuples at the same positions, read level
by level, can; see C42.) -/
def Refused (a : LoopAlias α) (v : LoopSourceValue ε) (w : Mismatch) : Prop :=
  Unmatched a v w ∧ ∀ as es, a = .tuple as → v = .tuple es → (byLevels as).map Option.isSome ≠ (byLevels es).map Option.isSome

/-- `Clash ls vs w`: the first of the loops whose variable does not fit its value. -/
inductive Clash : List (LoopAlias α × List (LoopSourceValue ε)) → List (LoopSourceValue ε) → Mismatch → Prop
  | here {l : LoopAlias α × List (LoopSourceValue ε)} {ls : List (LoopAlias α × List (LoopSourceValue ε))} {v : LoopSourceValue ε}
      {vs : List (LoopSourceValue ε)} {w : Mismatch} (h : Refused l.1 v w) : Clash (l :: ls) (v :: vs) w
  | later {l : LoopAlias α × List (LoopSourceValue ε)} {ls : List (LoopAlias α × List (LoopSourceValue ε))} {v : LoopSourceValue ε}
      {vs : List (LoopSourceValue ε)} {w : Mismatch} (h : ∀ w', ¬ Refused l.1 v w') (hs : Clash ls vs w) : Clash (l :: ls) (v :: vs) w

/-- The combinations of loop values up to the first which cannot be bound: nothing of the definitions or the code has been looked at by then. -/
def FirstMismatch (loops : List (LoopAlias α × List (LoopSourceValue ε))) (w : Mismatch) : Prop :=
  ∃ pre vals post, combinations (loops.map (·.2)) = pre ++ vals :: post ∧ (∀ vs ∈ pre, ∀ w', ¬ Clash loops vs w') ∧ Clash loops vals w

theorem unmatched_unique {a : LoopAlias α} {v : LoopSourceValue ε} {w w' : Mismatch} (h : Unmatched a v w) (h' : Unmatched a v w') : w = w' := by
  cases h <;> cases h' <;> first | rfl | contradiction

theorem makeSpecItems_iff {a : LoopAlias α} {v : LoopSourceValue ε} {x : Err} :
    makeSpecItems a v = .err x ↔ ∃ w, Refused a v w ∧ x = .typeError w := by
  constructor
  · intro h
    obtain ⟨w, rfl, hw⟩ := makeSpecItems_err h
    refine ⟨w, ⟨hw, ?_⟩, rfl⟩
    rintro as es rfl rfl hl
    rw [(C42_exact as es _).2 ⟨hl, rfl⟩] at h
    cases h
  · rintro ⟨w, ⟨hw, hl⟩, rfl⟩
    cases hm : makeSpecItems a v with
    | ok items =>
      exfalso
      cases hw with
      | simple => cases hm
      | tuple => cases hm
      | size as es => exact hl as es rfl rfl ((C42_exact as es _).1 hm).1
      | shape as es => exact hl as es rfl rfl ((C42_exact as es _).1 hm).1
    | err y =>
      obtain ⟨w', rfl, hw'⟩ := makeSpecItems_err hm
      rw [unmatched_unique hw hw']
    | panic =>
      have := loopSpecItems_no_panic [(a, [v])] [v]
      simp [loopSpecItems, hm] at this

theorem clash_iff : ∀ {ls : List (LoopAlias α × List (LoopSourceValue ε))} {vs : List (LoopSourceValue ε)} {x : Err},
    loopSpecItems ls vs = .err x ↔ ∃ w, Clash ls vs w ∧ x = .typeError w
  | [], [], x => ⟨fun h => by (cases h), fun ⟨w, h, _⟩ => by (cases h)⟩
  | [], _ :: _, x => ⟨fun h => by (cases h), fun ⟨w, h, _⟩ => by (cases h)⟩
  | _ :: _, [], x => ⟨fun h => by (cases h), fun ⟨w, h, _⟩ => by (cases h)⟩
  | l :: ls, v :: vs, x => by
    have ih := clash_iff (ls := ls) (vs := vs) (x := x)
    simp only [loopSpecItems, Res.bind_eq]
    cases hm : makeSpecItems l.1 v with
    | panic =>
      have := loopSpecItems_no_panic [(l.1, [v])] [v]
      simp [loopSpecItems, hm] at this
    | err y =>
      obtain ⟨w, hw, rfl⟩ := makeSpecItems_iff.1 hm
      constructor
      · intro h
        cases h
        exact ⟨w, .here hw, rfl⟩
      · rintro ⟨w', h, rfl⟩
        cases h with
        | here h => rw [unmatched_unique hw.1 h.1]; rfl
        | later h => exact (h w hw).elim
    | ok items =>
      have hn : ∀ w', ¬ Refused l.1 v w' := fun w' h => by
        have := makeSpecItems_iff.2 ⟨w', h, rfl⟩
        rw [hm] at this
        cases this
      rw [Res.bind_ok]
      constructor
      · intro h
        cases h2 : loopSpecItems ls vs with
        | panic => rw [h2] at h; cases h
        | ok r => rw [h2] at h; cases h
        | err e =>
          rw [h2] at h ih
          cases h
          obtain ⟨w, hw, rfl⟩ := ih.1 rfl
          exact ⟨w, .later hn hw, rfl⟩
      · rintro ⟨w, h, rfl⟩
        cases h with
        | here h => exact (hn w h).elim
        | later _ h => rw [ih.2 ⟨w, h, rfl⟩]; rfl

theorem mapRes_err_iff {γ δ : Type} {f : γ → Res δ} {x : Err} : ∀ {xs : List γ},
    mapRes f xs = .err x ↔ ∃ pre y post, xs = pre ++ y :: post ∧ (∀ z ∈ pre, ∃ u, f z = .ok u) ∧ f y = .err x
  | [] => ⟨fun h => by (cases h), fun ⟨pre, y, post, h, _⟩ => by (simp at h)⟩
  | a :: xs => by
    have ih := mapRes_err_iff (f := f) (x := x) (xs := xs)
    simp only [mapRes, Res.bind_eq]
    cases ha : f a with
    | panic =>
      refine ⟨fun h => by (cases h), ?_⟩
      rintro ⟨pre, y, post, h, h1, h2⟩
      cases pre with
      | nil => cases h; rw [ha] at h2; cases h2
      | cons p pre => cases h; obtain ⟨u, hu⟩ := h1 a (by simp); rw [ha] at hu; cases hu
    | err e =>
      constructor
      · intro h
        cases h
        exact ⟨[], a, xs, rfl, by simp, ha⟩
      · rintro ⟨pre, y, post, h, h1, h2⟩
        cases pre with
        | nil => cases h; rw [ha] at h2; cases h2; rfl
        | cons p pre => cases h; obtain ⟨u, hu⟩ := h1 a (by simp); rw [ha] at hu; cases hu
    | ok u =>
      rw [Res.bind_ok]
      constructor
      · intro h
        have h' : mapRes f xs = .err x := by
          cases h2 : mapRes f xs with
          | panic => rw [h2] at h; cases h
          | ok r => rw [h2] at h; cases h
          | err e => rw [h2] at h; cases h; rfl
        obtain ⟨pre, y, post, rfl, h1, h2⟩ := ih.1 h'
        exact ⟨a :: pre, y, post, rfl, by simpa [ha] using h1, h2⟩
      · rintro ⟨pre, y, post, h, h1, h2⟩
        cases pre with
        | nil => cases h; rw [ha] at h2; cases h2
        | cons p pre =>
          cases h
          rw [ih.2 ⟨pre, y, post, rfl, fun z hz => h1 z (by simp [hz]), h2⟩]
          rfl

theorem expand_err_iff {β : Type} {a : RawAst α ε β} {x : Err} :
    expand a = .err x ↔ ∃ loops w, a.loops = some loops ∧ FirstMismatch loops w ∧ x = .typeError w := by
  cases hl : a.loops with
  | none => simp [expand, hl]
  | some ls =>
    rw [expand_loops_eq a ls hl, mapRes_err_iff]
    have hr : ∀ vs y, rewriteFor ls a.spec a.block vs = .err y ↔ ∃ w, Clash ls vs w ∧ y = .typeError w := by
      intro vs y
      rw [← clash_iff]
      unfold rewriteFor
      cases loopSpecItems ls vs <;> simp [Res.map]
    have ho : ∀ vs, (∃ u, rewriteFor ls a.spec a.block vs = .ok u) ↔ ∀ w, ¬ Clash ls vs w := by
      intro vs
      constructor
      · rintro ⟨u, hu⟩ w hw
        have := (hr vs _).2 ⟨w, hw, rfl⟩
        rw [hu] at this
        cases this
      · intro h
        cases hv : rewriteFor ls a.spec a.block vs with
        | ok u => exact ⟨u, rfl⟩
        | err y => obtain ⟨w, hw, -⟩ := (hr vs y).1 hv; exact (h w hw).elim
        | panic =>
          unfold rewriteFor at hv
          cases h2 : loopSpecItems ls vs with
          | panic => exact (loopSpecItems_no_panic ls vs h2).elim
          | ok r => rw [h2] at hv; cases hv
          | err e => rw [h2] at hv; cases hv
    constructor
    · rintro ⟨pre, vals, post, h1, h2, h3⟩
      obtain ⟨w, hw, rfl⟩ := (hr _ _).1 h3
      exact ⟨ls, w, rfl, ⟨pre, vals, post, h1, fun vs hv => (ho vs).1 (h2 vs hv), hw⟩, rfl⟩
    · rintro ⟨ls', w, hls, ⟨pre, vals, post, h1, h2, h3⟩, rfl⟩
      cases hls
      exact ⟨pre, vals, post, h1, fun vs hv => (ho vs).2 (h2 vs hv), (hr _ _).2 ⟨w, h3, rfl⟩⟩

end Loops

/-! ## Code -/

/-- `PieceBreaks valid look str node n`: after some of the replacements, made from left to right, the piece is no longer of its kind; the last alias
replaced by then is `n`. (If only strings have been replaced by then there is no error but a panic.) -/
def PieceBreaks (valid : Toks → Bool) (look : Str → Option Toks) (str : Str → Lit) (node : Toks) (n : Str) : Prop :=
  ∃ k, 1 ≤ k ∧ k ≤ (occAll look node).length ∧ valid (substFirst look str k node) = false ∧
    (∀ j, 1 ≤ j → j < k → valid (substFirst look str j node) = true) ∧ lastAlias look node k = some n

/-- `CodeBreaks`: the first piece which breaks. -/
def CodeBreaks (W : World) (fmt : Str → Str) (vs : Subs) (block : List Stmt) (n : Str) : Prop :=
  ∃ pre p post, stmtsParts block = pre ++ p :: post ∧
    (∀ q ∈ pre, StaysValid (validPart W.Y.toGrammar q.1) (valueToks vs) (litWith W.E fmt) q.2) ∧
    PieceBreaks (validPart W.Y.toGrammar p.1) (valueToks vs) (litWith W.E fmt) p.2 n

theorem piece_err_iff {E : Ext} {valid : Toks → Bool} {subs : Subs} {fmt : Str → Str} (hf : FormatsAll E subs fmt) (node : Toks) (x : Err) :
    substituteIdents E valid subs node = .err x ↔
      ∃ n v, PieceBreaks valid (valueToks subs) (litWith E fmt) node n ∧ List.lookup n subs = some v ∧ x = .substitution n (E.render v.toTokens) := by
  have hl : valueToks subs = lookToks subs := by funext n; simp [valueToks, codeOf_eq, lookToks, get_eq_lookup]
  rw [litWith_eq hf, hl]
  unfold substituteIdents PieceBreaks
  rw [walk_eq]
  rcases goList_checked (E := E) (valid := valid) (subs := subs) node id [] none with ⟨h1, h2⟩ | ⟨k, h1, h2, h3, h4, h5⟩
  · simp only [id_eq, List.nil_append] at h1
    rw [h2]
    simp only [Res.map, Res.bind_eq, Res.bind_ok]
    constructor
    · intro h
      split at h <;> cases h
    · rintro ⟨n, v, ⟨k, hk1, hk2, hk3, -⟩, -⟩
      rw [h1 k hk1 hk2] at hk3
      cases hk3
  · simp only [id_eq, List.nil_append] at h3 h4
    simp only [h5, stateAfter_lastAlias]
    have hn : ∀ n, lastAlias (lookToks subs) node k = some n → ∃ v, List.lookup n subs = some v ∧ (lookToks subs n).getD [] = v.toTokens := by
      intro n hl
      have hsome : (lookToks subs n).isSome := by
        have hmem := List.mem_of_getLast? hl
        obtain ⟨t, ht, hal⟩ := List.mem_filterMap.1 hmem
        refine occAll_alias _ _ t (List.mem_of_mem_take ht) n ?_
        cases t <;> simp [aliasOf] at hal
        rw [hal]
      simp only [lookToks, get_eq_lookup, Option.isSome_map] at hsome
      obtain ⟨v, hv⟩ := Option.isSome_iff_exists.1 hsome
      exact ⟨v, hv, by simp [lookToks, get_eq_lookup, hv]⟩
    constructor
    · intro h
      cases ha : lastAlias (lookToks subs) node k with
      | none => rw [ha] at h; cases h
      | some n =>
        rw [ha] at h
        obtain ⟨v, hv, hv'⟩ := hn n ha
        refine ⟨n, v, ⟨k, h1, h2, h3, h4, ha⟩, hv, ?_⟩
        cases h
        rw [hv']
    · rintro ⟨n, v, ⟨k', hk1, hk2, hk3, hk4, ha⟩, hv, rfl⟩
      have hkk : k' = k := by
        by_cases hlt : k' < k
        · rw [h4 k' hk1 hlt] at hk3; cases hk3
        · by_cases hgt : k < k'
          · rw [hk4 k h1 hgt] at h3; cases h3
          · omega
      subst hkk
      obtain ⟨v', hv', hv''⟩ := hn n ha
      rw [hv] at hv'
      cases hv'
      rw [ha]
      simp only [Option.map_some, failRes, Res.bind_eq, hv'']
      rfl

theorem code_err_iff {W : World} {vs : Subs} {fmt : Str → Str} (hf : FormatsAll W.E vs fmt) {block : List Stmt}
    (hb : StatementsParse W.Y.toGrammar block) (x : Err) :
    visitBlock W.E W.Y.toGrammar vs block = .err x ↔
      ∃ n v, CodeBreaks W fmt vs block n ∧ List.lookup n vs = some v ∧ x = .substitution n (W.E.render v.toTokens) := by
  constructor
  · intro h
    obtain ⟨pre, p, post, h1, h2, h3⟩ := C57_error_is_first hb h
    obtain ⟨n, v, h4, h5, rfl⟩ := (piece_err_iff hf _ _).1 h3
    exact ⟨n, v, ⟨pre, p, post, h1, fun q hq => (C88_piece hf _).1 (h2 q hq), h4⟩, h5, rfl⟩
  · rintro ⟨n, v, ⟨pre, p, post, h1, h2, h3⟩, hv, rfl⟩
    exact C57_first_error hb h1 (fun q hq => (C88_piece hf _).2 (h2 q hq)) ((piece_err_iff hf _ _).2 ⟨n, v, h3, hv, rfl⟩)

/-! ## An iteration -/

/-- `FirstFault W seed block defs x`: what is reported of an iteration. First come the types of all definitions, then their values, then the code. -/
inductive FirstFault (W : World) (seed : Nat) (block : List Stmt) (defs : List (Str × Expr)) : Err → Prop
  | types {x : Err} (ho : overflowsSpec builtinFuncs defs (fun _ => none) = false) (h : Illtyped builtinFuncs (fun _ => none) defs x) :
      FirstFault W seed block defs x
  | values {x : Err} (ho : overflowsSpec builtinFuncs defs (fun _ => none) = false) {tes : List (Str × TExpr)}
      (hc : checkSpec builtinFuncs defs (fun _ => none) = .ok tes) (h : DefsBreak W.E seed (fun _ => none) tes x) : FirstFault W seed block defs x
  | code {vs : List (Str × VKind)} (hv : outcome W.E (Env.builtin seed) defs = .ok vs) {fmt : Str → Str} (hf : FormatsAll W.E vs fmt)
      {n : Str} {v : VKind} (h : CodeBreaks W fmt vs block n) (hn : List.lookup n vs = some v) :
      FirstFault W seed block defs (.substitution n (W.E.render v.toTokens))

theorem copy_err_iff {W : World} {seed : Nat} {sv : Service} {block : List Stmt} (hb : StatementsParse W.Y.toGrammar block)
    {defs : List (Str × Expr)} {x : Err} (hx : ∀ n, x ≠ .undefinedFunction n) :
    copyOf W (Env.builtin seed) sv block defs = .err x ↔ FirstFault W seed block defs x := by
  constructor
  · intro h
    unfold copyOf at h
    split at h
    · rename_i vs hv
      split at h
      · cases h
      · rename_i y hy
        cases h
        obtain ⟨fmt, hf⟩ := formatting_exists W.E vs
        obtain ⟨n, v, h1, h2, rfl⟩ := (code_err_iff hf hb _).1 hy
        exact .code hv hf h1 h2
      · cases h
    · rename_i y hy
      cases h
      unfold outcome at hy
      split at hy
      · cases hy
      · rename_i ho
        replace ho : overflowsSpec builtinFuncs defs (fun _ => none) = false := Bool.eq_false_iff.2 ho
        unfold denote at hy
        split at hy
        · rename_i z hz
          cases hy
          exact .types ho (fails_illtyped hx hz)
        · rename_i tes hc
          exact .values ho hc (fails_defsBreak hc typed_empty hy)
    · cases h
  · intro h
    cases h with
    | types ho h =>
      have : outcome W.E (Env.builtin seed) defs = .err x := by
        unfold outcome denote
        rw [show overflowsSpec (Env.builtin seed).funcs defs (fun _ => none) = false from ho,
          show checkSpec (Env.builtin seed).funcs defs (fun _ => none) = .error x from illtyped_fails h]
        rfl
      simp only [copyOf, this]
    | @values _ ho tes hc h =>
      have : outcome W.E (Env.builtin seed) defs = .err x := by
        unfold outcome denote
        rw [show overflowsSpec (Env.builtin seed).funcs defs (fun _ => none) = false from ho,
          show checkSpec (Env.builtin seed).funcs defs (fun _ => none) = .ok tes from hc]
        exact defsBreak_fails h
      simp only [copyOf, this]
    | code hv hf h hn =>
      simp only [copyOf, hv, (code_err_iff hf hb _).2 ⟨_, _, h, hn, rfl⟩]

theorem refuses_undefined {E : Ext} {f : Func} {vs : List VKind} {x : Err} (h : Refuses E f vs x) (n : Str) : x ≠ .undefinedFunction n := by
  cases h <;> simp

theorem breaks_undefined {E : Ext} {seed : Nat} {ρ : Str → Option VKind} {te : TExpr} {x : Err} (h : Breaks E seed ρ te x) (n : Str) :
    x ≠ .undefinedFunction n := by
  induction h with
  | arg _ _ ih => exact ih
  | here _ h => exact refuses_undefined h n

theorem defsBreak_undefined {E : Ext} {seed : Nat} {ρ : Str → Option VKind} {tes : List (Str × TExpr)} {x : Err} (h : DefsBreak E seed ρ tes x)
    (n : Str) : x ≠ .undefinedFunction n := by
  induction h with
  | here h => exact breaks_undefined h n
  | later _ _ ih => exact ih

theorem illtyped_undefined {T : Str → Option (List Func)} {Γ : TyEnv} {items : List (Str × Expr)} {x : Err} (h : Illtyped T Γ items x) (n : Str) :
    x ≠ .undefinedFunction n := by
  induction h with
  | call => simp [refusal]
  | taken => simp
  | later _ _ _ ih => exact ih

theorem firstFault_undefined {W : World} {seed : Nat} {block : List Stmt} {defs : List (Str × Expr)} {x : Err} (h : FirstFault W seed block defs x)
    {n : Str} (hn : x = .undefinedFunction n) : False := by
  cases h with
  | types _ h => exact illtyped_undefined h n hn
  | values _ _ h => exact defsBreak_undefined h n hn
  | code => cases hn

/-! ## The invocation -/

theorem copies_ok {W : World} {seed : Nat} {sv : Service} {block : List Stmt} : ∀ {its : List (List (Str × Expr))},
    (∀ d ∈ its, ∃ c, IsCopy W seed sv block d c) → ∃ cs : List Toks, its.map (copyOf W (Env.builtin seed) sv block) = cs.map .ok
  | [], _ => ⟨[], rfl⟩
  | d :: ds, h => by
    obtain ⟨c, hc⟩ := h d (by simp)
    obtain ⟨cs, hcs⟩ := copies_ok (its := ds) fun d hd => h d (by simp [hd])
    exact ⟨c :: cs, by simp [isCopy_iff.2 hc, hcs]⟩

/-- `FirstMistake`: what is reported of an invocation. If the input cannot be read, that is reported. Otherwise the first combination of loop values
which cannot be bound; if there is none, the first mistake of the first iteration which has one, the iterations before it giving code. -/
inductive FirstMistake (W : World) (seed : Nat) (first : Invocation) (inv : Invocation) : Err → Prop
  | unread (h : ∀ a, ¬ Reads W inv a) : FirstMistake W seed first inv .parse
  | loops {a : PAst} (ha : Reads W inv a) {loops : List (LoopAlias Str × List (LoopSourceValue Expr))} (hl : (tree a).loops = some loops) {w : Mismatch}
      (h : FirstMismatch loops w) : FirstMistake W seed first inv (.typeError w)
  | iteration {a : PAst} (ha : Reads W inv a) {pre : List (List (Str × Expr))} {defs : List (Str × Expr)} {post : List (List (Str × Expr))}
      (hi : InForce a (pre ++ defs :: post))
      (hp : ∀ d ∈ pre, ∃ c, IsCopy W seed (serviceFor (macroPrefix first) (withSemicolons a.spec)) a.block d c) {x : Err}
      (h : FirstFault W seed a.block defs x) : FirstMistake W seed first inv x

/-- **C94**: of all mistakes in the input, the one reported is the first: of the input as a whole, of the loops, then of the first iteration with a
mistake — in it of the types of the definitions from left to right, then of their values from left to right, arguments before calls, then of the
code from left to right. Any error which is first in this order is reported, and nothing else is. -/
theorem C94_exact {W : World} {hist : List (Invocation × Luck)} {inv : Invocation} {l : Luck} (hs : Scheduled W hist inv l)
    (hb : ∀ a, Reads W inv a → StatementsParse W.Y.toGrammar a.block) (x : Err) :
    output W hist inv l = .compileError x ↔ FirstMistake W (l.ids 0) (firstOn hist inv) inv x := by
  have hu := C28_never_undefined hs
  constructor
  · intro h
    by_cases ha : ∃ a, Reads W inv a
    · obtain ⟨a, ha⟩ := ha
      have ho := output_reads hs ha
      rw [h] at ho
      simp only [expansion] at ho
      cases hi : iterations (tree a) with
      | panic => rw [hi] at ho; cases ho
      | err e =>
        rw [hi] at ho
        cases ho
        unfold iterations at hi
        cases he : expand (tree a) with
        | panic => rw [he] at hi; cases hi
        | ok o => rw [he] at hi; cases hi
        | err e =>
          rw [he] at hi
          cases hi
          obtain ⟨loops, w, h1, h2, rfl⟩ := expand_err_iff.1 he
          exact .loops ha h1 h2
      | ok its =>
        rw [hi] at ho
        simp only at ho
        generalize hj : joinAll _ = r at ho
        cases r with
        | ok t => cases ho
        | panic => cases ho
        | err e =>
          cases ho
          obtain ⟨pre, defs, post, rfl, h1, h2⟩ := joinAll_split hj (by simp)
          refine .iteration ha (inForce_of_iterations hi) (fun d hd => ?_) ((copy_err_iff (hb a ha) fun n hn => ?_).1 h2)
          · obtain ⟨c, hc⟩ := h1 d hd
            exact ⟨c, isCopy_iff.1 hc⟩
          · rw [hn] at h
            exact hu n h
    · have := output_unread hs fun a hr => ha ⟨a, hr⟩
      rw [h] at this
      cases this
      exact .unread fun a hr => ha ⟨a, hr⟩
  · intro h
    cases h with
    | unread h => exact output_unread hs h
    | loops ha hl h =>
      rw [output_reads hs ha]
      simp only [expansion, iterations, expand_err_iff.2 ⟨_, _, hl, h, rfl⟩]
      rfl
    | @iteration a ha pre defs post hi hp _ h =>
      rw [output_reads hs ha]
      simp only [expansion, iterations_of_inForce hi]
      have hx : ∀ n, x ≠ .undefinedFunction n := by
        rintro n rfl
        exact firstFault_undefined h rfl
      have h1 := (copy_err_iff (sv := serviceFor (macroPrefix (firstOn hist inv)) (withSemicolons a.spec)) (hb a ha) hx).2 h
      obtain ⟨cs, hcs⟩ := copies_ok hp
      show Output.ofRes (joinAll ((pre ++ defs :: post).map _)) = _
      rw [List.map_append, List.map_cons]
      rw [show (tree a).block = a.block from rfl, hcs, h1, joinAll_first _ _ _ (by simp)]
      rfl

/-! Inputs with several mistakes. -/

/-- `x = to_int(a), y = upper(a, b), { struct x {} }`: `a` is no integer, but the types come first. -/
def demoMistakes : Toks := [id' "x", eq', id' "to_int", paren [id' "a"], comma, id' "y", eq', id' "upper", paren [id' "a", comma, id' "b"], comma,
  brace [id' "struct", id' "x", brace []]]

example : output demoWorld [] (.compose demoMistakes) (demoLuck 2 1) = .compileError (.signature (S "upper(str) -> str | upper(ident) -> ident")
    [.str (S "upper"), .str (S "("), .str (S "a"), .str (S ", "), .str (S "b"), .str (S ")")]) := by decide +kernel

/-- The hypotheses hold for it, so this is the first mistake. -/
example : FirstMistake demoWorld ((demoLuck 2 1).ids 0) (firstOn [] (.compose demoMistakes)) (.compose demoMistakes)
    (.signature (S "upper(str) -> str | upper(ident) -> ident")
      [.str (S "upper"), .str (S "("), .str (S "a"), .str (S ", "), .str (S "b"), .str (S ")")]) := by
  refine (C94_exact (hist := []) (demo_scheduled _ _ (by decide +kernel)) ?_ _).1 (by decide +kernel)
  intro a ha
  have hb := congrArg (·.2) (reads_unique ha (reads_of_parse (W := demoWorld) (inv := .compose demoMistakes) (ids := fun k => k) (k := 0) rfl))
  have hb : a.block = _ := hb
  rw [hb]
  have key : ∀ b : List Stmt, (∀ p ∈ stmtsParts b, p.1 = .block → demoWorld.Y.toGrammar.validBlock p.2 = true) → StatementsParse demoWorld.Y.toGrammar b :=
    fun b h ts hm => h _ hm rfl
  exact key _ (by decide +kernel)

/-- `x = to_int(a), x = b, { struct x {} }`: the names come with the types. -/
example : output demoWorld [] (.compose [id' "x", eq', id' "to_int", paren [id' "a"], comma, id' "x", eq', id' "b", comma,
    brace [id' "struct", id' "x", brace []]]) (demoLuck 2 1) = .compileError (.redefined (S "x")) := by decide +kernel

/-- `x = a, x = upper(a, b), { struct x {} }`: the type of a definition comes before its name. -/
example : output demoWorld [] (.compose [id' "x", eq', id' "a", comma, id' "x", eq', id' "upper", paren [id' "a", comma, id' "b"], comma,
    brace [id' "struct", id' "x", brace []]]) (demoLuck 2 1) = .compileError (.signature (S "upper(str) -> str | upper(ident) -> ident")
    [.str (S "upper"), .str (S "("), .str (S "a"), .str (S ", "), .str (S "b"), .str (S ")")]) := by decide +kernel

/-- `for (x, y) in [a] z = upper(a, b), { struct x {} }`: the loops come before the definitions. -/
example : output demoWorld [] (.compose [id' "for", paren [id' "x", comma, id' "y"], id' "in", .group .bracket [id' "a"], id' "z", eq', id' "upper",
    paren [id' "a", comma, id' "b"], comma, brace [id' "struct", id' "x", brace []]]) (demoLuck 2 1) = .compileError (.typeError .loopKind) := by decide +kernel

/-- `for x in [a, (b, c)] z = upper(a, b), { struct x {} }`: even if the mistake is in a later combination. -/
example : output demoWorld [] (.compose [id' "for", id' "x", id' "in", .group .bracket [id' "a", comma, paren [id' "b", comma, id' "c"]], id' "z", eq', id' "upper",
    paren [id' "a", comma, id' "b"], comma, brace [id' "struct", id' "x", brace []]]) (demoLuck 2 1) = .compileError (.typeError .loopKind) := by decide +kernel

/-- `x = concat(to_ident("a b"), to_int(c)), { struct x {} }`: arguments from left to right. -/
example : output demoWorld [] (.compose [id' "x", eq', id' "concat", paren [id' "to_ident", paren [.lit (.str (c! "\"a b\"") (c! "a b"))], comma, id' "to_int", paren [id' "c"]], comma,
    brace [id' "struct", id' "x", brace []]]) (demoLuck 2 1) = .compileError (.typeError (.cast .litStr .ident)) := by decide +kernel

/-- `x = concat(to_int(c), to_ident("a b")), { struct x {} }` -/
example : output demoWorld [] (.compose [id' "x", eq', id' "concat", paren [id' "to_int", paren [id' "c"], comma, id' "to_ident", paren [.lit (.str (c! "\"a b\"") (c! "a b"))]], comma,
    brace [id' "struct", id' "x", brace []]]) (demoLuck 2 1) = .compileError (.typeError (.cast .tokens .litInt)) := by decide +kernel

end Verif.Props
