import Verif.Proofs.ReadCalls
import Verif.Props.Expand
import Verif.Props.Parse
import Verif.Props.Deprecation
/-!
# Properties C25, C28, C33, C43, C46, C50, C51, C52, C54, C55: whole invocations

An invocation gets its ids from the counter of the process (`stream sched i`, for some schedule `sched` of the draws of all
invocations), and runs on a thread on which other invocations (`hist`) may have run before.
-/

namespace Verif.Props
open Verif Spec

/-- The thread after some invocations. -/
def after (W : World) (hist : List (Invocation × Luck)) : Thread := (runAll W hist Thread.fresh).2

/-- The output of an invocation after others on the same thread. -/
def output (W : World) (hist : List (Invocation × Luck)) (inv : Invocation) (l : Luck) : Output :=
  (composeCore W l.ids l.orders inv (after W hist)).1

/-- The first invocation on the thread: of the history, or this one. -/
def firstOn (hist : List (Invocation × Luck)) (inv : Invocation) : Invocation := (hist.head?.map (·.1)).getD inv

/-- `output` is what `runAll` puts out last. -/
theorem output_eq (W : World) (hist : List (Invocation × Luck)) (inv : Invocation) (l : Luck) :
    (runAll W (hist ++ [(inv, l)]) Thread.fresh).1.getLast? = some (output W hist inv l) := by
  rw [runAll_append]
  simp [runAll, output, after]

theorem idle_after_all (W : World) (hist : List (Invocation × Luck)) : Idle (after W hist) := runAll_idle W hist idle_fresh

theorem pre_eq (inv : Invocation) : inv.pre = macroPrefix inv := by cases inv <;> rfl

theorem preOn_after_all (W : World) (hist : List (Invocation × Luck)) (inv : Invocation) :
    preOn (after W hist) inv = macroPrefix (firstOn hist inv) := by
  unfold after firstOn
  rw [preOn_runAll W hist idle_fresh, ← pre_eq]
  rfl

/-- The ids come from the counter of the process; the schedule contains all draws made while parsing, and there were at most
2^64 draws in total. The hash maps are iterated over in some order. -/
structure Scheduled (W : World) (hist : List (Invocation × Luck)) (inv : Invocation) (l : Luck) : Prop where
  orders : ∀ n, IsOrder (l.orders n)
  ids : ∃ (ι : Type) (_ : DecidableEq ι) (sched : List ι) (i : ι), l.ids = stream sched i ∧ sched.length ≤ 2 ^ 64 ∧
    idsDrawn W l.ids inv (after W hist) ≤ sched.count i

theorem Scheduled.fair {W : World} {hist : List (Invocation × Luck)} {inv : Invocation} {l : Luck} (h : Scheduled W hist inv l) :
    Fair W l inv (after W hist) := by
  obtain ⟨ι, _, sched, i, he, hl, hc⟩ := h.ids
  refine ⟨h.orders, fun p q hp hq e => ?_⟩
  rw [he] at e
  exact stream_inj hl (by omega) (by omega) e

theorem result {W : World} {hist : List (Invocation × Luck)} {inv : Invocation} {l : Luck} (h : Scheduled W hist inv l) :
    Result W (l.ids 0) (macroPrefix (firstOn hist inv)) inv (output W hist inv l) := by
  rw [← preOn_after_all W]
  exact composeCore_result W l inv (idle_after_all W hist) h.fair

theorem output_reads {W : World} {hist : List (Invocation × Luck)} {inv : Invocation} {l : Luck} (h : Scheduled W hist inv l) {a : PAst}
    (ha : Reads W inv a) : output W hist inv l =
      .ofRes (expansion W (Env.builtin (l.ids 0)) (serviceFor (macroPrefix (firstOn hist inv)) (withSemicolons a.spec)) (tree a)) :=
  result_unique (result h) (.ok a ha)

theorem output_unread {W : World} {hist : List (Invocation × Luck)} {inv : Invocation} {l : Luck} (h : Scheduled W hist inv l)
    (ha : ∀ a, ¬ Reads W inv a) : output W hist inv l = .compileError .parse :=
  result_unique (result h) (.err ha)

/-! ## Examples -/

/-- The code in braces as statements: a struct without fields, or anything else. -/
def demoStmts : Toks → List Stmt
  | [.ident s, .ident n, .group .brace []] => if s = S "struct" then [.item (.struct ⟨[], [], []⟩ [] [.ident n] (.named ⟨[], false⟩))] else [.other [.ident s, .ident n, .group .brace []]]
  | ts => [.other ts]

/-- A world for examples. -/
def demoWorld : World := ⟨Ext.demo, { Syn.demo with parseBlock := fun ts => some (demoStmts ts) }, noSites⟩

/-- The luck of the `i`-th of `n` invocations which draw their ids in turn, a hundred each. -/
def demoLuck (n i : Nat) : Luck := ⟨stream ((List.replicate 100 (List.range n)).flatten) i, fun _ l => l⟩

/-- `for x in [a, b] y = concat(x, 1), { struct y {} }` -/
def demoLoop : Toks := [id' "for", id' "x", id' "in", .group .bracket [id' "a", comma, id' "b"], id' "y", eq', id' "concat", paren [id' "x", comma,
  .lit (.int (S "1") 1)], comma, brace [id' "struct", id' "y", brace []]]

/-- `y = concat(x); { struct y {} }` -/
def demoSemi : Toks := [id' "y", eq', id' "concat", paren [id' "x"], semi, brace [id' "struct", id' "y", brace []]]

example : output demoWorld [(.composeIdents demoSemi, demoLuck 2 0)] (.compose demoLoop) (demoLuck 2 1) =
    .tokens [id' "struct", id' "a1", brace [], id' "struct", id' "b1", brace []] := by decide +kernel

theorem demo_scheduled (hist : List (Invocation × Luck)) (inv : Invocation)
    (h : idsDrawn demoWorld (demoLuck 2 1).ids inv (after demoWorld hist) ≤ 100) : Scheduled demoWorld hist inv (demoLuck 2 1) :=
  ⟨fun _ l => .refl l, Nat, inferInstance, _, 1, rfl, by decide +kernel,
    Nat.le_trans h (by decide +kernel)⟩

example : Scheduled demoWorld [(.composeIdents demoSemi, demoLuck 2 0)] (.compose demoLoop) (demoLuck 2 1) :=
  demo_scheduled _ _ (by decide +kernel)

theorem reads_of_parse {W : World} {ids : Nat → Nat} {k : Nat} {inv : Invocation} {a : PAst}
    (h : (parseArgs W.Y isBuiltin ids k (some demoService) inv).1 = .ok a) : Reads W inv a := by
  have := parseArgs_outcome W ids k demoService (by decide) inv
  generalize parseArgs W.Y isBuiltin ids k (some demoService) inv = x at this h
  cases this with
  | ok a0 _ hr => cases h; exact hr
  | err => cases h

theorem not_reads_of_parse {W : World} {ids : Nat → Nat} {k : Nat} {inv : Invocation} {e : Err}
    (h : (parseArgs W.Y isBuiltin ids k (some demoService) inv).1 = .err e) (a : PAst) : ¬ Reads W inv a := by
  have := parseArgs_outcome W ids k demoService (by decide) inv
  generalize parseArgs W.Y isBuiltin ids k (some demoService) inv = x at this h
  cases this with
  | ok a0 _ hr => cases h
  | err _ _ hn => exact hn a

/-! ## C33 -/

/-- **C33**: the seed of an invocation is the first id it draws, and two invocations, on any threads and in any order, draw different
ones as long as there are at most 2^64 draws. -/
theorem C33_own_seed {ι : Type} [DecidableEq ι] {sched : List ι} (hs : sched.length ≤ 2 ^ 64) {i j : ι} (hij : i ≠ j) (hi : i ∈ sched)
    (hj : j ∈ sched) : stream sched i 0 ≠ stream sched j 0 := by
  intro e
  have h1 := stream_mem (List.count_pos_iff.mpr hi)
  have h2 := stream_mem (List.count_pos_iff.mpr hj)
  rw [e] at h1
  exact draws_disjoint hij hs h1 h2

/-- **C33**: the functions called by the invocation run with this seed, whatever ran before on the thread. -/
theorem C33_seed_in_use {W : World} {hist : List (Invocation × Luck)} {inv : Invocation} {l : Luck} (h : Scheduled W hist inv l) {a : PAst}
    (ha : Reads W inv a) : ∃ sv, output W hist inv l = .ofRes (expansion W ⟨l.ids 0, builtinFuncs⟩ sv (tree a)) :=
  ⟨_, output_reads h ha⟩

/-- **C33** (limit): the draw after 2^64 others gives the first id again. -/
theorem C33_wraps : nthId (2 ^ 64) = nthId 0 := by decide

example : stream [0, 1, 1, 0, 2] 0 0 = 0 ∧ stream [0, 1, 1, 0, 2] 1 0 = 1 ∧ stream [0, 1, 1, 0, 2] 2 0 = 4 ∧
    stream [0, 1, 1, 0, 2] 0 1 = 3 := by decide

/-! ## C50 -/

/-- **C50**: all nodes of a parsed input have different ids, whatever other invocations draw in between. -/
theorem C50_ids_unique {ι : Type} [DecidableEq ι] {sched : List ι} (hs : sched.length ≤ 2 ^ 64) {i : ι} {Y : Syn} {known : Str → Bool}
    {ts : Toks} {k k' : Nat} {sv : Service} {c : ThreadCell} {a : PAst} (hb : 1 ≤ sv.borrowed)
    (h : parseRawAst Y known (stream sched i) ts k (some sv) = (.ok a, k', c)) (hk : k' ≤ sched.count i) : (astIds a).Nodup := by
  have := parseRawAst_outcome Y known (stream sched i) ts k sv hb
  rw [h] at this
  cases this with
  | ok _ _ _ _ _ hd => exact drawn_nodup hd fun p q hp hq e => stream_inj hs (by omega) (by omega) e

/-- **C50** for `#[compose_item]`. -/
theorem C50_ids_unique_attribute {ι : Type} [DecidableEq ι] {sched : List ι} (hs : sched.length ≤ 2 ^ 64) {i : ι} {Y : Syn}
    {known : Str → Bool} {ts : Toks} {k k' : Nat} {sv : Service} {c : ThreadCell} {a : PAst} (hb : 1 ≤ sv.borrowed)
    (h : parseAttr Y known (stream sched i) ts k (some sv) = (.ok a, k', c)) (hk : k' ≤ sched.count i) : (astIds a).Nodup := by
  have := parseAttr_outcome Y known (stream sched i) ts k sv hb
  rw [h] at this
  cases this with
  | ok _ _ _ _ _ hd => exact drawn_nodup hd fun p q hp hq e => stream_inj hs (by omega) (by omega) e

/-- **C50**: the ids of the nodes of an invocation are also different from its seed, the first id it draws, and from those drawn for the
built-in functions. -/
theorem C50_ids_not_reused {W : World} {hist : List (Invocation × Luck)} {inv : Invocation} {l : Luck} (hs : Scheduled W hist inv l) {a : PAst}
    {k : Nat} {c : ThreadCell}
    (h : parseArgs W.Y isBuiltin l.ids setupDraws (some ⟨[], 1, macroPrefix (firstOn hist inv)⟩) inv = (.ok a, k, c)) :
    (astIds a).Nodup ∧ ∀ x ∈ astIds a, ∀ q ≤ builtins.length, x ≠ l.ids q := by
  rw [← preOn_after_all W] at h
  refine ⟨parseArgs_nodup W l inv hs.fair h, ?_⟩
  have ho := parseArgs_outcome W l.ids setupDraws ⟨[], 1, preOn (after W hist) inv⟩ (Nat.le_refl _) inv
  have hi := hs.fair.inj
  unfold idsDrawn at hi
  rw [h] at ho hi
  cases ho with
  | ok a k' hr hu hk hd =>
    obtain ⟨ps, e, -, hps⟩ := hd
    intro x hx q hq he
    rw [e] at hx
    obtain ⟨p, hp, rfl⟩ := List.mem_map.1 hx
    have h1 := hps p hp
    have h2 : setupDraws = 1 + builtins.length := rfl
    have := hi p q h1.2 (by simp only; omega) he
    omega

/-- **C50**: and no node of another invocation's input has the same id. -/
theorem C50_ids_disjoint {ι : Type} [DecidableEq ι] {sched : List ι} (hs : sched.length ≤ 2 ^ 64) {i j : ι} (hij : i ≠ j) {Y : Syn}
    {known known' : Str → Bool} {ts ts' : Toks} {k k' m m' : Nat} {sv sv' : Service} {c c' : ThreadCell} {a a' : PAst} (hb : 1 ≤ sv.borrowed)
    (hb' : 1 ≤ sv'.borrowed)
    (h : parseRawAst Y known (stream sched i) ts k (some sv) = (.ok a, k', c)) (hk : k' ≤ sched.count i)
    (h' : parseRawAst Y known' (stream sched j) ts' m (some sv') = (.ok a', m', c')) (hm : m' ≤ sched.count j) :
    ∀ x ∈ astIds a, x ∉ astIds a' := by
  have h1 := parseRawAst_outcome Y known (stream sched i) ts k sv hb
  have h2 := parseRawAst_outcome Y known' (stream sched j) ts' m sv' hb'
  rw [h] at h1
  rw [h'] at h2
  cases h1 with
  | ok _ _ _ _ _ hd =>
    cases h2 with
    | ok _ _ _ _ _ hd' =>
      obtain ⟨ps, e, -, hps⟩ := hd
      obtain ⟨qs, e', -, hqs⟩ := hd'
      rw [e, e']
      intro x hx hx'
      obtain ⟨p, hp, rfl⟩ := List.mem_map.1 hx
      obtain ⟨q, hq, he⟩ := List.mem_map.1 hx'
      have h3 := stream_mem (sched := sched) (i := i) (k := p) (by have := hps p hp; omega)
      have h4 := stream_mem (sched := sched) (i := j) (k := q) (by have := hqs q hq; omega)
      rw [he] at h4
      exact draws_disjoint hij hs h3 h4

example : ∃ a k' c, parseRawAst Syn.demo demoKnown (demoLuck 2 1).ids demoInput 0 (some demoService) = (.ok a, k', c) ∧ k' ≤ 100 ∧
    5 ≤ (astIds a).length := ⟨_, _, _, rfl, by decide +kernel, by decide +kernel⟩

/-! ## C43 -/

/-- The definitions as written. -/
def definitions (a : PAst) : List (Str × Expr) := ((tree a).spec.map (·.items)).getD []

/-- The definitions in force in the iterations: `InForce a its`. -/
inductive InForce (a : PAst) : List (List (Str × Expr)) → Prop
  | once (h : (tree a).loops = none) : InForce a [definitions a]
  | each (loops : List (LoopAlias Str × List (LoopSourceValue Expr))) (h : (tree a).loops = some loops) (its : List (List (Str × Expr)))
      (hl : its.length = (combinations (loops.map (·.2))).length)
      (hi : ∀ (i : Nat) (vals : List (LoopSourceValue Expr)), (combinations (loops.map (·.2)))[i]? = some vals →
        ∃ items, Binds loops vals items ∧ its[i]? = some (items ++ definitions a)) : InForce a its

theorem mapRes_len {γ δ : Type} {f : γ → Res δ} {xs : List γ} {ys : List δ} (h : mapRes f xs = .ok ys) : ys.length = xs.length :=
  mapRes_length h

theorem inForce_of_iterations {a : PAst} {its : List (List (Str × Expr))} (h : iterations (tree a) = .ok its) : InForce a its := by
  unfold iterations at h
  cases he : expand (tree a) with
  | err e => rw [he] at h; cases h
  | panic => rw [he] at h; cases h
  | ok out =>
    rw [he] at h
    cases h
    cases hl : (tree a).loops with
    | none =>
      obtain ⟨br, h1, -, h2⟩ := C38_no_loops_once _ hl
      rw [he] at h1
      cases h1
      simp only [List.map_cons, List.map_nil]
      have h3 : br.spec.items = definitions a := by rw [h2, definitions]; cases (tree a).spec <;> rfl
      rw [h3]
      exact .once hl
    | some loops =>
      refine .each loops hl _ ?_ ?_
      · rw [List.length_map]
        rw [expand_loops_eq _ loops hl] at he
        exact mapRes_len he
      · intro i vals hv
        obtain ⟨br, items, h1, h2, -, h3⟩ := C38_copy_contents _ loops hl out he i vals hv
        exact ⟨items, h2, by
          rw [List.getElem?_map, h1, Option.map_some, h3, definitions]; cases (tree a).spec <;> rfl⟩

/-- One copy of the block: `IsCopy W seed sv block defs ts`. -/
inductive IsCopy (W : World) (seed : Nat) (sv : Service) (block : List Stmt) (defs : List (Str × Expr)) : Toks → Prop
  | mk (vs : List (Str × VKind)) (h : outcome W.E (Env.builtin seed) defs = .ok vs) (stmts : List Stmt)
      (hv : visitBlock W.E W.Y.toGrammar vs block = .ok stmts) :
      IsCopy W seed sv block defs (cstsPrint (sv.emit W.E.strRepr (stmtsCst W.sites stmts)))

theorem isCopy_iff {W : World} {seed : Nat} {sv : Service} {block : List Stmt} {defs : List (Str × Expr)} {ts : Toks} :
    copyOf W (Env.builtin seed) sv block defs = .ok ts ↔ IsCopy W seed sv block defs ts := by
  constructor
  · intro h
    unfold copyOf at h
    cases ho : outcome W.E (Env.builtin seed) defs with
    | err e => rw [ho] at h; cases h
    | panic => rw [ho] at h; cases h
    | ok vs =>
      rw [ho] at h
      simp only at h
      cases hv : visitBlock W.E W.Y.toGrammar vs block with
      | err e => rw [hv] at h; cases h
      | panic => rw [hv] at h; cases h
      | ok stmts =>
        rw [hv] at h
        cases h
        exact .mk vs ho stmts hv
  · intro h
    cases h with
    | mk vs h stmts hv => simp only [copyOf, h, hv]

theorem joinAll_ok {rs : List (Res Toks)} {ts : Toks} (h : joinAll rs = .ok ts) : ∃ cs : List Toks, rs = cs.map .ok ∧ ts = cs.flatten := by
  induction rs generalizing ts with
  | nil => cases h; exact ⟨[], rfl, rfl⟩
  | cons r rs ih =>
    cases r with
    | err e => cases h
    | panic => cases h
    | ok c =>
      simp only [joinAll] at h
      cases hj : joinAll rs with
      | err e => rw [hj] at h; cases h
      | panic => rw [hj] at h; cases h
      | ok ts' =>
        rw [hj] at h
        cases h
        obtain ⟨cs, rfl, rfl⟩ := ih hj
        exact ⟨c :: cs, rfl, rfl⟩

theorem joinAll_map_ok (cs : List Toks) : joinAll (cs.map .ok) = .ok cs.flatten := by
  induction cs with
  | nil => rfl
  | cons c cs ih => simp only [List.map_cons, joinAll, ih]; rfl

theorem joinAll_first (cs : List Toks) (r : Res Toks) (rs : List (Res Toks)) (h : ∀ t, r ≠ .ok t) : joinAll (cs.map .ok ++ r :: rs) = r := by
  induction cs with
  | nil =>
    cases r with
    | ok t => exact (h t rfl).elim
    | err e => rfl
    | panic => rfl
  | cons c cs ih =>
    simp only [List.map_cons, List.cons_append, joinAll, ih]
    cases r with
    | ok t => exact (h t rfl).elim
    | err e => rfl
    | panic => rfl

/-- **C43**: the expansion is the concatenation, in the order of the iterations, of one copy per iteration; the copy of an iteration is
the block rewritten with the values of what is in force: the loop aliases of this iteration, then the definitions. -/
theorem C43_in_order {W : World} {hist : List (Invocation × Luck)} {inv : Invocation} {l : Luck} (hs : Scheduled W hist inv l) {ts : Toks}
    (h : output W hist inv l = .tokens ts) : ∃ (a : PAst) (its : List (List (Str × Expr))) (copies : List Toks),
      Reads W inv a ∧ InForce a its ∧ ts = copies.flatten ∧
      copies.length = its.length ∧ ∀ (i : Nat) (defs : List (Str × Expr)), its[i]? = some defs →
        ∃ c, copies[i]? = some c ∧
          IsCopy W (l.ids 0) (serviceFor (macroPrefix (firstOn hist inv)) (withSemicolons a.spec)) a.block defs c := by
  have hr := result hs
  rw [h] at hr
  generalize ho : Output.tokens ts = o at hr
  cases hr with
  | err => cases ho
  | ok a ha =>
    unfold expansion at ho
    cases hi : iterations (tree a) with
    | err e => rw [hi] at ho; cases ho
    | panic => rw [hi] at ho; cases ho
    | ok its =>
      rw [hi] at ho
      simp only at ho
      generalize hj : joinAll _ = r at ho
      cases r with
      | err e => cases ho
      | panic => cases ho
      | ok t =>
        cases ho
        obtain ⟨cs, h1, rfl⟩ := joinAll_ok hj
        have hlen := congrArg List.length h1
        simp only [List.length_map] at hlen
        refine ⟨a, its, cs, ha, inForce_of_iterations hi, rfl, hlen.symm, fun i defs hd => ?_⟩
        have h2 := congrArg (·[i]?) h1
        simp only [List.getElem?_map, hd, Option.map_some] at h2
        cases hc : cs[i]? with
        | none => rw [hc] at h2; cases h2
        | some c =>
          rw [hc] at h2
          simp only [Option.map_some, Option.some.injEq] at h2
          exact ⟨c, rfl, isCopy_iff.1 h2⟩

/-! ## C54 -/

/-- **C54**: code is generated if and only if every iteration succeeds. -/
theorem C54_all_or_nothing {W : World} {hist : List (Invocation × Luck)} {inv : Invocation} {l : Luck} (hs : Scheduled W hist inv l)
    {a : PAst} (ha : Reads W inv a) {its : List (List (Str × Expr))} (hi : iterations (tree a) = .ok its) :
    (∃ ts, output W hist inv l = .tokens ts) ↔ ∀ defs ∈ its, ∃ c,
      IsCopy W (l.ids 0) (serviceFor (macroPrefix (firstOn hist inv)) (withSemicolons a.spec)) a.block defs c := by
  rw [output_reads hs ha]
  simp only [expansion, hi]
  constructor
  · rintro ⟨ts, h⟩ defs hd
    generalize hj : joinAll _ = r at h
    cases r with
    | err e => cases h
    | panic => cases h
    | ok t =>
      obtain ⟨cs, h1, -⟩ := joinAll_ok hj
      have : copyOf W (Env.builtin (l.ids 0)) (serviceFor (macroPrefix (firstOn hist inv)) (withSemicolons a.spec)) (tree a).block defs ∈ cs.map .ok := by
        rw [← h1]; exact List.mem_map_of_mem hd
      obtain ⟨c, -, hc⟩ := List.mem_map.1 this
      exact ⟨c, isCopy_iff.1 hc.symm⟩
  · intro h
    have : ∃ cs : List Toks, its.map (copyOf W (Env.builtin (l.ids 0)) (serviceFor (macroPrefix (firstOn hist inv)) (withSemicolons a.spec)) (tree a).block) = cs.map .ok := by
      clear hi
      induction its with
      | nil => exact ⟨[], rfl⟩
      | cons d its ih =>
        obtain ⟨cs, h1⟩ := ih fun defs hd => h defs (List.mem_cons_of_mem _ hd)
        obtain ⟨c, hc⟩ := h d List.mem_cons_self
        exact ⟨c :: cs, by rw [List.map_cons, h1, List.map_cons, ← isCopy_iff.2 hc]; rfl⟩
    obtain ⟨cs, h1⟩ := this
    rw [h1, joinAll_map_ok]
    exact ⟨_, rfl⟩

/-- **C54**: if an iteration fails, the output is the failure of the first one which does, and nothing else. -/
theorem C54_first_failure {W : World} {hist : List (Invocation × Luck)} {inv : Invocation} {l : Luck} (hs : Scheduled W hist inv l)
    {a : PAst} (ha : Reads W inv a) {pre post : List (List (Str × Expr))} {defs : List (Str × Expr)}
    (hi : iterations (tree a) = .ok (pre ++ defs :: post))
    (hp : ∀ d ∈ pre, ∃ c, IsCopy W (l.ids 0) (serviceFor (macroPrefix (firstOn hist inv)) (withSemicolons a.spec)) a.block d c) {r : Res Toks}
    (hr : copyOf W (Env.builtin (l.ids 0)) (serviceFor (macroPrefix (firstOn hist inv)) (withSemicolons a.spec)) a.block defs = r) (hf : ∀ c, r ≠ .ok c) :
    output W hist inv l = .ofRes r := by
  rw [output_reads hs ha]
  simp only [expansion, hi]
  have : ∃ cs : List Toks, pre.map (copyOf W (Env.builtin (l.ids 0)) (serviceFor (macroPrefix (firstOn hist inv)) (withSemicolons a.spec)) (tree a).block) = cs.map .ok := by
    clear hi
    induction pre with
    | nil => exact ⟨[], rfl⟩
    | cons d its ih =>
      obtain ⟨cs, h1⟩ := ih fun defs hd => hp defs (List.mem_cons_of_mem _ hd)
      obtain ⟨c, hc⟩ := hp d List.mem_cons_self
      exact ⟨c :: cs, by rw [List.map_cons, h1, List.map_cons, ← isCopy_iff.2 hc]; rfl⟩
  obtain ⟨cs, h1⟩ := this
  rw [List.map_append, h1, List.map_cons]
  have h2 : copyOf W (Env.builtin (l.ids 0)) (serviceFor (macroPrefix (firstOn hist inv)) (withSemicolons a.spec)) (tree a).block defs = r := hr
  rw [h2, joinAll_first cs r _ hf]

/-- **C54**: if the loops cannot bind some combination of values, the output is a type error, and nothing else. -/
theorem C54_unbindable {W : World} {hist : List (Invocation × Luck)} {inv : Invocation} {l : Luck} (hs : Scheduled W hist inv l)
    {a : PAst} (ha : Reads W inv a) {loops} (hl : (tree a).loops = some loops) {vals} (hv : vals ∈ combinations (loops.map (·.2)))
    (hb : ∀ items, ¬ Binds loops vals items) : ∃ w, output W hist inv l = .compileError (.typeError w) := by
  rw [output_reads hs ha]
  simp only [expansion, iterations]
  cases he : expand (tree a) with
  | err e => obtain ⟨_, _, _, _, _, w, -, -, -, -, -, rfl⟩ := expand_err he; exact ⟨w, rfl⟩
  | ok out =>
    obtain ⟨i, hi⟩ := List.getElem?_of_mem hv
    obtain ⟨-, items, -, h, -⟩ := C38_copy_contents _ loops hl out he i vals hi
    exact (hb items h).elim
  | panic => exact (expand_no_panic _ he).elim

/-- **C54**: an input which cannot be read gives a compile error, and nothing else. -/
theorem C54_unreadable {W : World} {hist : List (Invocation × Luck)} {inv : Invocation} {l : Luck} (hs : Scheduled W hist inv l)
    (ha : ∀ a, ¬ Reads W inv a) : output W hist inv l = .compileError .parse := output_unread hs ha

/-- `for x in [a, 1] { struct x {} }` -/
def demoFail : Toks := [id' "for", id' "x", id' "in", .group .bracket [id' "a", comma, .lit (.int (S "1") 1)], brace [id' "struct", id' "x", brace []]]

/-- The grammar of `demoWorld`, where a literal is no name. -/
def demoStrict : World := { demoWorld with Y := { demoWorld.Y with valid := fun _ ts => match ts with | [.lit _] => false | _ => true } }

/-- The second iteration fails, so nothing is generated for the first one either. -/
example : output demoStrict [] (.compose demoFail) (demoLuck 2 1) = .compileError (.substitution (S "x") (S "1")) := by decide +kernel
example : ∃ a its, Reads demoStrict (.compose demoFail) a ∧ iterations (tree a) = .ok its ∧ its.length = 2 :=
  ⟨_, _, reads_of_parse (ids := fun k => k) (k := 0) rfl, rfl, rfl⟩

example : output demoWorld [] (.compose [id' "for", id' "x", id' "in", .group .bracket [id' "a", comma, paren [id' "a", comma, id' "b"]],
    brace []]) (demoLuck 2 1) = .compileError (.typeError .loopKind) := by decide +kernel

/-! ## C25 -/

/-- **C25**, whole expansions: if the expansion succeeds, the names in force in each iteration are all different. -/
theorem C25_expansion {W : World} {hist : List (Invocation × Luck)} {inv : Invocation} {l : Luck} (hs : Scheduled W hist inv l) {a : PAst}
    (ha : Reads W inv a) {ts : Toks} (h : output W hist inv l = .tokens ts) :
    ∃ its, iterations (tree a) = .ok its ∧ InForce a its ∧ ∀ defs ∈ its, (defs.map (·.1)).Nodup := by
  cases hi : iterations (tree a) with
  | err e => rw [output_reads hs ha] at h; simp only [expansion, hi] at h; cases h
  | panic => rw [output_reads hs ha] at h; simp only [expansion, hi] at h; cases h
  | ok its =>
    refine ⟨its, rfl, inForce_of_iterations hi, fun defs hd => ?_⟩
    obtain ⟨c, hc⟩ := (C54_all_or_nothing hs ha hi).1 ⟨ts, h⟩ defs hd
    cases hc with
    | mk vs ho =>
      unfold outcome at ho
      split at ho
      · cases ho
      · obtain ⟨h1, h2⟩ := denote_names ho
        rw [h1] at h2
        exact h2

/-- **C25**, whole expansions: a repeated name in an iteration makes the expansion fail. -/
theorem C25_expansion_fails {W : World} {hist : List (Invocation × Luck)} {inv : Invocation} {l : Luck} (hs : Scheduled W hist inv l) {a : PAst}
    (ha : Reads W inv a) {its : List (List (Str × Expr))} (hi : iterations (tree a) = .ok its) {defs : List (Str × Expr)} (hd : defs ∈ its)
    (hn : ¬ (defs.map (·.1)).Nodup) (ts : Toks) : output W hist inv l ≠ .tokens ts := by
  intro h
  obtain ⟨its', h1, -, h2⟩ := C25_expansion hs ha h
  rw [hi] at h1
  cases h1
  exact hn (h2 defs hd)

/-- A definition with the name of a loop alias. -/
example : output demoWorld [] (.compose (demoLoop.set 4 (id' "x"))) (demoLuck 2 1) = .compileError (.redefined (S "x")) ∧
    ∃ a its, Reads demoWorld (.compose (demoLoop.set 4 (id' "x"))) a ∧ iterations (tree a) = .ok its ∧
      ∃ defs ∈ its, ¬ (defs.map (·.1)).Nodup :=
  ⟨by decide +kernel, _, _, reads_of_parse (ids := fun k => k) (k := 0) rfl, rfl, _, List.mem_cons_self, by decide⟩

/-! ## C28 -/

/-- **C28**, whole invocations: no input makes a macro report an undefined function. -/
theorem C28_never_undefined {W : World} {hist : List (Invocation × Luck)} {inv : Invocation} {l : Luck} (hs : Scheduled W hist inv l) (n : Str) :
    output W hist inv l ≠ .compileError (.undefinedFunction n) := by
  intro h
  have hr := result hs
  rw [h] at hr
  generalize ho : Output.compileError (.undefinedFunction n) = o at hr
  cases hr with
  | err => cases ho
  | ok a ha =>
    generalize he : expansion _ _ _ _ = r at ho
    cases r with
    | ok t => cases ho
    | panic => cases ho
    | err x =>
      cases ho
      cases expansion_err he with
      | undefined _ h1 e h2 h3 =>
        have := reads_calls ha e h2 n h3
        simp [isBuiltin, h1] at this

/-- The ids of the nodes of `demoLoop`: C50. -/
example : ∃ a k c, parseArgs demoWorld.Y isBuiltin (demoLuck 2 1).ids setupDraws (some ⟨[], 1, macroPrefix (firstOn [] (.compose demoLoop))⟩)
    (.compose demoLoop) = (.ok a, k, c) ∧ 10 ≤ (astIds a).length := ⟨_, _, _, rfl, by decide +kernel⟩

/-! ## C51, C52 -/

/-- **C51**: an invocation which does not use `;` carries no warning, whatever the invocations before it did and however they ended: its
output is that of a service without warnings. -/
theorem C51_no_leak {W : World} {hist : List (Invocation × Luck)} {inv : Invocation} {l : Luck} (hs : Scheduled W hist inv l) {a : PAst}
    (ha : Reads W inv a) (hn : withSemicolons a.spec = false) (pre : Str) :
    output W hist inv l = .ofRes (expansion W (Env.builtin (l.ids 0)) ⟨[], 1, pre⟩ (tree a)) := by
  rw [output_reads hs ha, hn]
  exact congrArg Output.ofRes (expansion_no_warnings W _ rfl rfl _)

/-- **C51**: an invocation which uses `;` carries this one warning, and no other. -/
theorem C51_own_warning {W : World} {hist : List (Invocation × Luck)} {inv : Invocation} {l : Luck} (hs : Scheduled W hist inv l) {a : PAst}
    (ha : Reads W inv a) (hn : withSemicolons a.spec = true) :
    ∃ pre, output W hist inv l = .ofRes (expansion W (Env.builtin (l.ids 0))
      ⟨[⟨S "Using semicolons as separators is deprecated, use commas instead", S "0.0.5"⟩], 1, pre⟩ (tree a)) :=
  ⟨_, by rw [output_reads hs ha, hn]; rfl⟩

/-- **C52** (partial: only if the first invocation on the thread is one of the same macro; see `C52_false`): the warnings start with the
name of the invoked macro. -/
theorem C52_partial {W : World} {hist : List (Invocation × Luck)} {inv : Invocation} {l : Luck} (hs : Scheduled W hist inv l) {a : PAst}
    (ha : Reads W inv a) (hf : ∀ x ∈ hist.head?, macroName x.1 = macroName inv) :
    output W hist inv l = .ofRes (expansion W (Env.builtin (l.ids 0)) (serviceFor (macroPrefix inv) (withSemicolons a.spec)) (tree a)) := by
  rw [output_reads hs ha]
  have : macroPrefix (firstOn hist inv) = macroPrefix inv := by
    unfold firstOn
    cases hh : hist.head? with
    | none => rfl
    | some x => exact congrArg (· ++ S "!: ") (hf x hh)
  rw [this]

/-- The claim **C52** is false: after an invocation of `compose_idents!`, the warning of `compose!` starts with the name of the former. -/
theorem C52_false : output demoWorld [(.composeIdents [], demoLuck 2 0)] (.compose demoSemi) (demoLuck 2 1) =
    .tokens (warningToks Ext.demo.strRepr (S "compose_idents!: ") semicolonWarning ++ [id' "struct", id' "x", brace []]) ∧
    Scheduled demoWorld [(.composeIdents [], demoLuck 2 0)] (.compose demoSemi) (demoLuck 2 1) :=
  ⟨by decide +kernel, demo_scheduled _ _ (by decide +kernel)⟩

/-- On a fresh thread it starts with the name of the macro. -/
example : output demoWorld [] (.compose demoSemi) (demoLuck 2 1) =
    .tokens (warningToks Ext.demo.strRepr (S "compose!: ") semicolonWarning ++ [id' "struct", id' "x", brace []]) := by decide +kernel

/-- After an invocation with a warning, another one without: C51. -/
example : output demoWorld [(.compose demoSemi, demoLuck 2 0)] (.compose (demoSemi.set 4 comma)) (demoLuck 2 1) =
    .tokens [id' "struct", id' "x", brace []] := by decide +kernel

example : ∃ a, Reads demoWorld (.compose demoSemi) a ∧ withSemicolons a.spec = true :=
  ⟨_, reads_of_parse (ids := fun k => k) (k := 0) rfl, rfl⟩
example : ∃ a, Reads demoWorld (.compose (demoSemi.set 4 comma)) a ∧ withSemicolons a.spec = false :=
  ⟨_, reads_of_parse (ids := fun k => k) (k := 0) rfl, rfl⟩
example : ∃ a, Reads demoWorld (.compose demoLoop) a ∧ (iterations (tree a)).map (·.map (·.map (·.1))) = .ok [[S "x", S "y"], [S "x", S "y"]] :=
  ⟨_, reads_of_parse (ids := fun k => k) (k := 0) rfl, rfl⟩

/-! ## C55 -/

/-- **C55** (partial: only for inputs without `;`, or if the first invocations on the two threads are of the same macro; see
`C55_false`): if an input does not call `hash`, its expansion does not depend on the history, nor on the ids it gets and the iteration
orders of hash maps. -/
theorem C55_no_history_partial {W : World} {hist hist' : List (Invocation × Luck)} {inv : Invocation} {l l' : Luck}
    (hs : Scheduled W hist inv l) (hs' : Scheduled W hist' inv l')
    (hh : ∀ a, Reads W inv a → ∀ e ∈ exprsIn (tree a), S "hash" ∉ calls e)
    (hw : ∀ a, Reads W inv a → withSemicolons a.spec = false ∨ macroPrefix (firstOn hist inv) = macroPrefix (firstOn hist' inv)) :
    output W hist inv l = output W hist' inv l' := by
  by_cases hr : ∃ a, Reads W inv a
  · obtain ⟨a, ha⟩ := hr
    rw [output_reads hs ha, output_reads hs' ha, expansion_seed (hh a ha) (s' := l'.ids 0)]
    rcases hw a ha with h | h
    · rw [h]
      exact congrArg Output.ofRes (expansion_no_warnings W _ rfl rfl _)
    · rw [h]
  · have hr' : ∀ a, ¬ Reads W inv a := fun a ha => hr ⟨a, ha⟩
    rw [output_unread hs hr', output_unread hs' hr']

/-- **C55** (partial, as before): an input which calls `hash` depends on the history only by its seed, the first id it draws. -/
theorem C55_same_seed_partial {W : World} {hist hist' : List (Invocation × Luck)} {inv : Invocation} {l l' : Luck}
    (hs : Scheduled W hist inv l) (hs' : Scheduled W hist' inv l') (hi : l.ids 0 = l'.ids 0)
    (hw : ∀ a, Reads W inv a → withSemicolons a.spec = false ∨ macroPrefix (firstOn hist inv) = macroPrefix (firstOn hist' inv)) :
    output W hist inv l = output W hist' inv l' := by
  by_cases hr : ∃ a, Reads W inv a
  · obtain ⟨a, ha⟩ := hr
    rw [output_reads hs ha, output_reads hs' ha, hi]
    rcases hw a ha with h | h
    · rw [h]
      exact congrArg Output.ofRes (expansion_no_warnings W _ rfl rfl _)
    · rw [h]
  · have hr' : ∀ a, ¬ Reads W inv a := fun a ha => hr ⟨a, ha⟩
    rw [output_unread hs hr', output_unread hs' hr']

/-- The claim **C55** is false: the history changes the text of a warning. The input does not call `hash`. -/
theorem C55_false : (∃ a, Reads demoWorld (.compose demoSemi) a ∧ ∀ e ∈ exprsIn (tree a), S "hash" ∉ calls e) ∧
    Scheduled demoWorld [(.composeIdents [], demoLuck 2 0)] (.compose demoSemi) (demoLuck 2 1) ∧
    Scheduled demoWorld [] (.compose demoSemi) (demoLuck 2 1) ∧
    output demoWorld [(.composeIdents [], demoLuck 2 0)] (.compose demoSemi) (demoLuck 2 1) ≠
      output demoWorld [] (.compose demoSemi) (demoLuck 2 1) := by
  refine ⟨⟨_, reads_of_parse (ids := fun k => k) (k := 0) rfl, ?_⟩, demo_scheduled _ _ (by decide +kernel), demo_scheduled _ _ (by decide +kernel),
    by decide +kernel⟩
  intro e he
  simp [exprsIn, tree, PAst.conv] at he
  subst he
  decide

example : output demoWorld [(.composeItem [] demoSemi, demoLuck 2 0), (.composeIdents demoLoop, demoLuck 2 0)] (.compose demoLoop) (demoLuck 2 1) =
    output demoWorld [] (.compose demoLoop) (demoLuck 2 0) := by decide +kernel

/-! ## C46 -/

/-- **C46** (partial: only if the loops and definitions, with a separator after each definition, can be read at all; see `C46_false`; if the
attribute does not end with a macro variable; and without `;` on a thread on which no macro ran before, since there the warnings name different macros): `#[compose_item(defs)] item` expands to
what `compose!(defs { item })` expands to, if the two get the same seed. -/
theorem C46_expansion_partial {W : World} (h1 : StopsAtSep W.Y.path) (h2 : StopsAtSep W.Y.type) (h3 : StopsAtSep W.Y.expr) {x b : Toks}
    (hx : Solid x) (hc : ∃ h, ReadsClosed isBuiltin W.Y x h []) {hist : List (Invocation × Luck)} {l l' : Luck}
    (hs : Scheduled W hist (.compose (x ++ [.group .brace b])) l) (hs' : Scheduled W hist (.composeItem x b) l') (hi : l.ids 0 = l'.ids 0)
    (hw : hist ≠ [] ∨ ∀ a, Reads W (.composeItem x b) a → withSemicolons a.spec = false) :
    output W hist (.compose (x ++ [.group .brace b])) l = output W hist (.composeItem x b) l' := by
  cases hb : W.Y.parseBlock b with
  | none =>
    rw [output_unread hs, output_unread hs']
    · rintro a ⟨-, h⟩
      rw [hb] at h
      cases h
    · intro a ha
      have := ((readsInput_attr h1 h2 h3 hx).mp ha).2
      rw [hb] at this
      cases this
  | some block =>
    obtain ⟨⟨ls, s⟩, hc⟩ := hc
    have hr : Reads W (.compose (x ++ [.group .brace b])) ⟨0, ls, s, block⟩ := (readsInput_attr h1 h2 h3 hx).mpr ⟨hc, hb⟩
    have hr' : Reads W (.composeItem x b) ⟨0, ls, s, block⟩ := ⟨.mk 0 (ReadsClosed.header hc) (.inl rfl), hb⟩
    rw [output_reads hs hr, output_reads hs' hr', hi]
    rcases hw with hw | hw
    · cases hist with
      | nil => exact (hw rfl).elim
      | cons y ys => rfl
    · rw [hw _ hr']
      exact congrArg Output.ofRes (expansion_no_warnings W _ rfl rfl _)

/-- **C46** (partial, as before): without `hash`, the seeds do not matter. -/
theorem C46_expansion_no_hash_partial {W : World} (h1 : StopsAtSep W.Y.path) (h2 : StopsAtSep W.Y.type) (h3 : StopsAtSep W.Y.expr)
    {x b : Toks} (hx : Solid x) (hc : ∃ h, ReadsClosed isBuiltin W.Y x h []) {hist : List (Invocation × Luck)} {l l' : Luck}
    (hs : Scheduled W hist (.compose (x ++ [.group .brace b])) l) (hs' : Scheduled W hist (.composeItem x b) l')
    (hh : ∀ a, Reads W (.composeItem x b) a → ∀ e ∈ exprsIn (tree a), S "hash" ∉ calls e)
    (hw : hist ≠ [] ∨ ∀ a, Reads W (.composeItem x b) a → withSemicolons a.spec = false) :
    output W hist (.compose (x ++ [.group .brace b])) l = output W hist (.composeItem x b) l' := by
  cases hb : W.Y.parseBlock b with
  | none =>
    rw [output_unread hs, output_unread hs']
    · rintro a ⟨-, h⟩
      rw [hb] at h
      cases h
    · intro a ha
      have := ((readsInput_attr h1 h2 h3 hx).mp ha).2
      rw [hb] at this
      cases this
  | some block =>
    obtain ⟨⟨ls, s⟩, hc⟩ := hc
    have hr : Reads W (.compose (x ++ [.group .brace b])) ⟨0, ls, s, block⟩ := (readsInput_attr h1 h2 h3 hx).mpr ⟨hc, hb⟩
    have hr' : Reads W (.composeItem x b) ⟨0, ls, s, block⟩ := ⟨.mk 0 (ReadsClosed.header hc) (.inl rfl), hb⟩
    rw [output_reads hs hr, output_reads hs' hr', expansion_seed (hh _ hr') (s' := l'.ids 0)]
    rcases hw with hw | hw
    · cases hist with
      | nil => exact (hw rfl).elim
      | cons y ys => rfl
    · rw [hw _ hr']
      exact congrArg Output.ofRes (expansion_no_warnings W _ rfl rfl _)

example : output demoWorld [] (.composeItem demoLoop.dropLast [id' "struct", id' "y", brace []]) (demoLuck 2 1) =
    output demoWorld [] (.compose demoLoop) (demoLuck 2 1) := by decide +kernel

end Verif.Props
