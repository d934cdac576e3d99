import Verif.Proofs.Independence
import Verif.Proofs.VisitorLocal
import Verif.Props.Run
import Verif.Props.Visitor
/-!
# Properties C59 to C63: what whole invocations mean

The output as a function of the text of the block and the values of the aliases, and changes of the input which leave the
output as it is.
-/

namespace Verif.Props
open Verif Spec

/-! ## Two invocations -/

/-- No call of `hash`. -/
def NoHash (a : PAst) : Prop := ∀ e ∈ exprsIn (tree a), S "hash" ∉ calls e

/-- The two invocations, which are read as `a` and `a'`, have the same seed (or do not use it) and carry the same warnings. -/
structure SameSetting (hist : List (Invocation × Luck)) (inv : Invocation) (l : Luck) (a : PAst)
    (hist' : List (Invocation × Luck)) (inv' : Invocation) (l' : Luck) (a' : PAst) : Prop where
  seed : l.ids 0 = l'.ids 0 ∨ NoHash a ∧ NoHash a'
  semicolons : withSemicolons a.spec = withSemicolons a'.spec
  pre : withSemicolons a.spec = false ∨ macroPrefix (firstOn hist inv) = macroPrefix (firstOn hist' inv')

theorem setting_output {W : World} {hist hist' : List (Invocation × Luck)} {inv inv' : Invocation} {l l' : Luck} {a a' : PAst}
    (hs' : Scheduled W hist' inv' l') (ha' : Reads W inv' a') (h : SameSetting hist inv l a hist' inv' l' a') :
    output W hist' inv' l' =
      .ofRes (expansion W (Env.builtin (l.ids 0)) (serviceFor (macroPrefix (firstOn hist inv)) (withSemicolons a.spec)) (tree a')) := by
  rw [output_reads hs' ha', ← h.semicolons]
  have : expansion W (Env.builtin (l'.ids 0)) (serviceFor (macroPrefix (firstOn hist' inv')) (withSemicolons a.spec)) (tree a') =
      expansion W (Env.builtin (l'.ids 0)) (serviceFor (macroPrefix (firstOn hist inv)) (withSemicolons a.spec)) (tree a') := by
    rcases h.pre with hn | hp
    · rw [hn]; exact expansion_no_warnings W _ rfl rfl _
    · rw [hp]
  rw [this]
  rcases h.seed with hi | hi
  · rw [hi]
  · rw [expansion_seed hi.2]

/-! ## Iterations -/

/-- What the loops bind, in each iteration. -/
def loopBindings (t : RawAst Str Expr (List Stmt)) : Res (List (List (Str × Expr))) :=
  match t.loops with
  | none => .ok [[]]
  | some loops => mapRes (loopSpecItems loops) (combinations (loops.map (·.2)))

theorem mapRes_map {γ δ ε : Type} {f : γ → Res δ} {g : δ → ε} (xs : List γ) :
    mapRes (fun x => (f x).map g) xs = (mapRes f xs).map (·.map g) := by
  induction xs with
  | nil => rfl
  | cons x xs ih =>
    simp only [mapRes, ih]
    cases f x with
    | err e => rfl
    | panic => rfl
    | ok y => cases mapRes f xs <;> rfl

theorem iterations_eq (a : PAst) : iterations (tree a) = (loopBindings (tree a)).map (·.map (· ++ definitions a)) := by
  unfold iterations loopBindings
  cases hl : (tree a).loops with
  | none =>
    obtain ⟨br, h1, -, h2⟩ := C38_no_loops_once _ hl
    rw [h1]
    simp only [Res.map, List.map_cons, List.map_nil, h2, definitions]
    cases (tree a).spec <;> rfl
  | some loops =>
    rw [expand_loops_eq _ loops hl]
    simp only
    rw [← mapRes_map, ← mapRes_map]
    congr 1
    funext vals
    unfold rewriteFor
    cases loopSpecItems loops vals with
    | err e => rfl
    | panic => rfl
    | ok items =>
      simp only [Res.map, definitions]
      cases (tree a).spec <;> simp

theorem mapRes_of_getElem {γ δ : Type} {f : γ → Res δ} {xs : List γ} {ys : List δ} (hl : ys.length = xs.length)
    (h : ∀ (i : Nat) x, xs[i]? = some x → ∃ y, f x = .ok y ∧ ys[i]? = some y) : mapRes f xs = .ok ys := by
  induction xs generalizing ys with
  | nil => cases ys with
    | nil => rfl
    | cons => cases hl
  | cons x xs ih =>
    cases ys with
    | nil => cases hl
    | cons y ys =>
      obtain ⟨y', h1, h2⟩ := h 0 x rfl
      cases h2
      simp [mapRes, h1, ih (by simpa using hl) (fun i z hz => h (i + 1) z hz)]

/-- The definitions in force are those of the iterations. -/
theorem iterations_of_inForce {a : PAst} {its : List (List (Str × Expr))} (h : InForce a its) : iterations (tree a) = .ok its := by
  rw [iterations_eq]
  unfold loopBindings
  cases h with
  | once h => rw [h]; simp [Res.map]
  | each loops h _ hl hi =>
    rw [h]
    simp only
    rw [← mapRes_map]
    refine mapRes_of_getElem hl fun i vals hv => ?_
    obtain ⟨items, h1, h2⟩ := hi i vals hv
    exact ⟨_, by rw [loopSpecItems_of_binds h1]; rfl, h2⟩

/-! ## C60: loops are unrolled -/

/-- The first output that is not code, or all code, one after the other. -/
def joinOutputs : List Output → Output
  | [] => .tokens []
  | .tokens ts :: os =>
    match joinOutputs os with
    | .tokens us => .tokens (ts ++ us)
    | .compileError e => .compileError e
    | .panicked => .panicked
  | .compileError e :: _ => .compileError e
  | .panicked :: _ => .panicked

theorem joinOutputs_ofRes (rs : List (Res Toks)) : joinOutputs (rs.map .ofRes) = .ofRes (joinAll rs) := by
  induction rs with
  | nil => rfl
  | cons r rs ih =>
    cases r with
    | err e => rfl
    | panic => rfl
    | ok ts =>
      simp only [List.map_cons, Output.ofRes, joinOutputs, ih, joinAll]
      cases joinAll rs <;> rfl

theorem expansion_once {W : World} {env : Env} {sv : Service} {a : PAst} (hl : (tree a).loops = none) :
    expansion W env sv (tree a) = copyOf W env sv a.block (definitions a) := by
  unfold expansion
  rw [iterations_of_inForce (.once hl)]
  simp only [List.map_cons, List.map_nil]
  show joinAll [copyOf W env sv (tree a).block _] = _
  have hb : (tree a).block = a.block := rfl
  rw [hb]
  cases copyOf W env sv a.block (definitions a) <;> simp [joinAll, Res.map]

/-- **C60**: an invocation with loops puts out what invocations without loops put out, one for each iteration, in their order, with the
loop aliases of that iteration written as definitions in front of the others; the first one that fails decides. -/
theorem C60_unrolled {W : World} {hist : List (Invocation × Luck)} {inv : Invocation} {l : Luck} (hs : Scheduled W hist inv l) {a : PAst}
    (ha : Reads W inv a) {its : List (List (Str × Expr))} (hi : InForce a its)
    {hists : Nat → List (Invocation × Luck)} {invs : Nat → Invocation} {ls : Nat → Luck} {as : Nat → PAst}
    (h : ∀ i defs, its[i]? = some defs → Scheduled W (hists i) (invs i) (ls i) ∧ Reads W (invs i) (as i) ∧ (tree (as i)).loops = none ∧
      definitions (as i) = defs ∧ (as i).block = a.block ∧ SameSetting hist inv l a (hists i) (invs i) (ls i) (as i)) :
    output W hist inv l = joinOutputs ((List.range its.length).map fun i => output W (hists i) (invs i) (ls i)) := by
  have h1 : ((List.range its.length).map fun i => output W (hists i) (invs i) (ls i)) =
      (its.map (copyOf W (Env.builtin (l.ids 0)) (serviceFor (macroPrefix (firstOn hist inv)) (withSemicolons a.spec)) a.block)).map .ofRes := by
    apply List.ext_getElem?
    intro i
    simp only [List.getElem?_map]
    by_cases hlt : i < its.length
    · rw [List.getElem?_range hlt, List.getElem?_eq_getElem hlt]
      obtain ⟨h2, h3, h4, h5, h6, h7⟩ := h i its[i] (List.getElem?_eq_getElem hlt)
      simp only [Option.map_some]
      rw [setting_output h2 h3 h7, expansion_once h4, h5, h6]
    · rw [List.getElem?_eq_none (by simpa using hlt), List.getElem?_eq_none (by omega)]
      rfl
  rw [h1, joinOutputs_ofRes, output_reads hs ha]
  unfold expansion
  rw [iterations_of_inForce hi]
  rfl

/-- **C60**: an empty list of values gives no code at all, whatever the definitions and the block are. -/
theorem C60_empty {W : World} {hist : List (Invocation × Luck)} {inv : Invocation} {l : Luck} (hs : Scheduled W hist inv l) {a : PAst}
    (ha : Reads W inv a) {loops : List (LoopAlias Str × List (LoopSourceValue Expr))} (hl : (tree a).loops = some loops)
    {x : LoopAlias Str × List (LoopSourceValue Expr)} (hx : x ∈ loops) (he : x.2 = []) : output W hist inv l = .tokens [] := by
  rw [output_reads hs ha]
  simp only [expansion, iterations, C38_empty_list_nothing _ loops hl x hx he]
  rfl

/-! ## Changing the definitions -/

theorem copyOf_ok {W : World} {env : Env} {sv : Service} {b : List Stmt} {defs : List (Str × Expr)} {c : Toks} :
    copyOf W env sv b defs = .ok c ↔ ∃ vs stmts, outcome W.E env defs = .ok vs ∧ visitBlock W.E W.Y.toGrammar vs b = .ok stmts ∧
      c = cstsPrint (sv.emit W.E.strRepr (stmtsCst W.sites stmts)) := by
  unfold copyOf
  cases outcome W.E env defs with
  | err e => simp
  | panic => simp
  | ok vs =>
    simp only [Res.ok.injEq, exists_and_left, exists_eq_left']
    cases visitBlock W.E W.Y.toGrammar vs b with
    | err e => simp
    | panic => simp
    | ok stmts => simp [eq_comm]

/-- If each copy is the same with the other definitions, then so is the output. -/
theorem output_change {W : World} {hist hist' : List (Invocation × Luck)} {inv inv' : Invocation} {l l' : Luck} {a a' : PAst}
    (hs : Scheduled W hist inv l) (ha : Reads W inv a) (hs' : Scheduled W hist' inv' l') (ha' : Reads W inv' a')
    (hal : SameSetting hist inv l a hist' inv' l' a') (hl : (tree a').loops = (tree a).loops)
    (hc : ∀ items c sv, copyOf W (Env.builtin (l.ids 0)) sv a.block (items ++ definitions a) = .ok c →
      copyOf W (Env.builtin (l.ids 0)) sv a'.block (items ++ definitions a') = .ok c)
    {ts : Toks} (h : output W hist inv l = .tokens ts) : output W hist' inv' l' = .tokens ts := by
  rw [setting_output hs' ha' hal]
  rw [output_reads hs ha] at h
  have hb : loopBindings (tree a') = loopBindings (tree a) := by unfold loopBindings; rw [hl]
  unfold expansion at h ⊢
  rw [iterations_eq] at h ⊢
  rw [hb]
  cases hi : loopBindings (tree a) with
  | err e => rw [hi] at h; cases h
  | panic => rw [hi] at h; cases h
  | ok its =>
    rw [hi] at h
    simp only [Res.map, List.map_map] at h ⊢
    generalize hj : joinAll _ = r at h
    cases r with
    | err e => cases h
    | panic => cases h
    | ok t =>
      cases h
      obtain ⟨cs, h1, rfl⟩ := joinAll_ok hj
      have h2 : its.map (copyOf W (Env.builtin (l.ids 0)) (serviceFor (macroPrefix (firstOn hist inv)) (withSemicolons a.spec)) (tree a').block ∘
          fun x => x ++ definitions a') = cs.map .ok := by
        clear hi hj
        induction its generalizing cs with
        | nil => cases cs with
          | nil => rfl
          | cons => cases h1
        | cons x its ih =>
          cases cs with
          | nil => cases h1
          | cons c cs =>
            simp only [List.map_cons, Function.comp_apply, List.cons.injEq] at h1 ⊢
            exact ⟨hc _ _ _ h1.1, ih cs h1.2⟩
      rw [h2, joinAll_map_ok]
      rfl

/-- **C61**: a definition whose name is used neither in later definitions nor in the block can be left out: if the invocation succeeds,
the one without it has the same output. -/
theorem C61_unused_definition {W : World} {hist hist' : List (Invocation × Luck)} {inv inv' : Invocation} {l l' : Luck} {a a' : PAst}
    (hs : Scheduled W hist inv l) (ha : Reads W inv a) (hs' : Scheduled W hist' inv' l') (ha' : Reads W inv' a')
    (hal : SameSetting hist inv l a hist' inv' l' a') (hl : (tree a').loops = (tree a).loops) (hb : a'.block = a.block)
    {n : Str} {e : Expr} {d1 d2 : List (Str × Expr)} (hd : definitions a = d1 ++ (n, e) :: d2) (hd' : definitions a' = d1 ++ d2)
    (hn : n ∉ usedIn d2) (hu : ¬ UsedInBlock W.E.toCharClass n a.block) {ts : Toks} (h : output W hist inv l = .tokens ts) :
    output W hist' inv' l' = .tokens ts := by
  refine output_change hs ha hs' ha' hal hl ?_ h
  intro items c sv hc
  rw [hd, ← List.append_assoc] at hc
  rw [hd', ← List.append_assoc, hb]
  obtain ⟨vs, stmts, h1, h2, rfl⟩ := copyOf_ok.1 hc
  obtain ⟨vs', h3, h4⟩ := outcome_drop (E := W.E) (env := Env.builtin (l.ids 0)) rfl hn h1
  refine copyOf_ok.2 ⟨vs', stmts, h3, ?_, rfl⟩
  rw [← h2]
  refine visitBlock_local _ fun p hp => agreeOn_of_get fun m hm => h4 m ?_
  rintro rfl
  exact hu ⟨p, hp, hm⟩

/-- **C62**: the order of the definitions does not matter as long as none uses a name that is defined later. -/
theorem C62_order {W : World} {hist hist' : List (Invocation × Luck)} {inv inv' : Invocation} {l l' : Luck} {a a' : PAst}
    (hs : Scheduled W hist inv l) (ha : Reads W inv a) (hs' : Scheduled W hist' inv' l') (ha' : Reads W inv' a')
    (hal : SameSetting hist inv l a hist' inv' l' a') (hl : (tree a').loops = (tree a).loops) (hb : a'.block = a.block)
    (hp : (definitions a).Perm (definitions a')) (hf : NoForward (definitions a)) (hf' : NoForward (definitions a')) {ts : Toks}
    (h : output W hist inv l = .tokens ts) : output W hist' inv' l' = .tokens ts := by
  refine output_change hs ha hs' ha' hal hl ?_ h
  intro items c sv hc
  rw [hb]
  obtain ⟨vs, stmts, h1, h2, rfl⟩ := copyOf_ok.1 hc
  obtain ⟨vs', h3, h4⟩ := outcome_perm (E := W.E) (env := Env.builtin (l.ids 0)) rfl _ rfl hp hf hf' h1
  refine copyOf_ok.2 ⟨vs', stmts, h3, ?_, rfl⟩
  rw [← h2]
  exact visitBlock_congr h4 _

/-! ## C59: what an invocation means -/

/-- Assumptions on `syn`: a parsed block prints as it was (as far as `q` tells; `q` may disregard the spacing of punctuation, which `syn` does
not keep), each of its statements is a block when put in braces, and the parts in which items can be found print as they are. -/
structure GoodSyntax (q : Toks → Toks) (W : World) : Prop where
  coarse : Coarse q
  lossless : ∀ c ss, W.Y.parseBlock c = some ss → q (stmtsToks ss) = q c
  statements : ∀ c ss, W.Y.parseBlock c = some ss → StatementsParse W.Y.toGrammar ss
  sites : ∀ k ts, cstsPrint (W.sites k ts) = ts

theorem output_copies {W : World} {hist : List (Invocation × Luck)} {inv : Invocation} {l : Luck} (hs : Scheduled W hist inv l) {a : PAst}
    (ha : Reads W inv a) {ts : Toks} (h : output W hist inv l = .tokens ts) : ∃ (its : List (List (Str × Expr))) (cs : List Toks),
      InForce a its ∧ ts = cs.flatten ∧ cs.length = its.length ∧ ∀ (i : Nat) (defs : List (Str × Expr)), its[i]? = some defs →
        ∃ c, cs[i]? = some c ∧
          copyOf W (Env.builtin (l.ids 0)) (serviceFor (macroPrefix (firstOn hist inv)) (withSemicolons a.spec)) a.block defs = .ok c := by
  rw [output_reads hs ha] at h
  unfold expansion at h
  cases hi : iterations (tree a) with
  | err e => rw [hi] at h; cases h
  | panic => rw [hi] at h; cases h
  | ok its =>
    rw [hi] at h
    simp only at h
    generalize hj : joinAll _ = r at h
    cases r with
    | err e => cases h
    | panic => cases h
    | ok t =>
      cases h
      obtain ⟨cs, h1, rfl⟩ := joinAll_ok hj
      have hlen := congrArg List.length h1
      simp only [List.length_map] at hlen
      refine ⟨its, cs, inForce_of_iterations hi, rfl, hlen.symm, fun i defs hd => ?_⟩
      have h2 := congrArg (·[i]?) h1
      simp only [List.getElem?_map, hd, Option.map_some] at h2
      cases hc : cs[i]? with
      | none => rw [hc] at h2; cases h2
      | some c =>
        rw [hc] at h2
        exact ⟨c, rfl, (Option.some.inj h2 : _)⟩

mutual
/-- A token tree; a group without delimiters is its tokens. -/
def bareTok : Tok → Toks
  | .group .none ts => bare ts
  | t => [t]
/-- The tokens without the groups without delimiters around them, in which the compiler puts the values of macro variables. -/
def bare : Toks → Toks
  | [] => []
  | t :: ts => bareTok t ++ bare ts
end

/-- The code to be expanded: between the braces at the end of the input (a separator may follow), or the decorated item. -/
inductive Code : Invocation → Toks → Prop
  | compose {ts : Toks} (pre body : Toks) (h : bare ts = pre ++ [.group .brace body]) : Code (.compose ts) body
  | composeSep {ts : Toks} (pre body : Toks) (c : Bool) (t : Tok) (ht : IsSep c t) (h : bare ts = pre ++ [.group .brace body, t]) : Code (.compose ts) body
  | idents {ts : Toks} (pre body : Toks) (h : bare ts = pre ++ [.group .brace body]) : Code (.composeIdents ts) body
  | identsSep {ts : Toks} (pre body : Toks) (c : Bool) (t : Tok) (ht : IsSep c t) (h : bare ts = pre ++ [.group .brace body, t]) :
      Code (.composeIdents ts) body
  | item (attr body : Toks) : Code (.composeItem attr body) body

theorem bare_append (a b : Toks) : bare (a ++ b) = bare a ++ bare b := by
  induction a with
  | nil => rfl
  | cons t a ih => simp [bare, ih]

theorem after_bare {a b : Toks} (h : After a b) : bare b <:+ bare a := by
  induction h with
  | refl => exact List.suffix_refl _
  | tail _ ih => exact ih.trans (by rw [bare]; exact List.suffix_append _ _)
  | enter _ ih => rw [bare_append] at ih; rw [bare, bareTok]; exact ih

theorem bareTok_of {t : Tok} (h : ∀ c, t ≠ .group .none c) : bareTok t = [t] := by
  rcases t with _ | _ | _ | ⟨⟨⟩, c⟩ <;> simp [bareTok]
  exact (h c rfl).elim

/-- What comes before the block and the tokens after it. -/
theorem code_bare {known : Str → Bool} {Y : Syn} {ts : Toks} {h : Option PLoops × Option PSpec} {mid b tail : Toks}
    (hh : ReadsHeader known Y ts h mid) (hm : First mid (.group .brace b) tail) : ∃ pre, bare ts = pre ++ .group .brace b :: bare tail := by
  obtain ⟨pre, hp⟩ := after_bare ((readsHeader_after hh).trans hm.after)
  refine ⟨pre, ?_⟩
  rw [← hp, bare, bareTok_of (by simp)]
  rfl

/-- **C59**: the block is the parsed code of the invocation. -/
theorem C59_code {W : World} {inv : Invocation} {a : PAst} (h : Reads W inv a) : ∃ body, Code inv body ∧ W.Y.parseBlock body = some a.block := by
  cases inv with
  | compose ts =>
    obtain ⟨id, h1, hm, h2, h3⟩ := h
    obtain ⟨pre, hp⟩ := code_bare h1 hm
    refine ⟨_, ?_, h2⟩
    rcases h3 with rfl | ⟨c, t, rfl, h3, -⟩
    · exact .compose _ _ hp
    · exact .composeSep pre _ c t h3 (by rw [hp, bare, bareTok_of (sep_not_none h3)]; rfl)
  | composeIdents ts =>
    obtain ⟨id, h1, hm, h2, h3⟩ := h
    obtain ⟨pre, hp⟩ := code_bare h1 hm
    refine ⟨_, ?_, h2⟩
    rcases h3 with rfl | ⟨c, t, rfl, h3, -⟩
    · exact .idents _ _ hp
    · exact .identsSep pre _ c t h3 (by rw [hp, bare, bareTok_of (sep_not_none h3)]; rfl)
  | composeItem x b => exact ⟨b, .item _ _, h.2⟩

/-- **C59**: the output of an invocation which succeeds is, for each iteration in order, the code of the block (without the where-clauses of
structs, enums, unions, traits and impls, see `C17_false`) in which every alias in force is replaced by its value and the placeholders in
string literals by the texts of the values, all at once. (No semicolons, so that there are no warnings.) -/
theorem C59_meaning {W : World} {q : Toks → Toks} (hW : GoodSyntax q W) {hist : List (Invocation × Luck)} {inv : Invocation} {l : Luck}
    (hs : Scheduled W hist inv l) {a : PAst} (ha : Reads W inv a) (hn : withSemicolons a.spec = false) {ts : Toks}
    (hk : ∀ its, InForce a its → ∀ defs ∈ its, ∀ s ∈ itemKeywords, s ∉ defs.map (·.1)) (h : output W hist inv l = .tokens ts) :
    ∃ (its : List (List (Str × Expr))) (cs : List Toks), InForce a its ∧ ts = cs.flatten ∧ cs.length = its.length ∧
      ∀ (i : Nat) (defs : List (Str × Expr)), its[i]? = some defs →
        ∃ vs, outcome W.E (Env.builtin (l.ids 0)) defs = .ok vs ∧ ∀ fmt, FormatsAll W.E vs fmt →
          ∃ c, cs[i]? = some c ∧ q c = q (substAll (valueToks vs) (litWith W.E fmt) (stmtsToks (stmtsNoWhere a.block))) := by
  obtain ⟨its, cs, h1, h2, h3, h4⟩ := output_copies hs ha h
  refine ⟨its, cs, h1, h2, h3, fun i defs hd => ?_⟩
  obtain ⟨c, h5, h6⟩ := h4 i defs hd
  obtain ⟨vs, stmts, h7, h8, rfl⟩ := copyOf_ok.1 h6
  refine ⟨vs, h7, fun fmt hf => ?_⟩
  obtain ⟨body, -, hb⟩ := C59_code ha
  rw [hn] at h5
  refine ⟨_, h5, ?_⟩
  have h9 := C17_all_but_where hW.coarse hf (fun s hs => ?_) hW.lossless (hW.statements _ _ hb) h8
  · rw [← h9, ← stmts_cst hW.sites]
    rfl
  · have := hk its h1 defs (List.mem_of_getElem? hd) s hs
    rw [← (denote_names (outcome_ok.1 h7).2).1] at this
    rw [List.lookup_eq_none_iff]
    intro p hp
    simp only [bne_iff_ne, ne_eq]
    rintro rfl
    exact this (List.mem_map_of_mem hp)

/-- **C59** with semicolons: to each copy, at most one attribute with the warning is added. -/
theorem C59_warned {W : World} {q : Toks → Toks} (hW : GoodSyntax q W) {hist : List (Invocation × Luck)} {inv : Invocation} {l : Luck}
    (hs : Scheduled W hist inv l) {a : PAst} (ha : Reads W inv a) {ts : Toks}
    (hk : ∀ its, InForce a its → ∀ defs ∈ its, ∀ s ∈ itemKeywords, s ∉ defs.map (·.1)) (h : output W hist inv l = .tokens ts) :
    ∃ (its : List (List (Str × Expr))) (cs : List Toks), InForce a its ∧ ts = cs.flatten ∧ cs.length = its.length ∧
      ∀ (i : Nat) (defs : List (Str × Expr)), its[i]? = some defs →
        ∃ vs, outcome W.E (Env.builtin (l.ids 0)) defs = .ok vs ∧ ∀ fmt, FormatsAll W.E vs fmt →
          ∃ c ws b, cs[i]? = some c ∧ q b = q (substAll (valueToks vs) (litWith W.E fmt) (stmtsToks (stmtsNoWhere a.block))) ∧ Inserts ws b c ∧
            (ws = [] ∨ ws = [warningToks W.E.strRepr (macroPrefix (firstOn hist inv))
              ⟨S "Using semicolons as separators is deprecated, use commas instead", S "0.0.5"⟩]) := by
  obtain ⟨its, cs, h1, h2, h3, h4⟩ := output_copies hs ha h
  refine ⟨its, cs, h1, h2, h3, fun i defs hd => ?_⟩
  obtain ⟨c, h5, h6⟩ := h4 i defs hd
  obtain ⟨vs, stmts, h7, h8, rfl⟩ := copyOf_ok.1 h6
  refine ⟨vs, h7, fun fmt hf => ?_⟩
  obtain ⟨body, -, hb⟩ := C59_code ha
  have h9 := C17_all_but_where hW.coarse hf (fun s hs => ?_) hW.lossless (hW.statements _ _ hb) h8
  · refine ⟨_, _, _, h5, h9, C53_only_inserts hW.sites _ stmts, ?_⟩
    cases withSemicolons a.spec with
    | false => exact .inl (by simp [serviceFor])
    | true =>
      cases freshCount (nodeAttrs (stmtsCst W.sites stmts)) with
      | zero => exact .inl (by simp)
      | succ k => exact .inr (by simp [serviceFor])
  · have := hk its h1 defs (List.mem_of_getElem? hd) s hs
    rw [← (denote_names (outcome_ok.1 h7).2).1] at this
    rw [List.lookup_eq_none_iff]
    intro p hp
    simp only [bne_iff_ne, ne_eq]
    rintro rfl
    exact this (List.mem_map_of_mem hp)

/-! ## C63: the two function-like macros -/

/-- **C63**: `compose!` and `compose_idents!` do the same with the same input (and the same seed, unless `hash` is not called), apart from
the name of the macro in the warning about semicolons. -/
theorem C63_same_macro {W : World} {hist hist' : List (Invocation × Luck)} {ts : Toks} {l l' : Luck}
    (hs : Scheduled W hist (.compose ts) l) (hs' : Scheduled W hist' (.composeIdents ts) l')
    (hi : l.ids 0 = l'.ids 0 ∨ ∀ a, Reads W (.compose ts) a → NoHash a)
    (hw : ∀ a, Reads W (.compose ts) a → withSemicolons a.spec = false ∨
      macroPrefix (firstOn hist (.compose ts)) = macroPrefix (firstOn hist' (.composeIdents ts))) :
    output W hist (.compose ts) l = output W hist' (.composeIdents ts) l' := by
  by_cases hr : ∃ a, Reads W (.compose ts) a
  · obtain ⟨a, ha⟩ := hr
    have ha' : Reads W (.composeIdents ts) a := ha
    rw [output_reads hs ha, setting_output (hist := hist) (inv := .compose ts) (l := l) (a := a) hs' ha'
      ⟨hi.imp_right fun h => ⟨h a ha, h a ha⟩, rfl, hw a ha⟩]
  · have h1 : ∀ a, ¬ Reads W (.compose ts) a := fun a ha => hr ⟨a, ha⟩
    have h2 : ∀ a, ¬ Reads W (.composeIdents ts) a := h1
    rw [output_unread hs h1, output_unread hs' h2]

/-! ## Examples -/

theorem demo_good : GoodSyntax id demoWorld where
  coarse := ⟨rfl, fun _ _ => rfl, fun _ _ _ => rfl⟩
  lossless := by
    intro c ss h
    have h : some (demoStmts c) = some ss := h
    cases h
    unfold demoStmts
    split
    · split
      · rename_i h; subst h; simp [stmtsToks, Stmt.toks, Item.toks, Fields.toks, Punctuated.toks, sepToks, outerToks, kw]
      · simp [stmtsToks, Stmt.toks]
    · simp [stmtsToks, Stmt.toks]
  statements := by
    intro c ss h ts hm
    have h : some (demoStmts c) = some ss := h
    cases h
    have key : ∀ us : Toks, Grammar.validBlock demoWorld.Y.toGrammar [.group .brace us] = true := fun _ => rfl
    unfold demoStmts at hm
    split at hm
    · split at hm
      · simp [stmtsParts, stmtParts, itemParts, headParts, attrParts, fieldsParts] at hm
      · simp [stmtsParts, stmtParts] at hm; subst hm; exact key _
    · simp [stmtsParts, stmtParts] at hm; subst hm; exact key _
  sites := by intro k ts; simp [demoWorld, noSites, cstsPrint, Cst.print]

/-- `x = v, y = concat(x, 1), { struct y {} }` -/
def demoOnce (v : String) : Toks := [id' "x", eq', id' v, comma] ++ demoLoop.drop 4

/-- How an input is read. -/
def demoParse (ts : Toks) : PAst :=
  match (parseArgs demoWorld.Y isBuiltin (fun k => k) 0 (some demoService) (.compose ts)).1 with
  | .ok a => a
  | _ => ⟨0, none, none, []⟩

example : ∃ a its, Reads demoWorld (.compose demoLoop) a ∧ InForce a its ∧ its.length = 2 ∧ ∀ (i : Nat) defs, its[i]? = some defs →
    ∃ ts, Scheduled demoWorld [] (.compose ts) (demoLuck 2 1) ∧ Reads demoWorld (.compose ts) (demoParse ts) ∧
      (tree (demoParse ts)).loops = none ∧ definitions (demoParse ts) = defs ∧ (demoParse ts).block = a.block ∧
      SameSetting [] (.compose demoLoop) (demoLuck 2 1) a [] (.compose ts) (demoLuck 2 1) (demoParse ts) := by
  refine ⟨demoParse demoLoop, _, reads_of_parse (ids := fun k => k) (k := 0) rfl, inForce_of_iterations rfl, rfl, ?_⟩
  intro i defs h
  match i with
  | 0 =>
    cases h
    exact ⟨demoOnce "a", demo_scheduled _ _ (by decide +kernel), reads_of_parse (ids := fun k => k) (k := 0) rfl, rfl, rfl, rfl,
      .inl rfl, rfl, .inl rfl⟩
  | 1 =>
    cases h
    exact ⟨demoOnce "b", demo_scheduled _ _ (by decide +kernel), reads_of_parse (ids := fun k => k) (k := 0) rfl, rfl, rfl, rfl,
      .inl rfl, rfl, .inl rfl⟩
  | i + 2 => cases h

example : output demoWorld [] (.compose demoLoop) (demoLuck 2 1) =
    joinOutputs [output demoWorld [] (.compose (demoOnce "a")) (demoLuck 2 1), output demoWorld [] (.compose (demoOnce "b")) (demoLuck 2 1)] := by
  decide +kernel

/-- Loop without values. -/
example : ∃ a loops, Reads demoWorld (.compose (demoLoop.set 3 (.group .bracket []))) a ∧ (tree a).loops = some loops ∧
    ∃ x ∈ loops, x.2 = [] :=
  ⟨_, _, reads_of_parse (ids := fun k => k) (k := 0) rfl, rfl, _, List.mem_cons_self, rfl⟩

/-- `z = q, x = a, y = concat(x, 1), { struct y {} }`, and the same without `z = q`. -/
def demoUnused : Toks := [id' "z", eq', id' "q", comma] ++ demoOnce "a"

example : ∃ n e d1 d2, definitions (demoParse demoUnused) = d1 ++ (n, e) :: d2 ∧ definitions (demoParse (demoOnce "a")) = d1 ++ d2 ∧
    n ∉ usedIn d2 ∧ ¬ UsedInBlock demoWorld.E.toCharClass n (demoParse demoUnused).block ∧
    Reads demoWorld (.compose demoUnused) (demoParse demoUnused) ∧ Reads demoWorld (.compose (demoOnce "a")) (demoParse (demoOnce "a")) ∧
    SameSetting [] (.compose demoUnused) (demoLuck 2 1) (demoParse demoUnused) [] (.compose (demoOnce "a")) (demoLuck 2 1)
      (demoParse (demoOnce "a")) := by
  refine ⟨_, _, [], _, rfl, rfl, by decide, ?_, reads_of_parse (ids := fun k => k) (k := 0) rfl, reads_of_parse (ids := fun k => k) (k := 0) rfl,
    .inl rfl, rfl, .inl rfl⟩
  rintro ⟨p, hp, hu⟩
  have hb : stmtsParts (demoParse demoUnused).block =
      [(.attrs, []), (.node .vis, []), (.node .ident, [id' "y"]), (.node .generics, [])] := rfl
  rw [hb] at hp
  simp only [List.mem_cons, List.not_mem_nil, or_false] at hp
  rcases hp with rfl | rfl | rfl | rfl <;> simp [uses, usesTok, id'] at hu
  revert hu; decide

example : output demoWorld [] (.compose demoUnused) (demoLuck 2 1) = .tokens [id' "struct", id' "a1", brace []] ∧
    output demoWorld [] (.compose (demoOnce "a")) (demoLuck 2 1) = .tokens [id' "struct", id' "a1", brace []] := by decide +kernel

/-- `x = a, z = q, y = concat(x, 1), { struct y {} }`: a permutation of the former. -/
def demoMoved : Toks := [id' "x", eq', id' "a", comma, id' "z", eq', id' "q", comma] ++ demoLoop.drop 4

example : (definitions (demoParse demoUnused)).Perm (definitions (demoParse demoMoved)) ∧ NoForward (definitions (demoParse demoUnused)) ∧
    NoForward (definitions (demoParse demoMoved)) ∧
    definitions (demoParse demoUnused) ≠ definitions (demoParse demoMoved) ∧
    Reads demoWorld (.compose demoMoved) (demoParse demoMoved) := by
  refine ⟨List.Perm.swap _ _ _, ?_, ?_, ?_, reads_of_parse (ids := fun k => k) (k := 0) rfl⟩
  · exact ⟨by decide, by decide, by decide, trivial⟩
  · exact ⟨by decide, by decide, by decide, trivial⟩
  · intro h
    have := congrArg (·.map (·.1)) h
    revert this
    decide

/-- The output is the code with the aliases replaced: C59. -/
example : withSemicolons (demoParse demoLoop).spec = false ∧ Code (.compose demoLoop) [id' "struct", id' "y", brace []] ∧
    ∀ its, InForce (demoParse demoLoop) its → ∀ defs ∈ its, ∀ s ∈ itemKeywords, s ∉ defs.map (·.1) := by
  refine ⟨rfl, .compose (demoLoop.take 9) _ rfl, ?_⟩
  intro its h
  have h1 := iterations_of_inForce h
  have h2 : (iterations (tree (demoParse demoLoop))).map (·.map (·.map (·.1))) = .ok [[S "x", S "y"], [S "x", S "y"]] := rfl
  rw [h1] at h2
  have h3 : its.map (·.map (·.1)) = [[S "x", S "y"], [S "x", S "y"]] := by simpa [Res.map] using h2
  intro defs hd s hs hm
  have h4 := List.mem_map_of_mem (f := (·.map (·.1))) hd
  rw [h3] at h4
  simp only [List.mem_cons, List.not_mem_nil, or_false, or_self] at h4
  rw [h4] at hm
  revert s
  decide

example : output demoWorld [] (.composeIdents demoLoop) (demoLuck 2 0) = output demoWorld [] (.compose demoLoop) (demoLuck 2 1) := by
  decide +kernel

end Verif.Props
