import Verif.Proofs.Matters
import Verif.Proofs.VisitorLocal
import Verif.Props.Laws
/-!
# Property C105: what matters of the aliases

The generated code is determined by the block and, for each copy, by the tokens of the aliases that stand in it and by the texts of those in its string literals; how the
aliases were defined, in which loop, with which functions or in which order does not matter. Conversely every token of an alias that stands in the code does matter.
-/

namespace Verif.Props
open Verif Spec

/-- To the block, the two lists of values are the same: the same tokens for its identifiers, the same texts for its string literals. -/
def SameToBlock (E : Ext) (b : List Stmt) (vs vs' : Subs) : Prop :=
  (∀ n, MentionedInBlock n b → (List.lookup n vs).map codeOf = (List.lookup n vs').map codeOf) ∧
    ∀ n, ShownInBlock E.toCharClass n b → (List.lookup n vs).map (stringForm E) = (List.lookup n vs').map (stringForm E)

theorem visitBlock_same {E : Ext} {G : Grammar} {b : List Stmt} {vs vs' : Subs} (h : SameToBlock E b vs vs') :
    visitBlock E G vs b = visitBlock E G vs' b := by
  refine visitBlock_local _ fun p hp => ⟨fun n hm => ?_, fun n hm => ?_⟩
  · have := h.1 n ⟨p, hp, hm⟩
    rwa [← get_eq_lookup, ← get_eq_lookup, codeOf_eq] at this
  · have := h.2 n ⟨p, hp, hm⟩
    rwa [← get_eq_lookup, ← get_eq_lookup, funext (stringForm_eq E)] at this

theorem copyOf_same {W : World} {env env' : Env} {sv : Service} {b : List Stmt} {defs defs' : List (Str × Expr)} {vs vs' : Subs}
    (h : outcome W.E env defs = .ok vs) (h' : outcome W.E env' defs' = .ok vs') (hb : SameToBlock W.E b vs vs') :
    copyOf W env sv b defs = copyOf W env' sv b defs' := by
  unfold copyOf
  rw [h, h']
  simp only [visitBlock_same hb]

section
variable {W : World} {hist hist' : List (Invocation × Luck)} {inv inv' : Invocation} {l l' : Luck} {a a' : PAst}
    (hs : Scheduled W hist inv l) (ha : Reads W inv a) (hs' : Scheduled W hist' inv' l') (ha' : Reads W inv' a') (hb : a'.block = a.block)
    (hw : withSemicolons a.spec = withSemicolons a'.spec)
    (hp : withSemicolons a.spec = false ∨ macroPrefix (firstOn hist inv) = macroPrefix (firstOn hist' inv'))
include hs ha hs' ha' hb hw hp

omit hs ha in
theorem output_service : output W hist' inv' l' =
    .ofRes (expansion W (Env.builtin (l'.ids 0)) (serviceFor (macroPrefix (firstOn hist inv)) (withSemicolons a.spec)) (tree a')) := by
  rw [output_reads hs' ha', ← hw]
  rcases hp with hn | hp
  · rw [hn]; exact congrArg Output.ofRes (expansion_no_warnings W _ rfl rfl _)
  · rw [hp]

/-- **C105**: two invocations with the same code and as many iterations, such that in each of them the definitions have values which are the same to the code, have the same
output: the same code, the same compile error or a panic both. (The macros, the histories, the loops, the definitions and even the seeds of `hash` may be different.) -/
theorem C105_output {its its' : List (List (Str × Expr))} (hi : InForce a its) (hi' : InForce a' its') (hlen : its.length = its'.length)
    (h : ∀ (i : Nat) (defs defs' : List (Str × Expr)), its[i]? = some defs → its'[i]? = some defs' → ∃ vs vs', outcome W.E (Env.builtin (l.ids 0)) defs = .ok vs ∧
      outcome W.E (Env.builtin (l'.ids 0)) defs' = .ok vs' ∧ SameToBlock W.E a.block vs vs') :
    output W hist' inv' l' = output W hist inv l := by
  rw [output_service hs' ha' hb hw hp, output_reads hs ha]
  unfold expansion
  rw [iterations_of_inForce hi, iterations_of_inForce hi']
  simp only
  congr 2
  apply List.ext_getElem?
  intro i
  simp only [List.getElem?_map]
  by_cases hlt : i < its.length
  · rw [List.getElem?_eq_getElem hlt, List.getElem?_eq_getElem (hlen ▸ hlt)]
    obtain ⟨vs, vs', h1, h2, h3⟩ := h i _ _ (List.getElem?_eq_getElem hlt) (List.getElem?_eq_getElem (hlen ▸ hlt))
    simp only [Option.map_some, Option.some.injEq]
    have hb' : (tree a').block = (tree a).block := hb
    rw [hb']
    exact (copyOf_same h1 h2 h3).symm
  · rw [List.getElem?_eq_none (by omega), List.getElem?_eq_none (by omega)]
    rfl

/-- **C105**, one copy at a time: if both give code, then the copies of an iteration are the same as soon as in this iteration the values are the same to the code, whatever
they are in the other iterations. -/
theorem C105_copies {its its' : List (List (Str × Expr))} (hi : InForce a its) (hi' : InForce a' its') {ts ts' : Toks} (h : output W hist inv l = .tokens ts)
    (h' : output W hist' inv' l' = .tokens ts') : ∃ cs cs' : List Toks, ts = cs.flatten ∧ ts' = cs'.flatten ∧ cs.length = its.length ∧
      cs'.length = its'.length ∧ ∀ (i : Nat) (defs defs' : List (Str × Expr)), its[i]? = some defs → its'[i]? = some defs' →
        (∀ vs vs', outcome W.E (Env.builtin (l.ids 0)) defs = .ok vs → outcome W.E (Env.builtin (l'.ids 0)) defs' = .ok vs' → SameToBlock W.E a.block vs vs') →
        cs[i]? = cs'[i]? := by
  rw [output_service hs' ha' hb hw hp, ofRes_tokens, expansion_ok] at h'
  rw [output_reads hs ha, ofRes_tokens, expansion_ok] at h
  obtain ⟨_, h1, h2⟩ := h
  obtain ⟨_, h1', h2'⟩ := h'
  rw [iterations_of_inForce hi] at h1
  rw [iterations_of_inForce hi'] at h1'
  cases h1
  cases h1'
  obtain ⟨cs, h3, rfl⟩ := joinAll_ok h2
  obtain ⟨cs', h3', rfl⟩ := joinAll_ok h2'
  refine ⟨cs, cs', rfl, rfl, by simpa using (congrArg List.length h3).symm, by simpa using (congrArg List.length h3').symm, ?_⟩
  intro i defs defs' hd hd' hsame
  have e1 := congrArg (fun l => l[i]?) h3
  have e2 := congrArg (fun l => l[i]?) h3'
  simp only [List.getElem?_map, hd, hd', Option.map_some] at e1 e2
  cases hc : cs[i]? with
  | none => rw [hc] at e1; cases e1
  | some c =>
    cases hc' : cs'[i]? with
    | none => rw [hc'] at e2; cases e2
    | some c' =>
      rw [hc] at e1
      rw [hc'] at e2
      simp only [Option.map_some, Option.some.injEq] at e1 e2
      have hb' : (tree a').block = (tree a).block := hb
      rw [hb'] at e2
      obtain ⟨vs, -, k1, -⟩ := copyOf_ok.1 e1
      obtain ⟨vs', -, k2, -⟩ := copyOf_ok.1 e2
      have h6 := copyOf_same (W := W) (sv := serviceFor (macroPrefix (firstOn hist inv)) (withSemicolons a.spec)) k1 k2 (hsame vs vs' k1 k2)
      have h7 : (tree a).block = a.block := rfl
      rw [h7] at e1 e2
      rw [e1, e2] at h6
      cases h6
      rfl

end

/-! ## Loops -/

/-- Loops in which every value is given twice, before and after a change. -/
abbrev ChangedLoops := List (LoopAlias Str × List (LoopSourceValue Expr × LoopSourceValue Expr))

/-- **C105**, loops: if some of the values of some loops are changed, and both invocations give code, then the copies of the iterations in which no changed value takes part
stay as they were, in their places. -/
theorem C105_loops {W : World} {hist hist' : List (Invocation × Luck)} {inv inv' : Invocation} {l l' : Luck} {a a' : PAst}
    (hs : Scheduled W hist inv l) (ha : Reads W inv a) (hs' : Scheduled W hist' inv' l') (ha' : Reads W inv' a')
    (hal : SameSetting hist inv l a hist' inv' l' a') (hb : a'.block = a.block) (hd : definitions a' = definitions a) {ls : ChangedLoops}
    (hl : (tree a).loops = some (ls.map fun x => (x.1, x.2.map (·.1)))) (hl' : (tree a').loops = some (ls.map fun x => (x.1, x.2.map (·.2)))) {ts ts' : Toks}
    (h : output W hist inv l = .tokens ts) (h' : output W hist' inv' l' = .tokens ts') :
    ∃ cs cs' : List Toks, ts = cs.flatten ∧ ts' = cs'.flatten ∧ cs.length = (combinations (ls.map (·.2))).length ∧ cs'.length = cs.length ∧
      ∀ (i : Nat) (vals : List (LoopSourceValue Expr × LoopSourceValue Expr)), (combinations (ls.map (·.2)))[i]? = some vals → (∀ v ∈ vals, v.1 = v.2) → cs[i]? = cs'[i]? := by
  have hal0 : SameSetting hist inv l a hist inv l a := ⟨.inl rfl, rfl, .inr rfl⟩
  rw [output_tokens_iff hs ha hal0] at h
  rw [output_tokens_iff hs' ha' hal] at h'
  obtain ⟨bs, cs, h1, rfl, h2⟩ := h
  obtain ⟨bs', cs', h1', rfl, h2'⟩ := h'
  unfold loopBindings at h1 h1'
  rw [hl] at h1
  rw [hl'] at h1'
  simp only [List.map_map, Function.comp_def] at h1 h1'
  have e1 : (ls.map fun x => x.2.map (·.1)) = (ls.map (·.2)).map (·.map (·.1)) := by rw [List.map_map]; rfl
  have e2 : (ls.map fun x => x.2.map (·.2)) = (ls.map (·.2)).map (·.map (·.2)) := by rw [List.map_map]; rfl
  rw [e1, combinations_map] at h1
  rw [e2, combinations_map] at h1'
  have l1 := mapRes_len h1
  have l1' := mapRes_len h1'
  rw [List.length_map] at l1 l1'
  have l2 : cs.length = bs.length := by simpa using (congrArg List.length h2).symm
  have l2' : cs'.length = bs'.length := by simpa using (congrArg List.length h2').symm
  refine ⟨cs, cs', rfl, rfl, by omega, by omega, ?_⟩
  intro i vals hv hsame
  obtain ⟨b, k1, k2⟩ := mapRes_getElem h1 i (vals.map (·.1)) (by rw [List.getElem?_map, hv]; rfl)
  obtain ⟨b', k1', k2'⟩ := mapRes_getElem h1' i (vals.map (·.2)) (by rw [List.getElem?_map, hv]; rfl)
  have names : ∀ (ls : ChangedLoops) (vs : List (LoopSourceValue Expr)),
      loopSpecItems (ls.map fun x => (x.1, x.2.map (·.1))) vs = loopSpecItems (ls.map fun x => (x.1, x.2.map (·.2))) vs := by
    intro ls
    induction ls with
    | nil => intro vs; rfl
    | cons x ls ih =>
      intro vs
      cases vs with
      | nil => rfl
      | cons v vs => simp only [List.map_cons, loopSpecItems, ih vs]
  have hvals : vals.map (·.1) = vals.map (·.2) := List.map_congr_left hsame
  rw [hvals, names, k1'] at k1
  cases k1
  have e3 := congrArg (fun l => l[i]?) h2
  have e4 := congrArg (fun l => l[i]?) h2'
  simp only [List.getElem?_map, k2, k2', Option.map_some, hb, hd] at e3 e4
  rw [e3] at e4
  cases hc : cs[i]? with
  | none => rw [hc] at e3; cases e3
  | some c =>
    cases hc' : cs'[i]? with
    | none => rw [hc, hc'] at e4; cases e4
    | some c' =>
      rw [hc, hc'] at e4
      simpa using e4

/-! ## The converse -/

/-- **C105**, the converse for a piece of code: if the values of one alias are changed and it stands in the code, then the code after the replacement is changed. -/
theorem C105_piece {E : Ext} {valid : Toks → Bool} {subs subs' : Subs} {node out : Toks} (h : substituteIdents E valid subs node = .ok out)
    (h' : substituteIdents E valid subs' node = .ok out) {y : Str} (hm : mentions y node)
    (hsame : ∀ n, n ≠ y → (List.lookup n subs).map codeOf = (List.lookup n subs').map codeOf) :
    ((List.lookup y subs).map codeOf).getD [.ident y] = ((List.lookup y subs').map codeOf).getD [.ident y] := by
  obtain ⟨fmt, hf⟩ := formatting_exists E subs
  obtain ⟨fmt', hf'⟩ := formatting_exists E subs'
  have h1 := C11_structural_map hf h
  have h2 := C11_structural_map hf' h'
  refine subst_matters (q := id) (look := valueToks subs) (look' := valueToks subs') (ts := node) ⟨rfl, fun _ _ => rfl, fun _ _ _ => rfl⟩ (fun _ => rfl)
    (fun n hn => ?_) (show substAll (valueToks subs) (litWith E fmt) node = substAll (valueToks subs') (litWith E fmt') node from h1.symm.trans h2) hm
  simp only [insteadOf, valueToks, hsame n hn]

/-- **C105**, the converse for an invocation without loops and semicolons: if two invocations with the same block give the same code, and all aliases but one have the same tokens
in both, then this one has the same tokens, too, if it stands in the code (outside the where-clauses that are lost). -/
theorem C105_matters {W : World} {q : Toks → Toks} (hW : GoodSyntax q W) (hq : ∀ ts, (q ts).length = ts.length) {hist hist' : List (Invocation × Luck)}
    {inv inv' : Invocation} {l l' : Luck} (hs : Scheduled W hist inv l) (hs' : Scheduled W hist' inv' l') {a a' : PAst} (ha : Reads W inv a)
    (ha' : Reads W inv' a') (hn : withSemicolons a.spec = false) (hn' : withSemicolons a'.spec = false) (hl : (tree a).loops = none)
    (hl' : (tree a').loops = none) (hb : a'.block = a.block) (hk : ∀ s ∈ itemKeywords, s ∉ (definitions a).map (·.1))
    (hk' : ∀ s ∈ itemKeywords, s ∉ (definitions a').map (·.1)) {ts : Toks} (h : output W hist inv l = .tokens ts) (h' : output W hist' inv' l' = .tokens ts) :
    ∃ vs vs', outcome W.E (Env.builtin (l.ids 0)) (definitions a) = .ok vs ∧ outcome W.E (Env.builtin (l'.ids 0)) (definitions a') = .ok vs' ∧
      ∀ y, mentions y (stmtsToks (stmtsNoWhere a.block)) →
        (∀ n, n ≠ y → (List.lookup n vs).map codeOf = (List.lookup n vs').map codeOf) →
        q (((List.lookup y vs).map codeOf).getD [.ident y]) = q (((List.lookup y vs').map codeOf).getD [.ident y]) := by
  have one : ∀ {hist : List (Invocation × Luck)} {inv : Invocation} {l : Luck} {a : PAst}, Scheduled W hist inv l → Reads W inv a →
      withSemicolons a.spec = false → (tree a).loops = none → (∀ s ∈ itemKeywords, s ∉ (definitions a).map (·.1)) → output W hist inv l = .tokens ts →
      ∃ vs, outcome W.E (Env.builtin (l.ids 0)) (definitions a) = .ok vs ∧ ∀ fmt, FormatsAll W.E vs fmt →
        q ts = q (substAll (valueToks vs) (litWith W.E fmt) (stmtsToks (stmtsNoWhere a.block))) := by
    intro hist inv l a hs ha hn hl hk h
    have only : ∀ its, InForce a its → its = [definitions a] := by
      intro its hi
      have h1 := iterations_of_inForce hi
      rw [iterations_of_inForce (.once hl)] at h1
      cases h1
      rfl
    obtain ⟨its, cs, h1, rfl, h3, h4⟩ := C59_meaning hW hs ha hn (fun its hi defs hd => by rw [only its hi] at hd; cases List.mem_singleton.1 hd; exact hk) h
    rw [only its h1] at h3 h4
    obtain ⟨vs, h5, h6⟩ := h4 0 _ rfl
    refine ⟨vs, h5, fun fmt hf => ?_⟩
    obtain ⟨c, h7, h8⟩ := h6 fmt hf
    match cs, h3 with
    | [d], _ =>
      simp only [List.getElem?_cons_zero, Option.some.injEq] at h7
      subst h7
      simpa using h8
  obtain ⟨vs, h1, h2⟩ := one hs ha hn hl hk h
  obtain ⟨vs', h1', h2'⟩ := one hs' ha' hn' hl' hk' h'
  refine ⟨vs, vs', h1, h1', fun y hm hsame => ?_⟩
  obtain ⟨fmt, hf⟩ := formatting_exists W.E vs
  obtain ⟨fmt', hf'⟩ := formatting_exists W.E vs'
  have h3 := (h2 fmt hf).symm.trans (h2' fmt' hf')
  rw [hb] at h3
  refine subst_matters hW.coarse hq (look := valueToks vs) (look' := valueToks vs') (fun n hn => ?_) h3 hm
  simp only [insteadOf, valueToks, hsame n hn]

/-! ## Examples -/

/-- `y = concat(<v>, 1), { [y, "%y%", x] }` -/
def mattersDemo (v : String) : Toks :=
  [id' "y", eq', id' "concat", paren [id' v, comma, .lit (.int (S "1") 1)], comma,
    brace [.group .bracket [id' "y", comma, .lit (.str (S "\"%y%\"") (S "%y%")), comma, id' "x"]]]

/-- `y = a1, { [y, "%y%", x] }` -/
def writtenOut : Toks := [id' "y", eq', id' "a1", comma, brace [.group .bracket [id' "y", comma, .lit (.str (S "\"%y%\"") (S "%y%")), comma, id' "x"]]]

/-- `concat(a, 1)` and `a1` are different definitions of `y` with the same value. -/
example : Scheduled demoWorld [] (.compose (mattersDemo "a")) (demoLuck 2 1) ∧ Reads demoWorld (.compose (mattersDemo "a")) (demoParse (mattersDemo "a")) ∧
    Scheduled demoWorld [] (.compose writtenOut) (demoLuck 2 1) ∧ Reads demoWorld (.compose writtenOut) (demoParse writtenOut) ∧
    (demoParse writtenOut).block = (demoParse (mattersDemo "a")).block ∧
    withSemicolons (demoParse (mattersDemo "a")).spec = withSemicolons (demoParse writtenOut).spec ∧
    macroPrefix (firstOn [] (.compose (mattersDemo "a"))) = macroPrefix (firstOn [] (.compose writtenOut)) ∧
    InForce (demoParse (mattersDemo "a")) [definitions (demoParse (mattersDemo "a"))] ∧ InForce (demoParse writtenOut) [definitions (demoParse writtenOut)] ∧
    ∃ vs vs', outcome demoWorld.E (Env.builtin ((demoLuck 2 1).ids 0)) (definitions (demoParse (mattersDemo "a"))) = .ok vs ∧
      outcome demoWorld.E (Env.builtin ((demoLuck 2 1).ids 0)) (definitions (demoParse writtenOut)) = .ok vs' ∧
      SameToBlock demoWorld.E (demoParse (mattersDemo "a")).block vs vs' :=
  ⟨demo_scheduled _ _ (by decide +kernel), reads_of_parse (ids := fun k => k) (k := 0) rfl, demo_scheduled _ _ (by decide +kernel),
    reads_of_parse (ids := fun k => k) (k := 0) rfl, rfl, rfl, rfl, .once rfl, .once rfl, [(S "y", .ident (S "a1"))], [(S "y", .ident (S "a1"))], rfl, rfl,
    fun _ _ => rfl, fun _ _ => rfl⟩

/-- The two give the same code, and a change of the value is seen in it. -/
example : output demoWorld [] (.compose writtenOut) (demoLuck 2 1) = output demoWorld [] (.compose (mattersDemo "a")) (demoLuck 2 1) ∧
    output demoWorld [] (.compose writtenOut) (demoLuck 2 1) =
      .tokens [.group .bracket [id' "a1", comma, .lit (.str (S "\"a1\"") (S "a1")), comma, id' "x"]] ∧
    output demoWorld [] (.compose (mattersDemo "b")) (demoLuck 2 1) ≠ output demoWorld [] (.compose writtenOut) (demoLuck 2 1) := by
  refine ⟨by decide +kernel, by decide +kernel, by decide +kernel⟩

/-- The hypotheses of `C105_matters`. -/
example : GoodSyntax id demoWorld ∧ (∀ ts : Toks, (id ts).length = ts.length) ∧ withSemicolons (demoParse (mattersDemo "a")).spec = false ∧
    withSemicolons (demoParse writtenOut).spec = false ∧ (tree (demoParse (mattersDemo "a"))).loops = none ∧ (tree (demoParse writtenOut)).loops = none ∧
    (∀ s ∈ itemKeywords, s ∉ (definitions (demoParse (mattersDemo "a"))).map (·.1)) ∧ (∀ s ∈ itemKeywords, s ∉ (definitions (demoParse writtenOut)).map (·.1)) ∧
    mentions (S "y") (stmtsToks (stmtsNoWhere (demoParse (mattersDemo "a")).block)) :=
  ⟨demo_good, fun _ => rfl, rfl, rfl, rfl, rfl, by decide +kernel, by decide +kernel, .inl (.inl rfl)⟩

/-- `for x in [a, b]` is changed into `for x in [a, c]`: the first copy stays. -/
example : ∃ (e e' e'' : Expr) (x : Str), (tree (demoParse (demoOver [id' "a", comma, id' "b"]))).loops =
      some (([(.simple x, [(.value e, .value e), (.value e', .value e'')])] : ChangedLoops).map fun x => (x.1, x.2.map (·.1))) ∧
    (tree (demoParse (demoOver [id' "a", comma, id' "c"]))).loops =
      some (([(.simple x, [(.value e, .value e), (.value e', .value e'')])] : ChangedLoops).map fun x => (x.1, x.2.map (·.2))) ∧
    Scheduled demoWorld [] (.compose (demoOver [id' "a", comma, id' "b"])) (demoLuck 2 1) ∧
    Scheduled demoWorld [] (.compose (demoOver [id' "a", comma, id' "c"])) (demoLuck 2 1) ∧
    Reads demoWorld (.compose (demoOver [id' "a", comma, id' "b"])) (demoParse (demoOver [id' "a", comma, id' "b"])) ∧
    Reads demoWorld (.compose (demoOver [id' "a", comma, id' "c"])) (demoParse (demoOver [id' "a", comma, id' "c"])) ∧
    SameSetting [] (.compose (demoOver [id' "a", comma, id' "b"])) (demoLuck 2 1) (demoParse (demoOver [id' "a", comma, id' "b"])) []
      (.compose (demoOver [id' "a", comma, id' "c"])) (demoLuck 2 1) (demoParse (demoOver [id' "a", comma, id' "c"])) ∧
    (demoParse (demoOver [id' "a", comma, id' "c"])).block = (demoParse (demoOver [id' "a", comma, id' "b"])).block ∧
    definitions (demoParse (demoOver [id' "a", comma, id' "c"])) = definitions (demoParse (demoOver [id' "a", comma, id' "b"])) :=
  ⟨_, _, _, _, rfl, rfl, demo_scheduled _ _ (by decide +kernel), demo_scheduled _ _ (by decide +kernel), reads_of_parse (ids := fun k => k) (k := 0) rfl,
    reads_of_parse (ids := fun k => k) (k := 0) rfl, ⟨.inl rfl, rfl, .inl rfl⟩, rfl, rfl⟩

example : output demoWorld [] (.compose (demoOver [id' "a", comma, id' "b"])) (demoLuck 2 1) =
      .tokens [id' "struct", id' "a1", brace [], id' "struct", id' "b1", brace []] ∧
    output demoWorld [] (.compose (demoOver [id' "a", comma, id' "c"])) (demoLuck 2 1) =
      .tokens [id' "struct", id' "a1", brace [], id' "struct", id' "c1", brace []] := by
  refine ⟨by decide +kernel, by decide +kernel⟩

/-- A piece of code in which the alias `y` stands. -/
example : substituteIdents Ext.demo (fun _ => true) [(S "y", .ident (S "a"))] [id' "y", comma, id' "x"] = .ok [id' "a", comma, id' "x"] ∧
    substituteIdents Ext.demo (fun _ => true) [(S "y", .tokens [id' "a"])] [id' "y", comma, id' "x"] = .ok [id' "a", comma, id' "x"] ∧
    mentions (S "y") [id' "y", comma, id' "x"] := ⟨rfl, rfl, .inl rfl⟩

end Verif.Props
