import Verif.Proofs.JoinNames
import Verif.Props.Pasted
/-!
# Names made in different iterations (C96)

`for X in [a, b] Y = concat(get_, X, _ref), { fn Y() {} }`
-/

namespace Verif.Props
open Verif Spec

/-- **C96**, the name: an alias defined as `concat` of names, nested or not, is an identifier made of the names which the written names stand for, one after
the other. -/
theorem C96_value {E : Ext} {seed : Nat} {d1 d2 : List (Str × Expr)} {y : Str} {e : Expr} {ns : List Str} (he : JoinOf e ns) {vs0 vs : Subs}
    (h0 : outcome E (Env.builtin seed) d1 = .ok vs0) (h : outcome E (Env.builtin seed) (d1 ++ (y, e) :: d2) = .ok vs)
    (hn : ∀ n ∈ ns, IsName (Subs.get vs0) n) : Subs.get vs y = some (.ident (ns.map (standsFor (Subs.get vs0))).flatten) :=
  join_outcome rfl h0 h he hn

/-- **C96**, two iterations: if one of the joined names stands for different names, and the others for the same, then so does the alias. The hypothesis is
needed: see `C96_two_vary`. -/
theorem C96_names {E : Ext} {seed seed' : Nat} {d1 d2 d1' d2' : List (Str × Expr)} {x y y' : Str} {e : Expr} {ns : List Str} (he : JoinOf e ns)
    {vs0 vs vs0' vs' : Subs}
    (h0 : outcome E (Env.builtin seed) d1 = .ok vs0) (h : outcome E (Env.builtin seed) (d1 ++ (y, e) :: d2) = .ok vs)
    (h0' : outcome E (Env.builtin seed') d1' = .ok vs0') (h' : outcome E (Env.builtin seed') (d1' ++ (y', e) :: d2') = .ok vs')
    (hn : ∀ n ∈ ns, IsName (Subs.get vs0) n) (hn' : ∀ n ∈ ns, IsName (Subs.get vs0') n) (hx : x ∈ ns)
    (hd : standsFor (Subs.get vs0) x ≠ standsFor (Subs.get vs0') x)
    (ho : ∀ n ∈ ns, n ≠ x → standsFor (Subs.get vs0) n = standsFor (Subs.get vs0') n) :
    ∃ s s', Subs.get vs y = some (.ident s) ∧ Subs.get vs' y' = some (.ident s') ∧ s ≠ s' :=
  ⟨_, _, C96_value he h0 h hn, C96_value he h0' h' hn', fun h => hd (flatten_inj hx ho h)⟩

mutual
theorem pasting_tok_inj {m m' : Leafmap} {y : Str} : ∀ {t : Tok}, mentionsTok y t → unspacedTok (m.tok t) = unspacedTok (m'.tok t) → m.name y = m'.name y
  | .ident n, h, he => by
    cases h
    simpa [Leafmap.tok, unspacedTok] using he
  | .group d ts, h, he => by
    simp only [Leafmap.tok, unspacedTok, Tok.group.injEq, true_and] at he
    exact pasting_toks_inj h he
theorem pasting_toks_inj {m m' : Leafmap} {y : Str} : ∀ {ts : Toks}, mentions y ts → unspaced (m.toks ts) = unspaced (m'.toks ts) → m.name y = m'.name y
  | t :: ts, h, he => by
    simp only [Leafmap.toks, unspaced, List.cons.injEq] at he
    rcases h with h | h
    · exact pasting_tok_inj h he.1
    · exact pasting_toks_inj h he.2
end

/-- **C96**, the code: if all aliases stand for names, the code mentions an alias which joins names, and in two iterations one of these stands for different
names and the others for the same, then the copies of the code made in these iterations are different. -/
theorem C96_copies {W : World} (hW : TextSyntax W) {hist : List (Invocation × Luck)} {inv : Invocation} {l : Luck}
    (hs : Scheduled W hist inv l) {a : PAst} (ha : Reads W inv a) (hn : withSemicolons a.spec = false)
    (hw : stmtsNoWhere a.block = a.block) {body : Toks} (hc : Code inv body) {ts : Toks}
    (hk : ∀ its, InForce a its → ∀ defs ∈ its, ∀ s ∈ itemKeywords, s ∉ defs.map (·.1)) (h : output W hist inv l = .tokens ts) :
    ∃ (its : List (List (Str × Expr))) (cs : List Toks), InForce a its ∧ ts = cs.flatten ∧ cs.length = its.length ∧
      (∀ (i : Nat) (defs : List (Str × Expr)), its[i]? = some defs → ∃ vs, outcome W.E (Env.builtin (l.ids 0)) defs = .ok vs ∧
        (AllNames vs → ∀ fmt, FormatsAll W.E vs fmt → ∃ c, cs[i]? = some c ∧ unspaced c = unspaced ((pasting W.E vs fmt).toks body))) ∧
      ∀ (i j : Nat) {d1 d2 d1' d2' : List (Str × Expr)} {x y : Str} {e : Expr} {ns : List Str} {vs0 vs vs0' vs' : Subs},
        its[i]? = some (d1 ++ (y, e) :: d2) → its[j]? = some (d1' ++ (y, e) :: d2') → JoinOf e ns → mentions y body →
        outcome W.E (Env.builtin (l.ids 0)) d1 = .ok vs0 → outcome W.E (Env.builtin (l.ids 0)) (d1 ++ (y, e) :: d2) = .ok vs →
        outcome W.E (Env.builtin (l.ids 0)) d1' = .ok vs0' → outcome W.E (Env.builtin (l.ids 0)) (d1' ++ (y, e) :: d2') = .ok vs' →
        AllNames vs → AllNames vs' → x ∈ ns → standsFor (Subs.get vs0) x ≠ standsFor (Subs.get vs0') x →
        (∀ n ∈ ns, n ≠ x → standsFor (Subs.get vs0) n = standsFor (Subs.get vs0') n) →
        ∃ c c', cs[i]? = some c ∧ cs[j]? = some c' ∧ unspaced c ≠ unspaced c' := by
  obtain ⟨its, cs, h1, h2, h3, h4⟩ := C93_outer hW hs ha hn hw hc hk h
  refine ⟨its, cs, h1, h2, h3, h4, ?_⟩
  intro i j d1 d2 d1' d2' x y e ns vs0 vs vs0' vs' hi hj he hm g0 g g0' g' hv hv' hx hd ho
  have names : ∀ {d1 d2 vs0 vs}, outcome W.E (Env.builtin (l.ids 0)) d1 = .ok vs0 → outcome W.E (Env.builtin (l.ids 0)) (d1 ++ (y, e) :: d2) = .ok vs →
      AllNames vs → ∀ n ∈ ns, IsName (Subs.get vs0) n := by
    intro d1 d2 vs0 vs g0 g hv n _ v hg
    obtain ⟨ws, us, g1, rfl⟩ := outcome_prefix g
    rw [g0] at g1
    cases g1
    obtain ⟨s, hs, -⟩ := hv n v (by rw [← get_eq_lookup, Subs.get_append, hg]; rfl)
    exact ⟨s, hs⟩
  obtain ⟨s, s', e1, e2, hne⟩ := C96_names he g0 g g0' g' (names g0 g hv) (names g0' g' hv') hx hd ho
  obtain ⟨fmt, hf⟩ := formatting_exists W.E vs
  obtain ⟨fmt', hf'⟩ := formatting_exists W.E vs'
  obtain ⟨ws, g1, k1⟩ := h4 i _ hi
  obtain ⟨ws', g1', k1'⟩ := h4 j _ hj
  rw [g] at g1
  rw [g'] at g1'
  cases g1
  cases g1'
  obtain ⟨c, hc1, hc2⟩ := k1 hv fmt hf
  obtain ⟨c', hc1', hc2'⟩ := k1' hv' fmt' hf'
  refine ⟨c, c', hc1, hc1', fun heq => hne ?_⟩
  have := pasting_toks_inj hm ((hc2.symm.trans heq).trans hc2')
  rw [get_eq_lookup] at e1 e2
  simpa [pasting, e1, e2] using this

/-- `for x in [a, b] y = concat(get_, x, concat(_, x)), { struct y {} }` -/
def demoNames : Toks := [id' "for", id' "x", id' "in", .group .bracket [id' "a", comma, id' "b"], id' "y", eq', id' "concat", paren [id' "get_", comma,
  id' "x", comma, id' "concat", paren [id' "_", comma, id' "x"]], comma, brace [id' "struct", id' "y", brace []]]

/-- The hypotheses are met, and the two names are different. -/
example : Scheduled demoWorld [] (.compose demoNames) (demoLuck 2 1) ∧ Reads demoWorld (.compose demoNames) (demoParse demoNames) ∧
    withSemicolons (demoParse demoNames).spec = false ∧ Code (.compose demoNames) [id' "struct", id' "y", brace []] ∧
    (∃ d1 d1' e, InForce (demoParse demoNames) [d1 ++ [(S "y", e)], d1' ++ [(S "y", e)]] ∧
      JoinOf e [S "get_", S "x", S "_", S "x"] ∧
      outcome demoWorld.E (Env.builtin ((demoLuck 2 1).ids 0)) d1 = .ok [(S "x", .ident (S "a"))] ∧
      outcome demoWorld.E (Env.builtin ((demoLuck 2 1).ids 0)) d1' = .ok [(S "x", .ident (S "b"))]) ∧
    mentions (S "y") [id' "struct", id' "y", brace []] ∧
    (∀ its, InForce (demoParse demoNames) its → ∀ defs ∈ its, ∀ s ∈ itemKeywords, s ∉ defs.map (·.1)) ∧
    output demoWorld [] (.compose demoNames) (demoLuck 2 1) =
      .tokens [id' "struct", id' "get_a_a", brace [], id' "struct", id' "get_b_b", brace []] := by
  refine ⟨demo_scheduled _ _ (by decide +kernel), reads_of_parse (ids := fun k => k) (k := 0) rfl, rfl, .compose (demoNames.take 9) _ rfl,
    ⟨_, _, _, inForce_of_iterations rfl, ?_, rfl, rfl⟩, ?_, ?_, by decide +kernel⟩
  · exact .concat _ _ (fun h => by cases h) (.cons (.name _ _) (.cons (.name _ _) (.cons (.concat _ _ (fun h => by cases h) (.cons (.name _ _) (.cons (.name _ _) .nil))) .nil)))
  · exact .inr (.inl rfl)
  · intro its h
    have h1 := iterations_of_inForce h
    have h2 : (iterations (tree (demoParse demoNames))).map (·.map (·.map (·.1))) = .ok [[S "x", S "y"], [S "x", S "y"]] := rfl
    rw [h1] at h2
    have h3 : its.map (·.map (·.1)) = [[S "x", S "y"], [S "x", S "y"]] := by simpa [Res.map] using h2
    intro defs hd s hs hm
    have h4 := List.mem_map_of_mem (f := (·.map (·.1))) hd
    rw [h3] at h4
    simp only [List.mem_cons, List.not_mem_nil, or_false, or_self] at h4
    rw [h4] at hm
    revert s
    decide

/-- `for x in [a, ab] for z in [bc, c] y = concat(x, z), { struct y {} }` -/
def demoClash : Toks := [id' "for", id' "x", id' "in", .group .bracket [id' "a", comma, id' "ab"], id' "for", id' "z", id' "in",
  .group .bracket [id' "bc", comma, id' "c"], id' "y", eq', id' "concat", paren [id' "x", comma, id' "z"], comma, brace [id' "struct", id' "y", brace []]]

/-- `for x in [a, A] y = upper(x), { struct y {} }` -/
def demoClashCase : Toks := [id' "for", id' "x", id' "in", .group .bracket [id' "a", comma, id' "A"],
  id' "y", eq', id' "upper", paren [id' "x"], comma, brace [id' "struct", id' "y", brace []]]

/-- The claim would be false if two of the joined names are different, and for other functions: `abc` is made of `a` and `bc` and of `ab` and `c`, and `A` is the
upper case of two names. The same item is defined twice, and the invocation succeeds. -/
theorem C96_two_vary :
    output demoWorld [] (.compose demoClash) (demoLuck 2 1) = .tokens [id' "struct", id' "abc", brace [], id' "struct", id' "ac", brace [],
      id' "struct", id' "abbc", brace [], id' "struct", id' "abc", brace []] ∧
    output demoWorld [] (.compose demoClashCase) (demoLuck 2 1) = .tokens [id' "struct", id' "A", brace [], id' "struct", id' "A", brace []] := by
  decide +kernel

end Verif.Props
