import Verif.Proofs.Lifetimes
import Verif.Props.Text
import Verif.Props.Twice
import Verif.Lite.Findings
/-!
# Property C114: lifetimes and labels

`'a` is a lifetime or a label, not the name `a`, so that an alias `a` should not change it.
-/

namespace Verif.Props
open Verif Spec Lite

/-- **C114**, what is true: if no lifetime or label in the code is named like an alias, all of them are in each copy, in the same order, and there are no others
but those in the values of aliases. -/
theorem C114_partial {W : World} (hW : TextSyntax W) {hist : List (Invocation × Luck)} {inv : Invocation} {l : Luck}
    (hs : Scheduled W hist inv l) {a : PAst} (ha : Reads W inv a) (hn : withSemicolons a.spec = false)
    (hw : stmtsNoWhere a.block = a.block) {body : Toks} (hc : Code inv body) {ts : Toks}
    (hk : ∀ its, InForce a its → ∀ defs ∈ its, ∀ s ∈ itemKeywords, s ∉ defs.map (·.1))
    (hl : ∀ its, InForce a its → ∀ defs ∈ its, ∀ n ∈ lifetimes body, n ∉ defs.map (·.1))
    (hv : ∀ its, InForce a its → ∀ defs ∈ its, ∀ vs, outcome W.E (Env.builtin (l.ids 0)) defs = .ok vs →
      ∀ n v, valueToks vs n = some v → wholeLifetimes v)
    (h : output W hist inv l = .tokens ts) :
    ∃ (its : List (List (Str × Expr))) (cs : List Toks), InForce a its ∧ ts = cs.flatten ∧ cs.length = its.length ∧
      ∀ (i : Nat) (defs : List (Str × Expr)), its[i]? = some defs →
        ∃ vs c, outcome W.E (Env.builtin (l.ids 0)) defs = .ok vs ∧ cs[i]? = some c ∧ (lifetimes body).Sublist (lifetimes c) ∧
          ∀ n ∈ lifetimes c, n ∈ lifetimes body ∨ ∃ m v, valueToks vs m = some v ∧ n ∈ lifetimes v := by
  obtain ⟨its, cs, hi, h2, h3, h4⟩ := C66_text hW hs ha hn hw hc hk h
  refine ⟨its, cs, hi, h2, h3, fun i defs hd => ?_⟩
  obtain ⟨vs, ho, hf⟩ := h4 i defs hd
  obtain ⟨fmt, hfmt⟩ := formatting_exists W.E vs
  obtain ⟨c, hc1, hc2⟩ := hf fmt hfmt
  refine ⟨vs, c, ho, hc1, ?_⟩
  rw [← lifetimes_unspaced c, hc2, lifetimes_unspaced]
  refine lifetimes_substAll (hv its hi defs (List.mem_of_getElem? hd) vs ho) body fun n hn => ?_
  have := hl its hi defs (List.mem_of_getElem? hd) n hn
  rw [← (denote_names (outcome_ok.1 ho).2).1] at this
  rw [valueToks, lookup_not_mem this]
  rfl

/-- **C114**, what is done to lifetimes and labels that are named like aliases: if the aliases that stand in the code stand for names, the lifetimes of each copy
are those of the code, in the same order, with these names for the aliases. So they are changed exactly if some alias with another name stands in a lifetime. -/
theorem C114_exact {W : World} (hW : TextSyntax W) {hist : List (Invocation × Luck)} {inv : Invocation} {l : Luck}
    (hs : Scheduled W hist inv l) {a : PAst} (ha : Reads W inv a) (hn : withSemicolons a.spec = false)
    (hw : stmtsNoWhere a.block = a.block) {body : Toks} (hc : Code inv body) {ts : Toks}
    (hk : ∀ its, InForce a its → ∀ defs ∈ its, ∀ s ∈ itemKeywords, s ∉ defs.map (·.1))
    (hv : ∀ its, InForce a its → ∀ defs ∈ its, ∀ vs, outcome W.E (Env.builtin (l.ids 0)) defs = .ok vs →
      ∀ n, mentions n body → ∀ v, valueToks vs n = some v → ∃ m, v = [.ident m])
    (h : output W hist inv l = .tokens ts) :
    ∃ (its : List (List (Str × Expr))) (cs : List Toks), InForce a its ∧ ts = cs.flatten ∧ cs.length = its.length ∧
      ∀ (i : Nat) (defs : List (Str × Expr)), its[i]? = some defs →
        ∃ vs c, outcome W.E (Env.builtin (l.ids 0)) defs = .ok vs ∧ cs[i]? = some c ∧
          lifetimes c = (lifetimes body).map (nameFor (valueToks vs)) ∧
          (lifetimes c = lifetimes body ↔ ∀ n ∈ lifetimes body, ∀ m, valueToks vs n = some [.ident m] → m = n) := by
  obtain ⟨its, cs, hi, h2, h3, h4⟩ := C66_text hW hs ha hn hw hc hk h
  refine ⟨its, cs, hi, h2, h3, fun i defs hd => ?_⟩
  obtain ⟨vs, ho, hf⟩ := h4 i defs hd
  obtain ⟨fmt, hfmt⟩ := formatting_exists W.E vs
  obtain ⟨c, hc1, hc2⟩ := hf fmt hfmt
  have key : lifetimes c = (lifetimes body).map (nameFor (valueToks vs)) := by
    rw [← lifetimes_unspaced c, hc2, lifetimes_unspaced]
    exact lifetimes_names body (hv its hi defs (List.mem_of_getElem? hd) vs ho)
  refine ⟨vs, c, ho, hc1, key, ?_⟩
  rw [key]
  generalize lifetimes body = ns
  induction ns with
  | nil => simp
  | cons n ns ih =>
    simp only [List.map_cons, List.cons.injEq, ih, List.forall_mem_cons]
    refine and_congr_left fun _ => ?_
    simp only [nameFor]
    constructor
    · intro e m hm
      rw [hm] at e
      exact e
    · intro e
      split
      · rename_i m hm; exact e m hm
      · rfl

/-! ## Examples -/

/-- `y = b, { fn y < 'a > () {} }` -/
def lifetimeCode : Toks := [id' "fn", id' "y", .punct '<' false, .punct '\'' true, id' "a", .punct '>' false, paren [], brace []]
def lifetimeDemo : Toks := [id' "y", eq', id' "b", comma, brace lifetimeCode]

example : Reads demoWorld (.compose lifetimeDemo) (demoParse lifetimeDemo) ∧ Scheduled demoWorld [] (.compose lifetimeDemo) (demoLuck 2 1) ∧
    withSemicolons (demoParse lifetimeDemo).spec = false ∧ Code (.compose lifetimeDemo) lifetimeCode ∧
    stmtsNoWhere (demoParse lifetimeDemo).block = (demoParse lifetimeDemo).block ∧ InForce (demoParse lifetimeDemo) [definitions (demoParse lifetimeDemo)] ∧
    lifetimes lifetimeCode = [c! "a"] ∧ (definitions (demoParse lifetimeDemo)).map (·.1) = [c! "y"] ∧
    outcome demoWorld.E (Env.builtin ((demoLuck 2 1).ids 0)) (definitions (demoParse lifetimeDemo)) = .ok [(S "y", .ident (S "b"))] ∧
    output demoWorld [] (.compose lifetimeDemo) (demoLuck 2 1) =
      .tokens [id' "fn", id' "b", .punct '<' false, .punct '\'' true, id' "a", .punct '>' false, paren [], brace []] :=
  ⟨reads_of_parse (ids := fun k => k) (k := 0) rfl, demo_scheduled _ _ (by decide +kernel), rfl, .compose (lifetimeDemo.take 4) _ rfl, rfl, .once rfl,
    by simp [lifetimeCode, lifetimes, id', paren, brace, S], rfl, rfl, by decide +kernel⟩

/-- `y = b, a = c, { fn y < 'a > () {} }`: the lifetime becomes `'c`. -/
def lifetimeNamed : Toks := [id' "y", eq', id' "b", comma, id' "a", eq', id' "c", comma, brace lifetimeCode]

example : Reads demoWorld (.compose lifetimeNamed) (demoParse lifetimeNamed) ∧ Scheduled demoWorld [] (.compose lifetimeNamed) (demoLuck 2 1) ∧
    withSemicolons (demoParse lifetimeNamed).spec = false ∧ Code (.compose lifetimeNamed) lifetimeCode ∧
    stmtsNoWhere (demoParse lifetimeNamed).block = (demoParse lifetimeNamed).block ∧ InForce (demoParse lifetimeNamed) [definitions (demoParse lifetimeNamed)] ∧
    (definitions (demoParse lifetimeNamed)).map (·.1) = [c! "y", c! "a"] ∧
    outcome demoWorld.E (Env.builtin ((demoLuck 2 1).ids 0)) (definitions (demoParse lifetimeNamed)) = .ok [(S "y", .ident (S "b")), (S "a", .ident (S "c"))] ∧
    valueToks [(S "y", .ident (S "b")), (S "a", .ident (S "c"))] (S "a") = some [.ident (S "c")] ∧
    output demoWorld [] (.compose lifetimeNamed) (demoLuck 2 1) =
      .tokens [id' "fn", id' "b", .punct '<' false, .punct '\'' true, id' "c", .punct '>' false, paren [], brace []] :=
  ⟨reads_of_parse (ids := fun k => k) (k := 0) rfl, demo_scheduled _ _ (by decide +kernel), rfl, .compose (lifetimeNamed.take 8) _ rfl, rfl, .once rfl,
    rfl, rfl, by decide +kernel, by decide +kernel⟩

/-- **C114** is false: an alias is replaced in a lifetime too, and in a label; if its value is not a name, this is an error. -/
theorem C114_false :
    Expands (compose c! "a = b, { fn f<'a>(x: &'a u8) -> &'a u8 { x } }") (c! "fn f<'b>(x: &'b u8) -> &'b u8 { x }") ∧
    Expands (compose c! "a = b, { fn f() { 'a: loop { break 'a; } } }") (c! "fn f() { 'b: loop { break 'b; } }") ∧
    Rejected (compose c! "a = 1, { fn f<'a>(x: &'a u8) {} }") (.substitution c! "a" c! "1") := by
  refine ⟨by decide +kernel, by decide +kernel, by decide +kernel⟩

end Verif.Props
