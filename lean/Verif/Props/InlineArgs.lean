import Verif.Spec.InlineArgs
import Verif.Props.Literals
import Verif.Props.NamesLeft
import Verif.Props.Pasted
/-!
# Property C117: inline arguments of format strings

In `println!("{x}")` the `x` is a use of the variable `x`, so that an alias `x` should be replaced there like everywhere else.
-/

namespace Verif.Props
open Verif Spec Lite

theorem inlineArgsOf_sublist {a b : List Lit} (h : a.Sublist b) : (inlineArgsOf a).Sublist (inlineArgsOf b) := by
  induction h with
  | slnil => exact .slnil
  | @cons a b l h ih => cases l <;> first | exact ih | exact .cons _ ih
  | @cons_cons a b l h ih => cases l <;> first | exact ih | exact ih.cons_cons _

theorem inlineArgsOf_map {str : Str → Lit} {fmt : Str → Str} (hs : ∀ v, ∃ r, str v = .str r (fmt v)) :
    ∀ ls : List Lit, (∀ r v, Lit.str r v ∈ ls → fmt v = v) → inlineArgsOf (ls.map (onlyStrings str)) = inlineArgsOf ls
  | [], _ => rfl
  | .str r v :: ls, h => by
    obtain ⟨r', e⟩ := hs v
    simp only [List.map_cons, onlyStrings, e, inlineArgsOf, h r v (by simp)]
    rw [inlineArgsOf_map hs ls fun r v hm => h r v (List.mem_cons_of_mem _ hm)]
  | .int r v :: ls, h => inlineArgsOf_map hs ls fun r v hm => h r v (List.mem_cons_of_mem _ hm)
  | .other r :: ls, h => inlineArgsOf_map hs ls fun r v hm => h r v (List.mem_cons_of_mem _ hm)

/-- **C117**, what is true: if no alias is an inline argument of a string in the code, and the strings have no percent signs, then the strings have the same inline
arguments in each copy, and those that are names in the code are names in the copy. -/
theorem C117_partial {W : World} (hW : FieldSyntax W) {hist : List (Invocation × Luck)} {inv : Invocation} {l : Luck}
    (hs : Scheduled W hist inv l) {a : PAst} (ha : Reads W inv a) (hn : withSemicolons a.spec = false)
    (hw : stmtsNoWhere a.block = a.block) {body : Toks} (hc : Code inv body) {ts : Toks}
    (hk : ∀ its, InForce a its → ∀ defs ∈ its, ∀ s ∈ itemKeywords, s ∉ defs.map (·.1))
    (hp : ∀ r v, Lit.str r v ∈ literals (byField body) → '%' ∉ v)
    (hi : ∀ its, InForce a its → ∀ defs ∈ its, ∀ as ∈ inlineArgsOf (literals (byField body)), ∀ n ∈ as, n ∉ defs.map (·.1))
    (h : output W hist inv l = .tokens ts) :
    ∃ (its : List (List (Str × Expr))) (cs : List Toks), InForce a its ∧ ts = cs.flatten ∧ cs.length = its.length ∧
      ∀ (i : Nat) (defs : List (Str × Expr)), its[i]? = some defs → ∃ c, cs[i]? = some c ∧
        (inlineArgsOf (literals (byField body))).Sublist (inlineArgsOf (literals (byField c))) ∧
        ∀ as ∈ inlineArgsOf (literals (byField body)), ∀ n ∈ as, mentions n body → mentions n c := by
  obtain ⟨its, cs, h1, h2, h3, h4⟩ := C66_fields hW hs ha hn hw hc hk h
  refine ⟨its, cs, h1, h2, h3, fun i defs hd => ?_⟩
  obtain ⟨vs, ho, h6⟩ := h4 i defs hd
  obtain ⟨fmt, hf⟩ := formatting_exists W.E vs
  obtain ⟨c, h7, h8⟩ := h6 fmt hf
  refine ⟨c, h7, ?_, fun as has n hna hm => ?_⟩
  · have := inlineArgsOf_sublist (literals_sub (look := valueToks vs) (str := litWith W.E fmt) (fun v => ⟨_, _, rfl⟩) body)
    rw [← h8, inlineArgsOf_map (str := litWith W.E fmt) (fmt := fmt) (fun v => ⟨_, rfl⟩)] at this
    · exact this
    · intro r v hv
      rw [← formats_sound (hf v), formatString_plain v (hp r v hv)]
  · rw [← mentions_byField n c, h8, mentions_byField, mentions_substAll]
    have := hi its h1 defs (List.mem_of_getElem? hd) as has n hna
    rw [← (denote_names (outcome_ok.1 ho).2).1] at this
    exact .inl ⟨hm, by rw [valueToks, lookup_not_mem this]; rfl⟩

/-! ## Examples -/

example : inlineArgs (c! "a {x} {{y}} {z:?} {} {0} {w:>5}") = [c! "x", c! "z", c! "w"] := by decide +kernel

/-- `y = b, { fn y(x) { print("{x}") } }` -/
def inlineCode : Toks := [id' "fn", id' "y", paren [id' "x"], brace [id' "print", paren [.lit (.str (S "\"{x}\"") (S "{x}"))]]]
def inlineDemo : Toks := [id' "y", eq', id' "b", comma, brace inlineCode]

example : FieldSyntax demoWorld ∧ Reads demoWorld (.compose inlineDemo) (demoParse inlineDemo) ∧ Scheduled demoWorld [] (.compose inlineDemo) (demoLuck 2 1) ∧
    withSemicolons (demoParse inlineDemo).spec = false ∧ Code (.compose inlineDemo) inlineCode ∧
    stmtsNoWhere (demoParse inlineDemo).block = (demoParse inlineDemo).block ∧ InForce (demoParse inlineDemo) [definitions (demoParse inlineDemo)] ∧
    (definitions (demoParse inlineDemo)).map (·.1) = [c! "y"] ∧ inlineArgsOf (literals (byField inlineCode)) = [[c! "x"]] ∧
    literals (byField inlineCode) = [.str (S "\"{x}\"") (S "{x}")] ∧
    output demoWorld [] (.compose inlineDemo) (demoLuck 2 1) =
      .tokens [id' "fn", id' "b", paren [id' "x"], brace [id' "print", paren [.lit (.str (S "\"{x}\"") (S "{x}"))]]] :=
  ⟨demo_text.fields, reads_of_parse (ids := fun k => k) (k := 0) rfl, demo_scheduled _ _ (by decide +kernel), rfl, .compose (inlineDemo.take 4) _ rfl, rfl, .once rfl,
    rfl, by decide +kernel, by decide +kernel, by decide +kernel⟩

/-- **C117** is false: an inline argument that is an alias is not replaced, so that it is not the parameter any more; one has to write `{}`, or a placeholder. -/
theorem C117_false :
    Expands (compose c! "x = a, { fn f(x: u8) { println!(\"{x}\"); } }") (c! "fn f(a: u8) { println!(\"{x}\"); }") ∧
    Expands (compose c! "x = a, { fn f(x: u8) { println!(\"{}\", x); } }") (c! "fn f(a: u8) { println!(\"{}\", a); }") ∧
    Expands (compose c! "x = a, { fn f(x: u8) { println!(\"{%x%}\"); } }") (c! "fn f(a: u8) { println!(\"{a}\"); }") := by
  refine ⟨by decide +kernel, by decide +kernel, by decide +kernel⟩

end Verif.Props
