import Verif.Spec.Operands
import Verif.Props.Text
import Verif.Lite.TestsUnits
import Verif.Props.Twice
/-!
# Property C112: an expression as an operand

An alias can stand for an expression, `x = a + b`. Where it is used as an operand, as in `x * 2`, the whole expression should be the operand, as it would be for
`$x:expr` of `macro_rules!`.
-/

namespace Verif.Props
open Verif Spec Lite

section
variable {value : Str → Option Toks} {str : Str → Lit} (hstr : ∀ v, ∃ r' v', str v = .str r' v')
include hstr

mutual
theorem standsFor_tok : ∀ t : Tok, (∀ n ∈ namesWritten t, ∀ ts, value n = some ts → ∃ u, ts = [u]) →
    ∃ w, substTok value str t = [w] ∧ ∀ u, unspacedTok u = unspacedTok w → StandsFor value t u
  | .ident n, h => by
    cases hv : value n with
    | none =>
      refine ⟨.ident n, by rw [substTok, hv]; rfl, fun u hu => ?_⟩
      cases u with
      | ident m => simp only [unspacedTok, Tok.ident.injEq] at hu; subst hu; exact .name hv
      | punct c j => simp [unspacedTok] at hu
      | lit l => simp [unspacedTok] at hu
      | group d ts => simp [unspacedTok] at hu
    | some ts =>
      obtain ⟨w, rfl⟩ := h n (by simp [namesWritten]) ts hv
      exact ⟨w, by rw [substTok, hv]; rfl, fun u hu => .alias hv hu⟩
  | .punct c j, _ => by
    refine ⟨.punct c j, by rw [substTok]; all_goals simp, fun u hu => ?_⟩
    cases u with
    | punct c' j' => simp only [unspacedTok, Tok.punct.injEq, and_true] at hu; subst hu; exact .punct _ _ _
    | ident m => simp [unspacedTok] at hu
    | lit l => simp [unspacedTok] at hu
    | group d ts => simp [unspacedTok] at hu
  | .lit l, _ => by
    have lits : ∀ {l' : Lit} {u : Tok}, unspacedTok u = unspacedTok (.lit l') → u = .lit l' := by
      intro l' u hu
      cases u with
      | lit l => simpa [unspacedTok] using hu
      | ident m => simp [unspacedTok] at hu
      | punct c j => simp [unspacedTok] at hu
      | group d ts => simp [unspacedTok] at hu
    by_cases hl : ∃ r v, l = .str r v
    · obtain ⟨r, v, rfl⟩ := hl
      obtain ⟨r', v', hs⟩ := hstr v
      refine ⟨.lit (.str r' v'), by rw [substTok, hs], fun u hu => ?_⟩
      rw [lits hu]
      exact .str _ _ _ _
    · have hn : ∀ r v, l ≠ .str r v := fun r v e => hl ⟨r, v, e⟩
      refine ⟨.lit l, by rw [substTok]; all_goals simp_all, fun u hu => ?_⟩
      rw [lits hu]
      exact .lit hn
  | .group d ts, h => by
    have ih := oneForOne_toks ts (fun n hn => h n (by simpa [namesWritten] using hn))
    refine ⟨.group d (substAll value str ts), by rw [substTok], fun u hu => ?_⟩
    cases u with
    | group d' us =>
      simp only [unspacedTok, Tok.group.injEq] at hu
      obtain ⟨rfl, hu⟩ := hu
      exact .group _ (ih us hu)
    | ident m => simp [unspacedTok] at hu
    | punct c j => simp [unspacedTok] at hu
    | lit l => simp [unspacedTok] at hu
theorem oneForOne_toks : ∀ ts : Toks, (∀ n ∈ namesWrittenL ts, ∀ vs, value n = some vs → ∃ u, vs = [u]) →
    ∀ us, unspaced us = unspaced (substAll value str ts) → OneForOne value ts us
  | [], _, us, hu => by
    cases us with
    | nil => exact .nil
    | cons u us => simp [substAll, unspaced] at hu
  | t :: ts, h, us, hu => by
    obtain ⟨w, hw, h1⟩ := standsFor_tok t (fun n hn => h n (by simp [namesWrittenL, hn]))
    have h2 := oneForOne_toks ts (fun n hn => h n (by simp [namesWrittenL, hn]))
    rw [substAll, hw] at hu
    cases us with
    | nil => simp [unspaced] at hu
    | cons u us =>
      simp only [List.cons_append, List.nil_append, unspaced, List.cons.injEq] at hu
      exact .cons (h1 u hu.1) (h2 us hu.2)
end
end

/-- **C112**, what is true: if every alias that is written in the code stands for a single token tree - a name, a literal, something in parentheses, or what an
outer macro has passed on as one fragment - then each copy of the code has one token tree for each of the code, at every depth, so that operators keep their
operands. -/
theorem C112_partial {W : World} (hW : TextSyntax W) {hist : List (Invocation × Luck)} {inv : Invocation} {l : Luck}
    (hs : Scheduled W hist inv l) {a : PAst} (ha : Reads W inv a) (hn : withSemicolons a.spec = false)
    (hw : stmtsNoWhere a.block = a.block) {body : Toks} (hc : Code inv body) {ts : Toks}
    (hk : ∀ its, InForce a its → ∀ defs ∈ its, ∀ s ∈ itemKeywords, s ∉ defs.map (·.1))
    (h1 : ∀ its, InForce a its → ∀ defs ∈ its, ∀ vs, outcome W.E (Env.builtin (l.ids 0)) defs = .ok vs →
      ∀ n ∈ namesWrittenL body, ∀ v, valueToks vs n = some v → ∃ t, v = [t])
    (h : output W hist inv l = .tokens ts) :
    ∃ (its : List (List (Str × Expr))) (cs : List Toks), InForce a its ∧ ts = cs.flatten ∧ cs.length = its.length ∧
      ∀ (i : Nat) (defs : List (Str × Expr)), its[i]? = some defs →
        ∃ vs c, outcome W.E (Env.builtin (l.ids 0)) defs = .ok vs ∧ cs[i]? = some c ∧ OneForOne (valueToks vs) body c := by
  obtain ⟨its, cs, hi, h2, h3, h4⟩ := C66_text hW hs ha hn hw hc hk h
  refine ⟨its, cs, hi, h2, h3, fun i defs hd => ?_⟩
  obtain ⟨vs, ho, hf⟩ := h4 i defs hd
  obtain ⟨fmt, hfmt⟩ := formatting_exists W.E vs
  obtain ⟨c, hc1, hc2⟩ := hf fmt hfmt
  exact ⟨vs, c, ho, hc1, oneForOne_toks (fun v => ⟨_, _, rfl⟩) body (h1 its hi defs (List.mem_of_getElem? hd) vs ho) c hc2⟩

/-! ## Examples -/

/-- `y = raw((a + b)), { [y * 2] }` -/
def operandCode : Toks := [.group .bracket [id' "y", .punct '*' false, .lit (.int (S "2") 2)]]
def operandDemo : Toks := [id' "y", eq', id' "raw", paren [paren [id' "a", .punct '+' false, id' "b"]], comma, brace operandCode]

example : Reads demoWorld (.compose operandDemo) (demoParse operandDemo) ∧ Scheduled demoWorld [] (.compose operandDemo) (demoLuck 2 1) ∧
    withSemicolons (demoParse operandDemo).spec = false ∧ Code (.compose operandDemo) operandCode ∧
    stmtsNoWhere (demoParse operandDemo).block = (demoParse operandDemo).block ∧ InForce (demoParse operandDemo) [definitions (demoParse operandDemo)] ∧
    (∃ ts, outcome demoWorld.E (Env.builtin ((demoLuck 2 1).ids 0)) (definitions (demoParse operandDemo)) = .ok [(S "y", .tokens ts)] ∧
      valueToks [(S "y", .tokens ts)] (S "y") = some [paren [id' "a", .punct '+' false, id' "b"]]) ∧
    output demoWorld [] (.compose operandDemo) (demoLuck 2 1) =
      .tokens [.group .bracket [paren [id' "a", .punct '+' false, id' "b"], .punct '*' false, .lit (.int (S "2") 2)]] :=
  ⟨reads_of_parse (ids := fun k => k) (k := 0) rfl, demo_scheduled _ _ (by decide +kernel), rfl, .compose (operandDemo.take 5) _ rfl, rfl, .once rfl,
    ⟨_, rfl, rfl⟩, by decide +kernel⟩

/-- **C112** is false: the tokens of the value are put in as they are. (In the second example the method is called on `1`, and its result is negated.) -/
theorem C112_false :
    Expands (compose c! "x = a + b, { const C: u8 = x * 2; }") (c! "const C: u8 = a + b * 2;") ∧
    Expands (compose c! "x = -1i8, { const C: i8 = x.abs(); }") (c! "const C: i8 = -1i8.abs();") ∧
    Expands (compose c! "x = (a + b), { const C: u8 = x * 2; }") (c! "const C: u8 = (a + b) * 2;") := by
  refine ⟨by decide +kernel, by decide +kernel, by decide +kernel⟩

end Verif.Props
