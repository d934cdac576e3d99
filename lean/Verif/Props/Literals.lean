import Verif.Spec.Literals
import Verif.Props.Fields
import Verif.Lite.Findings
/-!
# Property C115: literals

The literals of the code are those of each copy, in the same order. Strings differ at placeholders only; a percent sign in a byte string, a C string or a
character has no meaning.
-/

namespace Verif.Props
open Verif Spec Lite

theorem literals_append (a b : Toks) : literals (a ++ b) = literals a ++ literals b := by
  induction a with
  | nil => simp [literals]
  | cons t ts ih => simp [literals, ih]

section
variable {look : Str → Option Toks} {str : Str → Lit} (hstr : ∀ v, ∃ r w, str v = .str r w)
include hstr

mutual
theorem literals_sub_tok (t : Tok) :
    ((literals (byFieldTok t)).map (onlyStrings str)).Sublist (literals (byField (substTok look str t))) := by
  match t with
  | .punct c j => simp [byFieldTok, literals, literalsTok]
  | .ident n => simp [byFieldTok, literals, literalsTok]
  | .lit (.str r v) =>
    obtain ⟨r', w, h⟩ := hstr v
    simp [byFieldTok, substTok, byField, literals, literalsTok, onlyStrings, h]
  | .lit (.int r v) => simp [byFieldTok, substTok, byField, literals, literalsTok, onlyStrings]
  | .lit (.other r) =>
    cases h : fieldIndices r with
    | none => simp [byFieldTok, substTok, byField, literals, literalsTok, onlyStrings, h]
    | some p => by_cases hj : p.2 = [] <;> simp [byFieldTok, substTok, byField, literals, literalsTok, onlyStrings, h, hj]
  | .group d ts => simpa [byFieldTok, substTok, byField, literals, literalsTok] using literals_sub ts
theorem literals_sub (ts : Toks) :
    ((literals (byField ts)).map (onlyStrings str)).Sublist (literals (byField (substAll look str ts))) := by
  match ts with
  | [] => simp [byField, substAll, literals]
  | t :: ts =>
    simp only [byField, substAll, byField_append, literals_append, List.map_append]
    exact (literals_sub_tok t).append (literals_sub ts)
end

mutual
theorem literals_eq_tok (t : Tok) (hv : ∀ n v, mentionsTok n t → look n = some v → literals (byField v) = []) :
    literals (byField (substTok look str t)) = (literals (byFieldTok t)).map (onlyStrings str) := by
  match t with
  | .punct c j => simp [byFieldTok, substTok, byField, literals, literalsTok]
  | .ident n =>
    cases h : look n with
    | none => simp [byFieldTok, substTok, byField, literals, literalsTok, h]
    | some v => simp [byFieldTok, substTok, literals, literalsTok, h, hv n v rfl h]
  | .lit (.str r v) =>
    obtain ⟨r', w, h⟩ := hstr v
    simp [byFieldTok, substTok, byField, literals, literalsTok, onlyStrings, h]
  | .lit (.int r v) => simp [byFieldTok, substTok, byField, literals, literalsTok, onlyStrings]
  | .lit (.other r) =>
    cases h : fieldIndices r with
    | none => simp [byFieldTok, substTok, byField, literals, literalsTok, onlyStrings, h]
    | some p => by_cases hj : p.2 = [] <;> simp [byFieldTok, substTok, byField, literals, literalsTok, onlyStrings, h, hj]
  | .group d ts => simpa [byFieldTok, substTok, byField, literals, literalsTok] using literals_eq ts hv
theorem literals_eq (ts : Toks) (hv : ∀ n v, mentions n ts → look n = some v → literals (byField v) = []) :
    literals (byField (substAll look str ts)) = (literals (byField ts)).map (onlyStrings str) := by
  match ts with
  | [] => simp [byField, substAll, literals]
  | t :: ts =>
    simp only [byField, substAll, byField_append, literals_append, List.map_append]
    rw [literals_eq_tok t fun n v hm => hv n v (.inl hm), literals_eq ts fun n v hm => hv n v (.inr hm)]
end
end

/-- **C115**: the literals of the code are in each copy, in the same order, and only strings are changed, as the rules of placeholders say (`FormatsAll`). If the
values of the aliases that stand in the code have no literals, there are no others. (`byField`: `syn` writes `0 . 1` for the literal `0.1` in `t.0.1`. No semicolons
and where-clauses, as in C66.) -/
theorem C115_literals {W : World} (hW : FieldSyntax W) {hist : List (Invocation × Luck)} {inv : Invocation} {l : Luck}
    (hs : Scheduled W hist inv l) {a : PAst} (ha : Reads W inv a) (hn : withSemicolons a.spec = false)
    (hw : stmtsNoWhere a.block = a.block) {body : Toks} (hc : Code inv body) {ts : Toks}
    (hk : ∀ its, InForce a its → ∀ defs ∈ its, ∀ s ∈ itemKeywords, s ∉ defs.map (·.1)) (h : output W hist inv l = .tokens ts) :
    ∃ (its : List (List (Str × Expr))) (cs : List Toks), InForce a its ∧ ts = cs.flatten ∧ cs.length = its.length ∧
      ∀ (i : Nat) (defs : List (Str × Expr)), its[i]? = some defs →
        ∃ vs, outcome W.E (Env.builtin (l.ids 0)) defs = .ok vs ∧ ∀ fmt, FormatsAll W.E vs fmt → ∃ c, cs[i]? = some c ∧
          ((literals (byField body)).map (onlyStrings (litWith W.E fmt))).Sublist (literals (byField c)) ∧
          ((∀ n v, mentions n body → valueToks vs n = some v → literals (byField v) = []) →
            literals (byField c) = (literals (byField body)).map (onlyStrings (litWith W.E fmt))) := by
  obtain ⟨its, cs, h1, h2, h3, h4⟩ := C66_fields hW hs ha hn hw hc hk h
  refine ⟨its, cs, h1, h2, h3, fun i defs hd => ?_⟩
  obtain ⟨vs, h5, h6⟩ := h4 i defs hd
  refine ⟨vs, h5, fun fmt hf => ?_⟩
  obtain ⟨c, h7, h8⟩ := h6 fmt hf
  have hstr : ∀ v, ∃ r w, litWith W.E fmt v = .str r w := fun v => ⟨_, _, rfl⟩
  exact ⟨c, h7, h8 ▸ literals_sub hstr body, fun hv => h8 ▸ literals_eq hstr body hv⟩

/-- **C115**: all literals but strings — numbers, characters, byte strings, … — are the same in the code and, in this order, among those of each copy, whatever the aliases are. -/
theorem C115_kept {W : World} (hW : FieldSyntax W) {hist : List (Invocation × Luck)} {inv : Invocation} {l : Luck}
    (hs : Scheduled W hist inv l) {a : PAst} (ha : Reads W inv a) (hn : withSemicolons a.spec = false)
    (hw : stmtsNoWhere a.block = a.block) {body : Toks} (hc : Code inv body) {ts : Toks}
    (hk : ∀ its, InForce a its → ∀ defs ∈ its, ∀ s ∈ itemKeywords, s ∉ defs.map (·.1)) (h : output W hist inv l = .tokens ts) :
    ∃ (its : List (List (Str × Expr))) (cs : List Toks), InForce a its ∧ ts = cs.flatten ∧ cs.length = its.length ∧
      ∀ c ∈ cs, ((literals (byField body)).filter fun l => match l with | .str _ _ => false | _ => true).Sublist (literals (byField c)) := by
  obtain ⟨its, cs, h1, h2, h3, h4⟩ := C115_literals hW hs ha hn hw hc hk h
  refine ⟨its, cs, h1, h2, h3, fun c hc => ?_⟩
  obtain ⟨i, hi, rfl⟩ := List.mem_iff_getElem.1 hc
  obtain ⟨vs, -, h6⟩ := h4 i _ (List.getElem?_eq_getElem (h3 ▸ hi))
  obtain ⟨fmt, hf⟩ := formatting_exists W.E vs
  obtain ⟨c, h7, h8, -⟩ := h6 fmt hf
  rw [List.getElem?_eq_getElem hi] at h7
  cases h7
  refine List.Sublist.trans ?_ h8
  generalize literals (byField body) = ls
  induction ls with
  | nil => exact .slnil
  | cons x ls ih =>
    match x with
    | .str r v => exact .cons _ ih
    | .int r v => exact ih.cons_cons _
    | .other r => exact ih.cons_cons _

theorem literals_inserts {xs : List Toks} {a b : Toks} (h : Inserts xs a b) : (literals (byField a)).Sublist (literals (byField b)) := by
  induction h with
  | nil => exact .refl _
  | keep t h ih =>
    simp only [byField, literals_append]
    exact (List.Sublist.refl _).append ih
  | group d h1 h2 ih1 ih2 => simpa [byField, byFieldTok, literals, literalsTok] using ih1.append ih2
  | insert x h ih =>
    rw [byField_append, literals_append]
    exact ih.trans (List.sublist_append_right _ _)

/-- **C115** with semicolons: the literals of the code are in each copy, in the same order, with only strings changed. -/
theorem C115_warned {W : World} (hW : FieldSyntax W) {hist : List (Invocation × Luck)} {inv : Invocation} {l : Luck}
    (hs : Scheduled W hist inv l) {a : PAst} (ha : Reads W inv a) (hw : stmtsNoWhere a.block = a.block) {body : Toks} (hc : Code inv body) {ts : Toks}
    (hk : ∀ its, InForce a its → ∀ defs ∈ its, ∀ s ∈ itemKeywords, s ∉ defs.map (·.1)) (h : output W hist inv l = .tokens ts) :
    ∃ (its : List (List (Str × Expr))) (cs : List Toks), InForce a its ∧ ts = cs.flatten ∧ cs.length = its.length ∧
      ∀ (i : Nat) (defs : List (Str × Expr)), its[i]? = some defs →
        ∃ vs, outcome W.E (Env.builtin (l.ids 0)) defs = .ok vs ∧ ∀ fmt, FormatsAll W.E vs fmt → ∃ c, cs[i]? = some c ∧
          ((literals (byField body)).map (onlyStrings (litWith W.E fmt))).Sublist (literals (byField c)) := by
  obtain ⟨its, cs, h1, h2, h3, h4⟩ := C66_fields_warned hW hs ha hw hc hk h
  refine ⟨its, cs, h1, h2, h3, fun i defs hd => ?_⟩
  obtain ⟨vs, h5, h6⟩ := h4 i defs hd
  refine ⟨vs, h5, fun fmt hf => ?_⟩
  obtain ⟨c, ws, b, h7, h8, h9, -⟩ := h6 fmt hf
  exact ⟨c, h7, (h8 ▸ literals_sub (fun v => ⟨_, _, rfl⟩) body).trans (literals_inserts h9)⟩

/-! ## Examples -/

/-- `fn x() { (1, 'a', b"%x%", "%x%") }`; `x = y, { … }` -/
def literalCode : Toks := [id' "fn", id' "x", paren [], brace [paren [.lit (.int (S "1") 1), comma, .lit (.other (S "'a'")), comma, .lit (.other (S "b\"%x%\"")), comma,
  .lit (.str (S "\"%x%\"") (S "%x%"))]]]
def literalDemo : Toks := [id' "x", eq', id' "y", comma, brace literalCode]

example : FieldSyntax demoWorld ∧ Reads demoWorld (.compose literalDemo) (demoParse literalDemo) ∧ Scheduled demoWorld [] (.compose literalDemo) (demoLuck 2 1) ∧
    withSemicolons (demoParse literalDemo).spec = false ∧ Code (.compose literalDemo) literalCode ∧
    stmtsNoWhere (demoParse literalDemo).block = (demoParse literalDemo).block ∧ InForce (demoParse literalDemo) [definitions (demoParse literalDemo)] ∧
    (definitions (demoParse literalDemo)).map (·.1) = [c! "x"] ∧
    outcome demoWorld.E (Env.builtin ((demoLuck 2 1).ids 0)) (definitions (demoParse literalDemo)) = .ok [(S "x", .ident (S "y"))] ∧
    literals (byField literalCode) = [.int (S "1") 1, .other (S "'a'"), .other (S "b\"%x%\""), .str (S "\"%x%\"") (S "%x%")] ∧
    output demoWorld [] (.compose literalDemo) (demoLuck 2 1) = .tokens [id' "fn", id' "y", paren [], brace [paren [.lit (.int (S "1") 1), comma,
      .lit (.other (S "'a'")), comma, .lit (.other (S "b\"%x%\"")), comma, .lit (.str (S "\"y\"") (S "y"))]]] :=
  ⟨demo_text.fields, reads_of_parse (ids := fun k => k) (k := 0) rfl, demo_scheduled _ _ (by decide +kernel), rfl, .compose (literalDemo.take 4) _ rfl, rfl, .once rfl,
    rfl, rfl, by decide +kernel, by decide +kernel⟩

/-- With aliases for literals there are more. -/
example : Expands (compose c! "x = 2, { fn f() { (1, x, '%', \"%x%\") } }") (c! "fn f() { (1, 2, '%', \"2\") }") := by decide +kernel

/-- `x = lower(Y); { fn x() { 'a' } }`: C115_warned. -/
def literalSemi : Toks := [id' "x", eq', id' "lower", paren [id' "Y"], .punct ';' false, brace [id' "fn", id' "x", paren [], brace [.lit (.other (S "'a'"))]]]

example : Reads demoWorld (.compose literalSemi) (demoParse literalSemi) ∧ Scheduled demoWorld [] (.compose literalSemi) (demoLuck 2 1) ∧
    withSemicolons (demoParse literalSemi).spec = true ∧ Code (.compose literalSemi) [id' "fn", id' "x", paren [], brace [.lit (.other (S "'a'"))]] ∧
    stmtsNoWhere (demoParse literalSemi).block = (demoParse literalSemi).block ∧ InForce (demoParse literalSemi) [definitions (demoParse literalSemi)] ∧
    (definitions (demoParse literalSemi)).map (·.1) = [c! "x"] ∧
    output demoWorld [] (.compose literalSemi) (demoLuck 2 1) = .tokens [id' "fn", id' "y", paren [], brace [.lit (.other (S "'a'"))]] :=
  ⟨reads_of_parse (ids := fun k => k) (k := 0) rfl, demo_scheduled _ _ (by decide +kernel), rfl, .compose (literalSemi.take 5) _ rfl, rfl, .once rfl, rfl,
    by decide +kernel⟩

end Verif.Props
