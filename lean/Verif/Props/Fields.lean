import Verif.Spec.Fields
import Verif.Props.Text
/-!
# Property C66 for code with fields of fields

That parsing code and printing it gives the same tokens is not quite true of `syn`, even up to spacing: the literal `0.1` in `t.0.1` is printed as three tokens.
Code still comes out as it was written, apart from this.
-/

namespace Verif.Props
open Verif Spec

theorem byField_append (a b : Toks) : byField (a ++ b) = byField a ++ byField b := by
  induction a with
  | nil => simp [byField]
  | cons t ts ih => simp [byField, ih]

theorem byField_coarse : Coarse byField :=
  ⟨by simp [byField], byField_append, fun d us ts => by simp [byField, byFieldTok]⟩

mutual
theorem byField_substTok (look : Str → Option Toks) (str : Str → Lit) (t : Tok) :
    byField (substAll look str (byFieldTok t)) = byField (substTok look str t) := by
  match t with
  | .punct c j => simp [byFieldTok, substAll, substTok, byField]
  | .ident n => simp [byFieldTok, substAll]
  | .lit (.str r v) => simp [byFieldTok, substAll]
  | .lit (.int r v) => simp [byFieldTok, substAll]
  | .lit (.other r) =>
    cases h : fieldIndices r with
    | none => simp [byFieldTok, substAll, h]
    | some p =>
      by_cases hj : p.2 = [] <;> simp [byFieldTok, substAll, substTok, byField, h, hj]
  | .group d ts => simp [byFieldTok, substAll, substTok, byField, byField_substAll look str ts]
theorem byField_substAll (look : Str → Option Toks) (str : Str → Lit) (ts : Toks) :
    byField (substAll look str (byField ts)) = byField (substAll look str ts) := by
  match ts with
  | [] => simp [byField, substAll]
  | t :: ts =>
    simp only [byField, substAll, substAll_append, byField_append, byField_substTok look str t, byField_substAll look str ts]
end

mutual
theorem byField_unspacedTok (t : Tok) : byFieldTok (unspacedTok t) = byFieldTok t := by
  match t with
  | .punct c j => simp [byFieldTok, unspacedTok]
  | .ident n => simp [unspacedTok]
  | .lit l => simp [unspacedTok]
  | .group d ts => simp [byFieldTok, unspacedTok, byField_unspaced ts]
theorem byField_unspaced (ts : Toks) : byField (unspaced ts) = byField ts := by
  match ts with
  | [] => rfl
  | t :: ts => simp only [unspaced, byField, byField_unspacedTok t, byField_unspaced ts]
end

/-- The assumptions on `syn` of `TextSyntax`, but `0.1` may become `0 . 1`. -/
structure FieldSyntax (W : World) : Prop where
  text : ∀ c ss, W.Y.parseBlock c = some ss → ∃ c', byField c' = byField c ∧ BlockText c' ss
  statements : ∀ c ss, W.Y.parseBlock c = some ss → StatementsParse W.Y.toGrammar ss
  sites : ∀ k ts, cstsPrint (W.sites k ts) = ts

/-- This assumes less than `TextSyntax`. -/
theorem TextSyntax.fields {W : World} (h : TextSyntax W) : FieldSyntax W where
  text c ss hc := by
    obtain ⟨c', h1, h2⟩ := h.text c ss hc
    exact ⟨c', by rw [← byField_unspaced c', h1, byField_unspaced], h2⟩
  statements := h.statements
  sites := h.sites

theorem FieldSyntax.good {W : World} (h : FieldSyntax W) : GoodSyntax byField W where
  coarse := byField_coarse
  lossless := by
    intro c ss hc
    obtain ⟨c', h1, h2⟩ := h.text c ss hc
    rw [block_printed h2, h1]
  statements := h.statements
  sites := h.sites

/-- **C66** with fields of fields: the output of an invocation which succeeds is, for each iteration in order, the text of its code in which every alias in force
is replaced by its value and the placeholders in string literals by the texts of the values, up to spacing and up to `0 . 1` for `0.1`. -/
theorem C66_fields {W : World} (hW : FieldSyntax W) {hist : List (Invocation × Luck)} {inv : Invocation} {l : Luck}
    (hs : Scheduled W hist inv l) {a : PAst} (ha : Reads W inv a) (hn : withSemicolons a.spec = false)
    (hw : stmtsNoWhere a.block = a.block) {body : Toks} (hc : Code inv body) {ts : Toks}
    (hk : ∀ its, InForce a its → ∀ defs ∈ its, ∀ s ∈ itemKeywords, s ∉ defs.map (·.1)) (h : output W hist inv l = .tokens ts) :
    ∃ (its : List (List (Str × Expr))) (cs : List Toks), InForce a its ∧ ts = cs.flatten ∧ cs.length = its.length ∧
      ∀ (i : Nat) (defs : List (Str × Expr)), its[i]? = some defs →
        ∃ vs, outcome W.E (Env.builtin (l.ids 0)) defs = .ok vs ∧ ∀ fmt, FormatsAll W.E vs fmt →
          ∃ c, cs[i]? = some c ∧ byField c = byField (substAll (valueToks vs) (litWith W.E fmt) body) := by
  obtain ⟨its, cs, h1, h2, h3, h4⟩ := C59_meaning hW.good hs ha hn hk h
  refine ⟨its, cs, h1, h2, h3, fun i defs hd => ?_⟩
  obtain ⟨vs, h5, h6⟩ := h4 i defs hd
  refine ⟨vs, h5, fun fmt hf => ?_⟩
  obtain ⟨c, h7, h8⟩ := h6 fmt hf
  refine ⟨c, h7, ?_⟩
  obtain ⟨body', hc', hb⟩ := C59_code ha
  obtain rfl := code_unique hc hc'
  obtain ⟨c', h9, h10⟩ := hW.text _ _ hb
  rw [h8, hw, block_printed h10, ← byField_substAll, h9, byField_substAll]

/-- **C66** with fields of fields and semicolons: in addition, each copy gets at most one attribute with the warning. -/
theorem C66_fields_warned {W : World} (hW : FieldSyntax W) {hist : List (Invocation × Luck)} {inv : Invocation} {l : Luck}
    (hs : Scheduled W hist inv l) {a : PAst} (ha : Reads W inv a) (hw : stmtsNoWhere a.block = a.block) {body : Toks} (hc : Code inv body) {ts : Toks}
    (hk : ∀ its, InForce a its → ∀ defs ∈ its, ∀ s ∈ itemKeywords, s ∉ defs.map (·.1)) (h : output W hist inv l = .tokens ts) :
    ∃ (its : List (List (Str × Expr))) (cs : List Toks), InForce a its ∧ ts = cs.flatten ∧ cs.length = its.length ∧
      ∀ (i : Nat) (defs : List (Str × Expr)), its[i]? = some defs →
        ∃ vs, outcome W.E (Env.builtin (l.ids 0)) defs = .ok vs ∧ ∀ fmt, FormatsAll W.E vs fmt →
          ∃ c ws b, cs[i]? = some c ∧ byField b = byField (substAll (valueToks vs) (litWith W.E fmt) body) ∧ Inserts ws b c ∧
            (ws = [] ∨ ws = [warningToks W.E.strRepr (macroPrefix (firstOn hist inv))
              ⟨S "Using semicolons as separators is deprecated, use commas instead", S "0.0.5"⟩]) := by
  obtain ⟨its, cs, h1, h2, h3, h4⟩ := C59_warned hW.good hs ha hk h
  refine ⟨its, cs, h1, h2, h3, fun i defs hd => ?_⟩
  obtain ⟨vs, h5, h6⟩ := h4 i defs hd
  refine ⟨vs, h5, fun fmt hf => ?_⟩
  obtain ⟨c, ws, b, h7, h8, h11, h12⟩ := h6 fmt hf
  refine ⟨c, ws, b, h7, ?_, h11, h12⟩
  obtain ⟨body', hc', hb⟩ := C59_code ha
  obtain rfl := code_unique hc hc'
  obtain ⟨c', h9, h10⟩ := hW.text _ _ hb
  rw [h8, hw, block_printed h10, ← byField_substAll, h9, byField_substAll]

/-! ## Examples -/

mutual
theorem byField_idem_tok (t : Tok) : byField (byFieldTok t) = byFieldTok t := by
  match t with
  | .punct c j => simp [byFieldTok, byField]
  | .ident n => simp [byFieldTok, byField]
  | .lit (.str r v) => simp [byFieldTok, byField]
  | .lit (.int r v) => simp [byFieldTok, byField]
  | .lit (.other r) =>
    cases h : fieldIndices r with
    | none => simp [byFieldTok, byField, h]
    | some p => by_cases hj : p.2 = [] <;> simp [byFieldTok, byField, h, hj]
  | .group d ts => simp [byFieldTok, byField, byField_idem ts]
theorem byField_idem (ts : Toks) : byField (byField ts) = byField ts := by
  match ts with
  | [] => rfl
  | t :: ts => simp only [byField, byField_append, byField_idem_tok t, byField_idem ts]
end

/-- The demo instance, but code is read without spacing and `0.1` as `0 . 1`, as `syn` does. -/
def fieldWorld : World := { demoWorld with Y := { demoWorld.Y with parseBlock := fun c => demoWorld.Y.parseBlock (byField c) } }

/-- `t.0.1` -/
def fieldCode : Toks := [id' "t", .punct '.' false, .lit (.other (S "0.1"))]

/-- `t = a, { t.0.1 }` -/
def fieldDemo : Toks := [id' "t", eq', id' "a", comma, brace fieldCode]

theorem field_syntax : FieldSyntax fieldWorld where
  text c ss h := by
    obtain ⟨c', h1, h2⟩ := demo_text.text (byField c) ss h
    exact ⟨c', by rw [← byField_unspaced c', h1, byField_unspaced, byField_idem], h2⟩
  statements c ss h := demo_good.statements (byField c) ss h
  sites := demo_good.sites

/-- How an input is read there. -/
def fieldParse (ts : Toks) : PAst :=
  match (parseArgs fieldWorld.Y isBuiltin (fun k => k) 0 (some demoService) (.compose ts)).1 with
  | .ok a => a
  | _ => ⟨0, none, none, []⟩

/-- The hypotheses of C66_fields are met where those of C66_text are not, and `t.0.1` comes out in five tokens. -/
example : FieldSyntax fieldWorld ∧ ¬ TextSyntax fieldWorld ∧ Reads fieldWorld (.compose fieldDemo) (fieldParse fieldDemo) ∧
    Scheduled fieldWorld [] (.compose fieldDemo) (demoLuck 2 1) ∧ withSemicolons (fieldParse fieldDemo).spec = false ∧
    stmtsNoWhere (fieldParse fieldDemo).block = (fieldParse fieldDemo).block ∧ Code (.compose fieldDemo) fieldCode ∧
    InForce (fieldParse fieldDemo) [definitions (fieldParse fieldDemo)] ∧ (definitions (fieldParse fieldDemo)).map (·.1) = [c! "t"] ∧
    output fieldWorld [] (.compose fieldDemo) (demoLuck 2 1) =
      .tokens [id' "a", .punct '.' false, .lit (.int (S "0") 0), .punct '.' false, .lit (.int (S "1") 1)] := by
  refine ⟨field_syntax, fun h => ?_, reads_of_parse (ids := fun k => k) (k := 0) rfl, ?_, rfl, rfl, .compose (fieldDemo.take 4) _ rfl, .once rfl, rfl, by decide +kernel⟩
  · have := h.good.lossless fieldCode _ rfl
    revert this
    decide +kernel
  · have h : idsDrawn fieldWorld (demoLuck 2 1).ids (.compose fieldDemo) (after fieldWorld []) ≤ 100 := by decide +kernel
    exact ⟨fun _ l => .refl l, Nat, inferInstance, _, 1, rfl, by decide +kernel, Nat.le_trans h (by decide +kernel)⟩

/-- `t = lower(A); { t.0.1 }`, where there is nothing to which the warning could be attached -/
def fieldSemi : Toks := [id' "t", eq', id' "lower", paren [id' "A"], .punct ';' false, brace fieldCode]

example : Reads fieldWorld (.compose fieldSemi) (fieldParse fieldSemi) ∧ Scheduled fieldWorld [] (.compose fieldSemi) (demoLuck 2 1) ∧
    withSemicolons (fieldParse fieldSemi).spec = true ∧ stmtsNoWhere (fieldParse fieldSemi).block = (fieldParse fieldSemi).block ∧
    Code (.compose fieldSemi) fieldCode ∧ InForce (fieldParse fieldSemi) [definitions (fieldParse fieldSemi)] ∧
    (definitions (fieldParse fieldSemi)).map (·.1) = [c! "t"] ∧ output fieldWorld [] (.compose fieldSemi) (demoLuck 2 1) =
      .tokens [id' "a", .punct '.' false, .lit (.int (S "0") 0), .punct '.' false, .lit (.int (S "1") 1)] := by
  refine ⟨reads_of_parse (ids := fun k => k) (k := 0) rfl, ?_, rfl, rfl, .compose (fieldSemi.take 5) _ rfl, .once rfl, rfl, by decide +kernel⟩
  have h : idsDrawn fieldWorld (demoLuck 2 1).ids (.compose fieldSemi) (after fieldWorld []) ≤ 100 := by decide +kernel
  exact ⟨fun _ l => .refl l, Nat, inferInstance, _, 1, rfl, by decide +kernel, Nat.le_trans h (by decide +kernel)⟩

end Verif.Props
