import Verif.Props.Fields
import Verif.Lite.Findings
/-!
# Property C116: the names in the generated code

No alias is left in the generated code, unless it is written in the value of an alias.
-/

namespace Verif.Props
open Verif Spec Lite

theorem mentions_app (n : Str) (a b : Toks) : mentions n (a ++ b) ↔ mentions n a ∨ mentions n b := by
  induction a with
  | nil => simp [mentions]
  | cons t ts ih => simp [mentions, ih, or_assoc]

mutual
theorem mentions_byField_tok (n : Str) (t : Tok) : mentions n (byFieldTok t) ↔ mentionsTok n t := by
  match t with
  | .punct c j => simp [byFieldTok, mentions, mentionsTok]
  | .ident m => simp [byFieldTok, mentions, mentionsTok]
  | .lit (.str r v) => simp [byFieldTok, mentions, mentionsTok]
  | .lit (.int r v) => simp [byFieldTok, mentions, mentionsTok]
  | .lit (.other r) =>
    cases h : fieldIndices r with
    | none => simp [byFieldTok, mentions, mentionsTok, h]
    | some p => by_cases hj : p.2 = [] <;> simp [byFieldTok, mentions, mentionsTok, h, hj]
  | .group d ts => simpa [byFieldTok, mentions, mentionsTok] using mentions_byField n ts
theorem mentions_byField (n : Str) (ts : Toks) : mentions n (byField ts) ↔ mentions n ts := by
  match ts with
  | [] => simp [byField, mentions]
  | t :: ts => simp only [byField, mentions_app, mentions, mentions_byField_tok n t, mentions_byField n ts]
end

section
variable (look : Str → Option Toks) (str : Str → Lit) (n : Str)

mutual
theorem mentions_substTok (t : Tok) : mentions n (substTok look str t) ↔
    (mentionsTok n t ∧ look n = none) ∨ ∃ m v, mentionsTok m t ∧ look m = some v ∧ mentions n v := by
  match t with
  | .punct c j => simp [substTok, mentions, mentionsTok]
  | .ident k =>
    cases h : look k with
    | none =>
      simp only [substTok, h, Option.getD_none, mentions, mentionsTok, or_false]
      constructor
      · rintro rfl; exact .inl ⟨rfl, h⟩
      · rintro (⟨rfl, -⟩ | ⟨m, v, rfl, h', -⟩)
        · rfl
        · rw [h] at h'; cases h'
    | some v =>
      simp only [substTok, h, Option.getD_some, mentionsTok]
      constructor
      · intro hm; exact .inr ⟨k, v, rfl, h, hm⟩
      · rintro (⟨rfl, h'⟩ | ⟨m, v', rfl, h', hm⟩)
        · rw [h] at h'; cases h'
        · rw [h] at h'; cases h'; exact hm
  | .lit (.str r v) => simp [substTok, mentions, mentionsTok]
  | .lit (.int r v) => simp [substTok, mentions, mentionsTok]
  | .lit (.other r) => simp [substTok, mentions, mentionsTok]
  | .group d ts => simpa [substTok, mentions, mentionsTok] using mentions_substAll ts
theorem mentions_substAll (ts : Toks) : mentions n (substAll look str ts) ↔
    (mentions n ts ∧ look n = none) ∨ ∃ m v, mentions m ts ∧ look m = some v ∧ mentions n v := by
  match ts with
  | [] => simp [substAll, mentions]
  | t :: ts =>
    rw [substAll, mentions_app, mentions_substTok t, mentions_substAll ts]
    simp only [mentions]
    constructor
    · rintro ((⟨h, h'⟩ | ⟨m, v, h, h'⟩) | (⟨h, h'⟩ | ⟨m, v, h, h'⟩))
      · exact .inl ⟨.inl h, h'⟩
      · exact .inr ⟨m, v, .inl h, h'⟩
      · exact .inl ⟨.inr h, h'⟩
      · exact .inr ⟨m, v, .inr h, h'⟩
    · rintro (⟨h | h, h'⟩ | ⟨m, v, h | h, h'⟩)
      · exact .inl (.inl ⟨h, h'⟩)
      · exact .inr (.inl ⟨h, h'⟩)
      · exact .inl (.inr ⟨m, v, h, h'⟩)
      · exact .inr (.inr ⟨m, v, h, h'⟩)
end
end

theorem value_none {E : Ext} {env : Env} {defs : List (Str × Expr)} {vs : Subs} (ho : outcome E env defs = .ok vs) {n : Str} :
    valueToks vs n = none ↔ n ∉ defs.map (·.1) := by
  rw [← (denote_names (outcome_ok.1 ho).2).1]
  constructor
  · intro h hm
    obtain ⟨p, hp, rfl⟩ := List.mem_map.1 hm
    rw [valueToks, Option.map_eq_none_iff, List.lookup_eq_none_iff] at h
    have := h p hp
    simp at this
  · intro h
    rw [valueToks, lookup_not_mem h]
    rfl

/-- **C116**: a name stands in a copy of the code exactly if it stands in the code and is not an alias, or is in the value of an alias that stands in the code. -/
theorem C116_exact {W : World} (hW : FieldSyntax W) {hist : List (Invocation × Luck)} {inv : Invocation} {l : Luck}
    (hs : Scheduled W hist inv l) {a : PAst} (ha : Reads W inv a) (hn : withSemicolons a.spec = false)
    (hw : stmtsNoWhere a.block = a.block) {body : Toks} (hc : Code inv body) {ts : Toks}
    (hk : ∀ its, InForce a its → ∀ defs ∈ its, ∀ s ∈ itemKeywords, s ∉ defs.map (·.1)) (h : output W hist inv l = .tokens ts) :
    ∃ (its : List (List (Str × Expr))) (cs : List Toks), InForce a its ∧ ts = cs.flatten ∧ cs.length = its.length ∧
      ∀ (i : Nat) (defs : List (Str × Expr)), its[i]? = some defs →
        ∃ vs c, outcome W.E (Env.builtin (l.ids 0)) defs = .ok vs ∧ cs[i]? = some c ∧
          ∀ n, mentions n c ↔ (mentions n body ∧ n ∉ defs.map (·.1)) ∨ ∃ m v, mentions m body ∧ valueToks vs m = some v ∧ mentions n v := by
  obtain ⟨its, cs, h1, h2, h3, h4⟩ := C66_fields hW hs ha hn hw hc hk h
  refine ⟨its, cs, h1, h2, h3, fun i defs hd => ?_⟩
  obtain ⟨vs, ho, h6⟩ := h4 i defs hd
  obtain ⟨fmt, hf⟩ := formatting_exists W.E vs
  obtain ⟨c, h7, h8⟩ := h6 fmt hf
  refine ⟨vs, c, ho, h7, fun n => ?_⟩
  rw [← mentions_byField n c, h8, mentions_byField, mentions_substAll]
  rw [value_none ho]

/-- **C116**: if the values of the aliases that stand in the code do not contain aliases, then no alias is left. -/
theorem C116_none_left {W : World} (hW : FieldSyntax W) {hist : List (Invocation × Luck)} {inv : Invocation} {l : Luck}
    (hs : Scheduled W hist inv l) {a : PAst} (ha : Reads W inv a) (hn : withSemicolons a.spec = false)
    (hw : stmtsNoWhere a.block = a.block) {body : Toks} (hc : Code inv body) {ts : Toks}
    (hk : ∀ its, InForce a its → ∀ defs ∈ its, ∀ s ∈ itemKeywords, s ∉ defs.map (·.1)) (h : output W hist inv l = .tokens ts) :
    ∃ (its : List (List (Str × Expr))) (cs : List Toks), InForce a its ∧ ts = cs.flatten ∧ cs.length = its.length ∧
      ∀ (i : Nat) (defs : List (Str × Expr)), its[i]? = some defs →
        ∃ vs c, outcome W.E (Env.builtin (l.ids 0)) defs = .ok vs ∧ cs[i]? = some c ∧
          ((∀ m v, mentions m body → valueToks vs m = some v → ∀ n ∈ defs.map (·.1), ¬ mentions n v) → ∀ n ∈ defs.map (·.1), ¬ mentions n c) := by
  obtain ⟨its, cs, h1, h2, h3, h4⟩ := C116_exact hW hs ha hn hw hc hk h
  refine ⟨its, cs, h1, h2, h3, fun i defs hd => ?_⟩
  obtain ⟨vs, c, ho, h5, h6⟩ := h4 i defs hd
  refine ⟨vs, c, ho, h5, fun hv n hm hc => ?_⟩
  rcases (h6 n).1 hc with ⟨-, h⟩ | ⟨m, v, h, h', h''⟩
  · exact h hm
  · exact hv m v h h' n hm h''

theorem mentions_inserts {xs : List Toks} {a b : Toks} (h : Inserts xs a b) (n : Str) : mentions n b ↔ mentions n a ∨ ∃ x ∈ xs, mentions n x := by
  induction h with
  | nil => simp [mentions]
  | keep t h ih => simp only [mentions, ih, or_assoc]
  | @group xs ys us vs a b d h1 h2 ih1 ih2 =>
    simp only [mentions, mentionsTok, ih1, ih2, List.mem_append]
    constructor
    · rintro ((h | ⟨x, hx, h⟩) | (h | ⟨x, hx, h⟩))
      · exact .inl (.inl h)
      · exact .inr ⟨x, .inl hx, h⟩
      · exact .inl (.inr h)
      · exact .inr ⟨x, .inr hx, h⟩
    · rintro ((h | h) | ⟨x, hx | hx, h⟩)
      · exact .inl (.inl h)
      · exact .inr (.inl h)
      · exact .inl (.inr ⟨x, hx, h⟩)
      · exact .inr (.inr ⟨x, hx, h⟩)
  | insert x h ih =>
    simp only [mentions_app, ih, List.mem_cons, exists_eq_or_imp]
    exact or_left_comm

/-- **C116** with semicolons: in addition, there may be the names in the attribute with the warning. -/
theorem C116_warned {W : World} (hW : FieldSyntax W) {hist : List (Invocation × Luck)} {inv : Invocation} {l : Luck}
    (hs : Scheduled W hist inv l) {a : PAst} (ha : Reads W inv a) (hw : stmtsNoWhere a.block = a.block) {body : Toks} (hc : Code inv body) {ts : Toks}
    (hk : ∀ its, InForce a its → ∀ defs ∈ its, ∀ s ∈ itemKeywords, s ∉ defs.map (·.1)) (h : output W hist inv l = .tokens ts) :
    ∃ (its : List (List (Str × Expr))) (cs : List Toks), InForce a its ∧ ts = cs.flatten ∧ cs.length = its.length ∧
      ∀ (i : Nat) (defs : List (Str × Expr)), its[i]? = some defs →
        ∃ vs c, outcome W.E (Env.builtin (l.ids 0)) defs = .ok vs ∧ cs[i]? = some c ∧ ∃ warned : Bool,
          ∀ n, mentions n c ↔ (mentions n body ∧ n ∉ defs.map (·.1)) ∨ (∃ m v, mentions m body ∧ valueToks vs m = some v ∧ mentions n v) ∨
            (warned = true ∧ n ∈ [S "deprecated", S "since", S "note"]) := by
  obtain ⟨its, cs, h1, h2, h3, h4⟩ := C66_fields_warned hW hs ha hw hc hk h
  refine ⟨its, cs, h1, h2, h3, fun i defs hd => ?_⟩
  obtain ⟨vs, ho, h6⟩ := h4 i defs hd
  obtain ⟨fmt, hf⟩ := formatting_exists W.E vs
  obtain ⟨c, ws, b, h7, h8, h9, h10⟩ := h6 fmt hf
  refine ⟨vs, c, ho, h7, !ws.isEmpty, fun n => ?_⟩
  rw [mentions_inserts h9, ← mentions_byField n b, h8, mentions_byField, mentions_substAll, value_none ho, or_assoc]
  refine or_congr_right (or_congr_right ?_)
  rcases h10 with rfl | rfl
  · simp
  · simp only [List.mem_singleton, exists_eq_left, warningToks, mentions, mentionsTok, false_or, or_false, List.isEmpty_cons, Bool.not_false, true_and,
      List.mem_cons, List.not_mem_nil]
    grind

/-! ## Examples -/

/-- `x = a, y = b, { x z }` -/
def namesCode : Toks := [id' "x", brace [id' "z"]]
def namesDemo : Toks := [id' "x", eq', id' "a", comma, id' "y", eq', id' "b", comma, brace namesCode]

example : FieldSyntax demoWorld ∧ Reads demoWorld (.compose namesDemo) (demoParse namesDemo) ∧ Scheduled demoWorld [] (.compose namesDemo) (demoLuck 2 1) ∧
    withSemicolons (demoParse namesDemo).spec = false ∧ Code (.compose namesDemo) namesCode ∧
    stmtsNoWhere (demoParse namesDemo).block = (demoParse namesDemo).block ∧ InForce (demoParse namesDemo) [definitions (demoParse namesDemo)] ∧
    (definitions (demoParse namesDemo)).map (·.1) = [c! "x", c! "y"] ∧
    outcome demoWorld.E (Env.builtin ((demoLuck 2 1).ids 0)) (definitions (demoParse namesDemo)) = .ok [(S "x", .ident (S "a")), (S "y", .ident (S "b"))] ∧
    output demoWorld [] (.compose namesDemo) (demoLuck 2 1) = .tokens [id' "a", brace [id' "z"]] :=
  ⟨demo_text.fields, reads_of_parse (ids := fun k => k) (k := 0) rfl, demo_scheduled _ _ (by decide +kernel), rfl, .compose (namesDemo.take 8) _ rfl, rfl, .once rfl,
    rfl, rfl, by decide +kernel⟩

/-- Aliases in values are left: `x` in the value of `y` is not the alias if it is part of a longer value, and `x` may stand for itself. -/
example : Expands (compose c! "x = a, y = Vec<x>, { fn f(_: y) {} }") (c! "fn f(_: Vec<x>) {}") ∧
    Expands (compose c! "x = x, { fn x() {} }") (c! "fn x() {}") := by
  refine ⟨by decide +kernel, by decide +kernel⟩

/-- With a semicolon and a warning: C116_warned. -/
example : Code (.compose demoSemi) [id' "struct", id' "y", brace []] ∧ withSemicolons (demoParse demoSemi).spec = true ∧
    stmtsNoWhere (demoParse demoSemi).block = (demoParse demoSemi).block ∧ Reads demoWorld (.compose demoSemi) (demoParse demoSemi) ∧
    Scheduled demoWorld [] (.compose demoSemi) (demoLuck 2 1) ∧ InForce (demoParse demoSemi) [definitions (demoParse demoSemi)] ∧
    (∀ s ∈ itemKeywords, s ∉ (definitions (demoParse demoSemi)).map (·.1)) ∧
    ∃ ts, output demoWorld [] (.compose demoSemi) (demoLuck 2 1) = .tokens ts ∧ mentions (S "deprecated") ts :=
  ⟨.compose (demoSemi.take 5) _ rfl, rfl, rfl, reads_of_parse (ids := fun k => k) (k := 0) rfl, demo_scheduled _ _ (by decide +kernel), .once rfl, by decide, _, rfl,
    .inr (.inl (.inl rfl))⟩

end Verif.Props
