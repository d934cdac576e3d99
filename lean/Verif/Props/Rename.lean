import Verif.Proofs.Rename
import Verif.Props.Whole
/-! # Property C64: the names of aliases do not matter -/

namespace Verif.Props
open Verif Spec

/-- **C64** for definitions: with an alias renamed they have the same values, or fail in the same way (only
the quotation of the definition in the error differs). -/
theorem C64_definitions {E : Ext} {seed : Nat} {x y : Str} {defs defs' : List (Str × Expr)} (h : RenDefs x y defs defs') :
    match outcome E (Env.builtin seed) defs with
    | .ok vs => ∃ vs1 v vs2, vs = vs1 ++ (x, v) :: vs2 ∧ outcome E (Env.builtin seed) defs' = .ok (vs1 ++ (y, v) :: vs2) ∧
        x ∉ vs1.map (·.1) ∧ x ∉ vs2.map (·.1) ∧ y ∉ vs1.map (·.1) ∧ y ∉ vs2.map (·.1)
    | .err e => ∃ e', outcome E (Env.builtin seed) defs' = .err e' ∧ blur e' = blur e
    | .panic => outcome E (Env.builtin seed) defs' = .panic := by
  have ho := outcome_ren (E := E) (env := Env.builtin seed) rfl h
  cases hd : outcome E (Env.builtin seed) defs with
  | err e =>
    rw [hd] at ho
    rcases blurR_cases ho with h | ⟨z, w, h1, h2, h3⟩
    · exact ⟨e, h, rfl⟩
    · cases h2; exact ⟨_, h1, h3⟩
  | panic =>
    rw [hd] at ho
    rcases blurR_cases ho with h | ⟨z, w, h1, h2, h3⟩
    · exact h
    · cases h2
  | ok vs =>
    rw [hd] at ho
    replace ho : outcome E (Env.builtin seed) defs' = .ok (vs.map (renKey x y)) := by
      rcases blurR_cases ho with h | ⟨z, w, h1, h2, h3⟩
      · exact h
      · cases h2
    obtain ⟨pre, e, h, hx, hy, hu⟩ := h
    have hn := (denote_names (outcome_ok.1 hd).2).1
    rw [List.map_append, List.map_cons] at hn
    obtain ⟨vs1, vs2', rfl, h1, h2⟩ := List.map_eq_append_iff.1 hn
    obtain ⟨⟨m, v⟩, vs2, rfl, h3, h4⟩ := List.map_eq_cons_iff.1 h2
    have h3 : m = x := h3
    rw [h3] at ho ⊢
    have h5 : x ∉ vs1.map (·.1) := by rw [h1]; exact hx.1
    have h6 : x ∉ vs2.map (·.1) := by rw [h4]; exact hx.2
    refine ⟨vs1, v, vs2, rfl, ?_, h5, h6, by rw [h1]; exact hy.1, by rw [h4]; exact hy.2⟩
    rw [ho, List.map_append, List.map_cons, map_renKey h5, map_renKey h6]
    simp [renKey]

theorem lookup_append {α : Type} {n : Str} {l l' : List (Str × α)} : List.lookup n (l ++ l') = (List.lookup n l).or (List.lookup n l') := by
  induction l with
  | nil => simp
  | cons p l ih =>
    obtain ⟨m, a⟩ := p
    simp only [List.cons_append, List.lookup_cons, ih]
    cases n == m <;> rfl

theorem lookup_not_mem {α : Type} {n : Str} {l : List (Str × α)} (h : n ∉ l.map (·.1)) : List.lookup n l = none := by
  rw [List.lookup_eq_none_iff]
  intro p hp
  simp only [bne_iff_ne, ne_eq]
  rintro rfl
  exact h (List.mem_map_of_mem hp)

theorem renamed_lookup {x y : Str} {vs1 vs2 : Subs} {v : VKind} (h5 : x ∉ vs1.map (·.1)) (h7 : y ∉ vs1.map (·.1)) :
    Renamed x y (fun n => List.lookup n (vs1 ++ (x, v) :: vs2)) (fun n => List.lookup n (vs1 ++ (y, v) :: vs2)) ∧
      List.lookup x (vs1 ++ (x, v) :: vs2) = some v := by
  have hxv : List.lookup x (vs1 ++ (x, v) :: vs2) = some v := by
    rw [lookup_append, lookup_not_mem h5]; simp
  refine ⟨⟨?_, fun n hx hy => ?_⟩, hxv⟩
  · show List.lookup y (vs1 ++ (y, v) :: vs2) = List.lookup x (vs1 ++ (x, v) :: vs2)
    rw [hxv, lookup_append, lookup_not_mem h7]
    simp
  · have e1 : (n == x) = false := by simpa using hx
    have e2 : (n == y) = false := by simpa using hy
    simp only [lookup_append, List.lookup_cons, e1, e2]

/-- **C64** for code: where the alias is renamed in the code too, the result of replacing all aliases by their values is the same. -/
theorem C64_code {E : Ext} {x y : Str} {vs1 vs2 : Subs} {v : VKind} (h5 : x ∉ vs1.map (·.1)) (h7 : y ∉ vs1.map (·.1)) {ts ts' : Toks}
    (h : RenToks E.toCharClass x y ts ts') (hy : ¬ uses E.toCharClass y ts) {fmt fmt' : Str → Str}
    (hf : FormatsAll E (vs1 ++ (x, v) :: vs2) fmt) (hf' : FormatsAll E (vs1 ++ (y, v) :: vs2) fmt') :
    substAll (valueToks (vs1 ++ (y, v) :: vs2)) (litWith E fmt') ts' = substAll (valueToks (vs1 ++ (x, v) :: vs2)) (litWith E fmt) ts := by
  obtain ⟨hr, hxv⟩ := renamed_lookup (vs2 := vs2) (v := v) h5 h7
  refine substAll_ren h ⟨?_, fun n h1 h2 => ?_⟩ (v := v.toTokens) (by simp [valueToks, codeOf_eq, hxv]) ?_ hy
  · exact congrArg (Option.map codeOf) hr.here
  · exact congrArg (Option.map codeOf) (hr.other n h1 h2)
  · intro w w' hw hn
    obtain ⟨o, h1, h2⟩ := formats_ren hw (look := valueText E (vs1 ++ (x, v) :: vs2)) (look' := valueText E (vs1 ++ (y, v) :: vs2))
      ⟨congrArg (Option.map (stringForm E)) hr.here, fun n h1 h2 => congrArg (Option.map (stringForm E)) (hr.other n h1 h2)⟩
      (v := stringForm E v) (by simp [valueText, hxv]) hn
    have e1 : fmt w = o := (formats_sound (hf w)).symm.trans (formats_sound h1)
    have e2 : fmt' w' = o := (formats_sound (hf' w')).symm.trans (formats_sound h2)
    simp only [litWith, e1, e2]

/-- **C64** for invocations (with commas, so that there are no warnings): if in every iteration the definitions in force differ only by the
name of an alias, and so does the code, then the outputs are the same (as far as `q` tells, see `GoodSyntax`). -/
theorem C64_same_output {W : World} {q : Toks → Toks} (hW : GoodSyntax q W) {hist hist' : List (Invocation × Luck)} {inv inv' : Invocation} {l l' : Luck}
    {a a' : PAst} (hs : Scheduled W hist inv l) (ha : Reads W inv a) (hs' : Scheduled W hist' inv' l') (ha' : Reads W inv' a')
    (hseed : l.ids 0 = l'.ids 0 ∨ NoHash a) (hn : withSemicolons a.spec = false) (hn' : withSemicolons a'.spec = false)
    {x y : Str} {its its' : List (List (Str × Expr))} (hi : InForce a its) (hi' : InForce a' its') (hl : its'.length = its.length)
    (hr : ∀ (i : Nat) d d', its[i]? = some d → its'[i]? = some d' → RenDefs x y d d')
    (hk : ∀ s ∈ itemKeywords, (∀ d ∈ its, s ∉ d.map (·.1)) ∧ ∀ d ∈ its', s ∉ d.map (·.1))
    (hb : RenToks W.E.toCharClass x y (stmtsToks (stmtsNoWhere a.block)) (stmtsToks (stmtsNoWhere a'.block)))
    (hy : ¬ uses W.E.toCharClass y (stmtsToks (stmtsNoWhere a.block))) {ts ts' : Toks}
    (h : output W hist inv l = .tokens ts) (h' : output W hist' inv' l' = .tokens ts') : q ts' = q ts := by
  have uniq : ∀ {b : PAst} {js js' : List (List (Str × Expr))}, InForce b js → InForce b js' → js' = js := by
    intro b js js' h1 h2
    have := (iterations_of_inForce h2).symm.trans (iterations_of_inForce h1)
    exact Res.ok.inj this
  obtain ⟨js, cs, h1, rfl, h3, h4⟩ := C59_meaning hW hs ha hn (fun js hj d hd s hs => (hk s hs).1 d (uniq hi hj ▸ hd)) h
  obtain ⟨js', cs', h1', rfl, h3', h4'⟩ := C59_meaning hW hs' ha' hn' (fun js hj d hd s hs => (hk s hs).2 d (uniq hi' hj ▸ hd)) h'
  obtain rfl := uniq hi h1
  obtain rfl := uniq hi' h1'
  rw [hW.coarse.flatten, hW.coarse.flatten]
  congr 1
  apply List.ext_getElem?
  intro i
  rw [List.getElem?_map, List.getElem?_map]
  by_cases hlt : i < js.length
  · have hlt' : i < js'.length := by omega
    have e1 := List.getElem?_eq_getElem hlt
    have e2 := List.getElem?_eq_getElem hlt'
    obtain ⟨vs, o1, c1⟩ := h4 i _ e1
    obtain ⟨vs', o2, c2⟩ := h4' i _ e2
    have hrd := hr i _ _ e1 e2
    have o1' : outcome W.E (Env.builtin (l'.ids 0)) js[i] = .ok vs := by
      rcases hseed with hs | hs
      · rw [← hs]; exact o1
      · rw [← o1]
        refine outcome_seed fun d hd => ?_
        exact hs _ (iterations_mem (iterations_of_inForce hi) _ (List.getElem_mem hlt) d hd)
    have := C64_definitions (E := W.E) (seed := l'.ids 0) hrd
    rw [o1'] at this
    obtain ⟨vs1, v, vs2, rfl, o3, h5, -, h7, -⟩ := this
    rw [o2] at o3
    cases o3
    obtain ⟨fmt, hf⟩ := formatting_exists W.E (vs1 ++ (x, v) :: vs2)
    obtain ⟨fmt', hf'⟩ := formatting_exists W.E (vs1 ++ (y, v) :: vs2)
    obtain ⟨d1, c3, c4⟩ := c1 fmt hf
    obtain ⟨d2, c5, c6⟩ := c2 fmt' hf'
    rw [c3, c5, Option.map_some, Option.map_some, c4, c6, C64_code h5 h7 hb hy hf hf']
  · rw [List.getElem?_eq_none (by omega), List.getElem?_eq_none (by omega)]

/-- `n = a, y = concat(n, 1), { n y "-%n%%" }` -/
def demoNamed (n : String) : Toks :=
  [id' n, eq', id' "a", comma, id' "y", eq', id' "concat", paren [id' n, comma, .lit (.int (S "1") 1)], comma,
    brace [id' n, id' "y", .lit (.str (S "r") (S ("-%" ++ n ++ "%%")))]]

theorem demoNamed_str : RenStr demoWorld.E.toCharClass (S "x") (S "z") (S "-%x%%") (S "-%z%%") :=
  .renamed (S "-") (S "x") (S "z") [] [] 1 (by decide) (by decide) (by decide) (by decide) (by decide) (by decide) (by decide) (by decide)
    (.plain [] (by decide))

example : GoodSyntax id demoWorld ∧ Scheduled demoWorld [] (.compose (demoNamed "x")) (demoLuck 2 1) ∧
    Scheduled demoWorld [] (.compose (demoNamed "z")) (demoLuck 2 1) ∧
    Reads demoWorld (.compose (demoNamed "x")) (demoParse (demoNamed "x")) ∧ Reads demoWorld (.compose (demoNamed "z")) (demoParse (demoNamed "z")) ∧
    InForce (demoParse (demoNamed "x")) [definitions (demoParse (demoNamed "x"))] ∧
    InForce (demoParse (demoNamed "z")) [definitions (demoParse (demoNamed "z"))] ∧
    RenDefs (S "x") (S "z") (definitions (demoParse (demoNamed "x"))) (definitions (demoParse (demoNamed "z"))) ∧
    RenToks demoWorld.E.toCharClass (S "x") (S "z") (stmtsToks (stmtsNoWhere (demoParse (demoNamed "x")).block))
      (stmtsToks (stmtsNoWhere (demoParse (demoNamed "z")).block)) ∧
    (∀ s ∈ itemKeywords, s ∉ (definitions (demoParse (demoNamed "x"))).map (·.1) ∧ s ∉ (definitions (demoParse (demoNamed "z"))).map (·.1)) ∧
    output demoWorld [] (.compose (demoNamed "z")) (demoLuck 2 1) = output demoWorld [] (.compose (demoNamed "x")) (demoLuck 2 1) ∧
    output demoWorld [] (.compose (demoNamed "x")) (demoLuck 2 1) =
      .tokens [id' "a", id' "a1", .lit (.str (Ext.demo.strRepr (S "-a%")) (S "-a%"))] := by
  refine ⟨demo_good, demo_scheduled _ _ (by decide +kernel), demo_scheduled _ _ (by decide +kernel),
    reads_of_parse (ids := fun k => k) (k := 0) rfl, reads_of_parse (ids := fun k => k) (k := 0) rfl, .once rfl, .once rfl, ?_, ?_,
    by decide +kernel, by decide +kernel, by decide +kernel⟩
  · exact .mk [] _ (.cons (.call _ _ _ _ _ _ _ (by decide) (.cons (.value _ _ _) (.cons (.value _ _ _) .nil))) .nil) (by decide) (by decide)
      (by decide)
  · exact .cons .alias (.cons (.ident _ (by decide)) (.cons (.str _ _ _ _ demoNamed_str) .nil))

example : ¬ uses demoWorld.E.toCharClass (S "z") (stmtsToks (stmtsNoWhere (demoParse (demoNamed "x")).block)) := by
  have hb : stmtsToks (stmtsNoWhere (demoParse (demoNamed "x")).block) = [id' "x", id' "y", .lit (.str (S "r") (S "-%x%%"))] := rfl
  rw [hb]
  simp only [uses, usesTok, id', or_false, not_or]
  refine ⟨by decide, by decide, ?_⟩
  rintro ⟨pre, body, post, h, h1, h2⟩
  have hz : 'z' ∈ body := by
    have : 'z' ∈ body.filter (fun c => !demoWorld.E.toCharClass.whitespace c) := by rw [h2]; decide
    exact (List.mem_filter.1 this).1
  have : 'z' ∈ S "-%x%%" := by rw [h]; simp [hz]
  exact absurd this (by decide)

end Verif.Props
