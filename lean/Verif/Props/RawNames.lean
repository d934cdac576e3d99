import Verif.Proofs.RawNames
import Verif.Props.Pasted
import Verif.Props.Twice
import Verif.Props.Again
import Verif.Lite.Findings
/-!
# Property C113: raw identifiers

In Rust, `r#x` and `x` are the same name. The macros should take them for the same name too.
-/

namespace Verif.Props
open Verif Spec Lite

theorem rawAlikes_look {vs vs' : List (Str × VKind)} (h : RawAlikes vs vs') (n : Str) :
    (valueToks vs n).map plainToks = (valueToks vs' n).map plainToks := by
  induction h with
  | nil => rfl
  | cons m h _ ih =>
    simp only [valueToks, codeOf_eq, List.lookup] at ih ⊢
    split
    · cases h with
      | same v => rfl
      | name h => simp only [Option.map_some, VKind.toTokens, plainToks, Spec.plainTok, h]
    · exact ih

theorem rawDefs_names {A C : Str → Prop} {ds ds' : List (Str × Expr)} (h : RawDefs A C ds ds') : ds'.map (·.1) = ds.map (·.1) := by
  induction h with
  | nil => rfl
  | same _ _ _ _ ih => simp only [List.map_cons, ih]
  | value _ _ _ _ _ ih => simp only [List.map_cons, ih]
  | raw _ _ _ _ _ _ _ ih => simp only [List.map_cons, ih]

theorem plainToks_flatten : ∀ cs : List Toks, plainToks cs.flatten = (cs.map plainToks).flatten
  | [] => rfl
  | c :: cs => by simp only [List.flatten_cons, List.map_cons, plainToks_append, plainToks_flatten cs]

/-- **C113**, what is true: it makes no difference for the generated code if names in the code, and names for which aliases stand, are written with `r#`, as long
as aliases are written as they were defined. The names with `r#` may be given in definitions and in the lists of loops and passed on to further aliases, but not
to functions, and strings have no placeholders. -/
theorem C113_partial {W : World} (hW : TextSyntax W) {hist hist' : List (Invocation × Luck)} {inv inv' : Invocation} {l l' : Luck} {a a' : PAst}
    (hs : Scheduled W hist inv l) (ha : Reads W inv a) (hs' : Scheduled W hist' inv' l') (ha' : Reads W inv' a')
    (hn : withSemicolons a.spec = false) (hn' : withSemicolons a'.spec = false)
    (hw : stmtsNoWhere a.block = a.block) (hw' : stmtsNoWhere a'.block = a'.block)
    (hseed : l.ids 0 = l'.ids 0 ∨ NoHash a) {its its' : List (List (Str × Expr))} (hi : InForce a its) (hi' : InForce a' its') (hlen : its'.length = its.length)
    (hk : ∀ defs ∈ its, ∀ s ∈ itemKeywords, s ∉ defs.map (·.1))
    (hd : ∀ (i : Nat) (d d' : List (Str × Expr)), its[i]? = some d → its'[i]? = some d' → ∃ C, RawDefs (· ∈ d.map (·.1)) C d d')
    {body body' : Toks} (hc : Code inv body) (hc' : Code inv' body') (hb : plainToks body = plainToks body')
    (hal : ∀ defs ∈ its, ∀ n ∈ defs.map (·.1), asDefined n body ∧ asDefined n body') (hp : strLits (fun _ v => '%' ∉ v) body)
    {ts ts' : Toks} (h : output W hist inv l = .tokens ts) (h' : output W hist' inv' l' = .tokens ts') :
    plainToks (unspaced ts') = plainToks (unspaced ts) := by
  have same : ∀ js, InForce a js → js = its := fun js hj => Res.ok.inj ((iterations_of_inForce hj).symm.trans (iterations_of_inForce hi))
  have same' : ∀ js, InForce a' js → js = its' := fun js hj => Res.ok.inj ((iterations_of_inForce hj).symm.trans (iterations_of_inForce hi'))
  obtain ⟨js, cs, h1, rfl, h3, h4⟩ := C66_text hW hs ha hn hw hc (fun js hj => same js hj ▸ hk) h
  obtain rfl := same js h1
  obtain ⟨js', cs', h1', rfl, h3', h4'⟩ := C66_text hW hs' ha' hn' hw' hc' (fun js' hj => by
    obtain rfl := same' js' hj
    intro d' hd' s hs
    obtain ⟨i, hi, rfl⟩ := List.mem_iff_getElem.1 hd'
    have hj := List.getElem?_eq_getElem (l := js) (i := i) (hlen ▸ hi)
    obtain ⟨C, hr⟩ := hd i _ _ hj (List.getElem?_eq_getElem hi)
    rw [rawDefs_names hr]
    exact hk _ (List.getElem_mem _) s hs) h'
  obtain rfl := same' js' h1'
  rw [unspaced_coarse.flatten, unspaced_coarse.flatten, plainToks_flatten, plainToks_flatten]
  congr 1
  apply List.ext_getElem?
  intro i
  simp only [List.getElem?_map]
  by_cases hlt : i < js.length
  · have e1 := List.getElem?_eq_getElem hlt
    have e2 := List.getElem?_eq_getElem (l := js') (i := i) (hlen ▸ hlt)
    obtain ⟨C, hr⟩ := hd i _ _ e1 e2
    obtain ⟨vs, o, c1⟩ := h4 i _ e1
    obtain ⟨vs', o', c2⟩ := h4' i _ e2
    have o : outcome W.E (Env.builtin (l'.ids 0)) js[i] = .ok vs := by
      rcases hseed with e | e
      · rw [← e]; exact o
      · rw [← o]
        exact (outcome_seed fun d hd => e _ (iterations_mem (iterations_of_inForce h1) _ (List.getElem_mem hlt) d hd)).symm
    have hv := rawDefs_outcome hr (fun d hd => List.mem_map_of_mem hd) o o'
    obtain ⟨fmt, hf⟩ := formatting_exists W.E vs
    obtain ⟨fmt', hf'⟩ := formatting_exists W.E vs'
    obtain ⟨c, p1, p2⟩ := c1 fmt hf
    obtain ⟨c', p1', p2'⟩ := c2 fmt' hf'
    rw [p1, p1', Option.map_some, Option.map_some, Option.map_some, Option.map_some, p2, p2', plain_unspaced, plain_unspaced]
    congr 2
    refine (plain_substAll (A := (· ∈ js[i].map (·.1))) (rawAlikes_look hv) (fun n hn => ?_) body body' hb (hal _ (List.getElem_mem hlt)) ?_).symm
    · rw [← (denote_names (outcome_ok.1 o).2).1]
      simp only [valueToks, codeOf_eq, Option.isSome_map] at hn
      exact Classical.byContradiction fun hno => by rw [lookup_not_mem hno] at hn; cases hn
    · refine strLits_imp (fun r v hv => ?_) body hp
      simp only [litWith, ← formats_sound (hf v), ← formats_sound (hf' v), formatString_plain v hv]
  · rw [List.getElem?_eq_none (by omega), List.getElem?_eq_none (by omega)]

/-! ## Examples -/

/-- `x = r#a, y = x, { fn y() { r#b } }`, and the same without `r#` -/
def rawCode (r : String) : Toks := [id' "fn", id' "y", paren [], brace [id' r]]
def rawDemo (q r : String) : Toks := [id' "x", eq', id' q, comma, id' "y", eq', id' "x", comma, brace (rawCode r)]

example (q r : String) (hq : q = "a" ∨ q = "r#a") (hr : r = "b" ∨ r = "r#b") :
    Reads demoWorld (.compose (rawDemo q r)) (demoParse (rawDemo q r)) ∧ Scheduled demoWorld [] (.compose (rawDemo q r)) (demoLuck 2 1) ∧
    withSemicolons (demoParse (rawDemo q r)).spec = false ∧ Code (.compose (rawDemo q r)) (rawCode r) ∧ (tree (demoParse (rawDemo q r))).loops = none ∧
    stmtsNoWhere (demoParse (rawDemo q r)).block = (demoParse (rawDemo q r)).block ∧ plainToks (rawCode r) = rawCode "b" ∧
    (∀ s ∈ itemKeywords, s ∉ (definitions (demoParse (rawDemo q r))).map (·.1)) ∧ strLits (fun _ v => '%' ∉ v) (rawCode r) ∧
    (∀ n ∈ (definitions (demoParse (rawDemo q r))).map (·.1), asDefined n (rawCode r)) ∧
    RawDefs (· ∈ (definitions (demoParse (rawDemo q r))).map (·.1)) (fun _ => True) (definitions (demoParse (rawDemo q r)))
      (definitions (demoParse (rawDemo "a" "b"))) ∧
    output demoWorld [] (.compose (rawDemo q r)) (demoLuck 2 1) = .tokens [id' "fn", id' q, paren [], brace [id' r]] := by
  have defs : ∀ n : Str, n ∈ (definitions (demoParse (rawDemo q r))).map (·.1) ↔ n = c! "x" ∨ n = c! "y" := by
    rcases hq with rfl | rfl <;> rcases hr with rfl | rfl <;> exact fun n => by
      show n ∈ [c! "x", c! "y"] ↔ _
      simp
  have dn : ∀ n : Str, n = c! "x" ∨ n = c! "y" → asDefined n (rawCode r) := by
    rintro n (rfl | rfl) <;> rcases hr with rfl | rfl <;> refine ⟨?_, ?_, trivial, ⟨?_, trivial⟩, trivial⟩ <;> (show (_ : Str) = _ → (_ : Str) = _; decide)
  rcases hq with rfl | rfl <;> rcases hr with rfl | rfl <;>
    refine ⟨reads_of_parse (ids := fun k => k) (k := 0) rfl, demo_scheduled _ _ (by decide +kernel), rfl, .compose [id' "x", eq', id' _, comma, id' "y", eq', id' "x", comma] _ rfl, rfl, rfl, rfl,
      by decide +kernel, ⟨trivial, trivial, trivial, ⟨trivial, trivial⟩, trivial⟩, fun n hn => dn n ((defs n).1 hn), ?_, by decide +kernel⟩ <;>
    exact .raw _ _ trivial rfl (fun h => absurd ((defs _).1 h) (by decide)) (fun h => absurd ((defs _).1 h) (by decide)) (.value _ _ _ trivial .nil)

/-- `for x in [r#a, b] y = x, { fn y() {} }`, and the same without `r#` -/
def rawLoop (q : String) : Toks := [id' "for", id' "x", id' "in", .group .bracket [id' q, comma, id' "b"], id' "y", eq', id' "x", comma,
  brace [id' "fn", id' "y", paren [], brace []]]

/-- The hypotheses of C113_partial are met with a loop as well. -/
example (q : String) (hq : q = "a" ∨ q = "r#a") :
    Reads demoWorld (.compose (rawLoop q)) (demoParse (rawLoop q)) ∧ Scheduled demoWorld [] (.compose (rawLoop q)) (demoLuck 2 1) ∧
    withSemicolons (demoParse (rawLoop q)).spec = false ∧ Code (.compose (rawLoop q)) [id' "fn", id' "y", paren [], brace []] ∧
    (∃ its its', InForce (demoParse (rawLoop q)) its ∧ InForce (demoParse (rawLoop "a")) its' ∧ its'.length = its.length ∧ its.length = 2 ∧
      (∀ defs ∈ its, ∀ s ∈ itemKeywords, s ∉ defs.map (·.1)) ∧
      (∀ defs ∈ its, ∀ n ∈ defs.map (·.1), asDefined n [id' "fn", id' "y", paren [], brace []]) ∧
      ∀ (i : Nat) (d d' : List (Str × Expr)), its[i]? = some d → its'[i]? = some d' → ∃ C, RawDefs (· ∈ d.map (·.1)) C d d') ∧
    output demoWorld [] (.compose (rawLoop q)) (demoLuck 2 1) =
      .tokens [id' "fn", id' q, paren [], brace [], id' "fn", id' "b", paren [], brace []] := by
  have dn : ∀ n ∈ [c! "x", c! "y"], asDefined n [id' "fn", id' "y", paren [], brace []] := by
    intro n hn
    simp only [List.mem_cons, List.not_mem_nil, or_false] at hn
    rcases hn with rfl | rfl <;> refine ⟨?_, ?_, trivial, trivial, trivial⟩ <;> (show (_ : Str) = _ → (_ : Str) = _; decide)
  have key : ∀ q : String, (¬ S q ∈ [c! "x", c! "y"]) → plainName (S q) = c! "a" → ∀ (j1 j2 j3 j4 k1 k2 k3 k4 : Nat) (i : Nat) (d d' : List (Str × Expr)),
      [[(c! "x", Expr.value j1 (.ident (S q))), (c! "y", Expr.value j2 (.ident c! "x"))],
        [(c! "x", Expr.value j3 (.ident c! "b")), (c! "y", Expr.value j4 (.ident c! "x"))]][i]? = some d →
      [[(c! "x", Expr.value k1 (.ident c! "a")), (c! "y", Expr.value k2 (.ident c! "x"))],
        [(c! "x", Expr.value k3 (.ident c! "b")), (c! "y", Expr.value k4 (.ident c! "x"))]][i]? = some d' →
      ∃ C, RawDefs (· ∈ d.map (·.1)) C d d' := by
    intro q hq hp j1 j2 j3 j4 k1 k2 k3 k4 i d d' h h'
    match i, h, h' with
    | 0, h, h' =>
      cases h; cases h'
      exact ⟨fun _ => True, .raw _ _ trivial hp hq (by show ¬ (c! "a" ∈ [c! "x", c! "y"]); decide) (.value _ _ _ trivial .nil)⟩
    | 1, h, h' => cases h; cases h'; exact ⟨fun _ => True, .value _ _ _ trivial (.value _ _ _ trivial .nil)⟩
    | n + 2, h, _ => cases h
  have names : ∀ (P : List Str → Prop), P [c! "x", c! "y"] → ∀ (e1 e2 e3 e4 : Expr),
      ∀ defs ∈ [[(c! "x", e1), (c! "y", e2)], [(c! "x", e3), (c! "y", e4)]], P (defs.map (·.1)) := by
    intro P hP e1 e2 e3 e4 defs hd
    simp only [List.mem_cons, List.not_mem_nil, or_false] at hd
    rcases hd with rfl | rfl <;> exact hP
  rcases hq with rfl | rfl <;>
    exact ⟨reads_of_parse (ids := fun k => k) (k := 0) rfl, demo_scheduled _ _ (by decide +kernel), rfl, .compose ((rawLoop _).take 8) _ rfl,
      ⟨_, _, inForce_of_iterations rfl, inForce_of_iterations rfl, rfl, rfl, names (fun l => ∀ s ∈ itemKeywords, s ∉ l) (by decide) _ _ _ _,
        names (fun l => ∀ n ∈ l, asDefined n _) dn _ _ _ _, key _ (by decide) (by decide) _ _ _ _ _ _ _ _⟩, by decide +kernel⟩

/-- **C113** is false: an alias is not replaced where it is written with `r#`; aliases `x` and `r#x` can both be defined; `upper(r#x)` panics, and a placeholder
shows the `r#`. -/
theorem C113_false :
    Expands (compose c! "x = a, { fn r#x() {} }") (c! "fn r#x() {}") ∧ Expands (compose c! "x = a, { fn x() {} }") (c! "fn a() {}") ∧
    Expands (compose c! "x = a, r#x = b, { fn x() { r#x } }") (c! "fn a() { b }") ∧ Rejected (compose c! "x = a, x = b, { fn x() { x } }") (.redefined c! "x") ∧
    Panicked (compose c! "x = upper(r#a), { fn x() {} }") ∧ Expands (compose c! "x = upper(a), { fn x() {} }") (c! "fn A() {}") ∧
    Expands (compose c! "x = r#a, { fn f() { \"%x%\" } }") (c! "fn f() { \"r#a\" }") := by
  refine ⟨by decide +kernel, by decide +kernel, by decide +kernel, by decide +kernel, by decide +kernel, by decide +kernel, by decide +kernel⟩

end Verif.Props
