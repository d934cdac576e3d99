import Verif.Props.Again
/-!
# An invocation inside another, for values of any kind (C93)

The outer invocation writes the tokens of its values into the definitions of the inner one, where they are read again. What they are read as is said by
`PastedDefs`: where a name stood for a value there is now that value.
-/

namespace Verif.Props
open Verif Spec

/-- **C93**, the definitions, for values of any kind: after definitions with the values `vs`, other definitions have the values they have by themselves with these
values written in them, or fail in the same way (only the quotation of the definition in the error differs). The two invocations do not define or write each other's
aliases. -/
theorem C93_written {E : Ext} {seed : Nat} {d1 d2 d2' : List (Str × Expr)} {vs : Subs} (h : outcome E (Env.builtin seed) d1 = .ok vs)
    (ha : ∀ d ∈ d2, List.lookup d.1 vs = none ∧ ∀ n, List.lookup n vs ≠ some (.ident d.1)) (hp : PastedDefs (writtenLeaf vs) d2 d2') :
    match outcome E (Env.builtin seed) d2' with
    | .ok vs2 => outcome E (Env.builtin seed) (d1 ++ d2) = .ok (vs ++ vs2)
    | .err e => ∃ e', outcome E (Env.builtin seed) (d1 ++ d2) = .err e' ∧ blur e' = blur e
    | .panic => outcome E (Env.builtin seed) (d1 ++ d2) = .panic := by
  have alone : ∀ a ∈ d2.map (·.1), Alone (writtenLeaf vs) a ∧ vs.get a = none := by
    intro a h
    obtain ⟨d, hd, rfl⟩ := List.mem_map.1 h
    obtain ⟨h1, h2⟩ := ha d hd
    refine ⟨⟨by rw [writtenLeaf, h1]; rfl, fun k hk => ?_⟩, by rw [get_eq_lookup, h1]⟩
    cases k <;> try exact hk
    rename_i n
    simp only [writtenLeaf] at hk
    cases hl : List.lookup n vs with
    | none => rw [hl] at hk; exact hk
    | some v => rw [hl] at hk; cases hk; exact absurd hl (h2 n)
  have hb := outcome_pasted (E := E) (env := Env.builtin seed) rfl h (fun k => rfl) hp alone
  generalize outcome E (Env.builtin seed) d2' = o at hb
  cases o with
  | ok vs2 =>
    rcases blurR_cases hb with h | ⟨x, y, h1, h2, h3⟩
    · exact h
    · cases h2
  | panic =>
    rcases blurR_cases hb with h | ⟨x, y, h1, h2, h3⟩
    · exact h
    · cases h2
  | err e =>
    rcases blurR_cases hb with h | ⟨x, y, h1, h2, h3⟩
    · exact ⟨e, h, rfl⟩
    · cases h2; exact ⟨x, h1, h3⟩

theorem pastedDefs_names {f : VKind → VKind} : ∀ {d d' : List (Str × Expr)}, PastedDefs f d d' → d'.map (·.1) = d.map (·.1)
  | _, _, .nil => rfl
  | _, _, .cons _ hs => by simp [pastedDefs_names hs]

/-- In one iteration, in which the definitions `d1` have the values `vs`, an invocation with the definitions `d2` and the code `body` is written as `inv2`, read as
`a2`, without loops and semicolons, and expands to `t`. The values are read as what they are, where names of `d2` stand for them; the replacement of the inner
aliases finds nothing in them. The seed is that of `l`, or `NoHash a`. -/
structure ExpandsWritten (W : World) (l : Luck) (a : PAst) (d1 d2 : List (Str × Expr)) (body : Toks) (vs : Subs) (fmt : Str → Str) (inv2 : Invocation)
    (a2 : PAst) (body2 : Toks) (hist2 : List (Invocation × Luck)) (l2 : Luck) (t : Toks) : Prop where
  values : outcome W.E (Env.builtin (l.ids 0)) d1 = .ok vs
  formats : FormatsAll W.E vs fmt
  generated : unspaced body2 = unspaced (substAll (valueToks vs) (litWith W.E fmt) body)
  reads : Reads W inv2 a2
  code : Code inv2 body2
  written : PastedDefs (writtenLeaf vs) d2 (definitions a2)
  apart : ∀ d ∈ d2, List.lookup d.1 vs = none ∧ ∀ n, List.lookup n vs ≠ some (.ident d.1)
  noLoops : (tree a2).loops = none
  noSemicolons : withSemicolons a2.spec = false
  noWhere : stmtsNoWhere a2.block = a2.block
  scheduled : Scheduled W hist2 inv2 l2
  seed : l.ids 0 = l2.ids 0 ∨ NoHash a
  keywords : ∀ s ∈ itemKeywords, s ∉ (d1 ++ d2).map (·.1)
  inert : ∀ vs2, outcome W.E (Env.builtin (l2.ids 0)) (definitions a2) = .ok vs2 → Inert W.E vs vs2
  output : output W hist2 inv2 l2 = .tokens t

theorem written_copy {W : World} (hW : TextSyntax W) {l : Luck} {a : PAst} {d1 d2 : List (Str × Expr)} {body : Toks} {vs : Subs} {fmt : Str → Str}
    {inv2 : Invocation} {a2 : PAst} {body2 : Toks} {hist2 : List (Invocation × Luck)} {l2 : Luck} {t : Toks}
    (h : ExpandsWritten W l a d1 d2 body vs fmt inv2 a2 body2 hist2 l2 t) (hb : strLits (fun _ v => ¬ HasDoublePercent v) body)
    {its : List (List (Str × Expr))} (hi : InForce a its) (hd : d1 ++ d2 ∈ its) {vs12 : Subs}
    (h12 : outcome W.E (Env.builtin (l.ids 0)) (d1 ++ d2) = .ok vs12) {fmt12 : Str → Str} (hf12 : FormatsAll W.E vs12 fmt12) :
    unspaced t = unspaced (substAll (valueToks vs12) (litWith W.E fmt12) body) := by
  have hseed : ∀ {ds}, (∀ d ∈ ds, d ∈ d1 ++ d2) → outcome W.E (Env.builtin (l.ids 0)) ds = outcome W.E (Env.builtin (l2.ids 0)) ds := by
    intro ds hds
    rcases h.seed with hs | hs
    · rw [hs]
    · exact outcome_seed fun d hd' => hs _ (iterations_mem (iterations_of_inForce hi) _ hd d (hds d hd'))
  obtain ⟨vs2, h1, h2⟩ := once_meaning hW h.scheduled h.reads h.noLoops h.noSemicolons h.noWhere h.code (by
    rw [pastedDefs_names h.written]
    exact fun s hs hm => h.keywords s hs (by simp only [List.map_append, List.mem_append]; exact .inr hm)) h.output
  have h3 := C93_written (E := W.E) (seed := l2.ids 0) ((hseed fun d hd' => List.mem_append_left _ hd').symm.trans h.values) h.apart h.written
  rw [h1] at h3
  simp only at h3
  rw [hseed (fun d h => h), h3] at h12
  cases h12
  obtain ⟨fmt2, hf2⟩ := formatting_exists W.E vs2
  rw [h2 fmt2 hf2, ← unspaced_substAll, h.generated, unspaced_substAll, C106_code (h.inert vs2 h1) h.formats hf2 hf12 hb]

/-- **C93** (partial), for values of any kind: an invocation as an outer one writes it in each of its iterations expands to what one invocation with the loops of the
outer one, the definitions of both and the same code expands to, up to spacing, if all succeed. The values have to be read as what they are where the inner definitions
use them (`written`); missing are aliases inside other tokens of the inner definitions, and percents next to each other, for which it is false (`C93_false`). -/
theorem C93_values_partial {W : World} (hW : TextSyntax W) {flat : Invocation} {a : PAst} {body : Toks} {d2 : List (Str × Expr)}
    (ha : Reads W flat a) (hc : Code flat body) (hn : withSemicolons a.spec = false) (hw : stmtsNoWhere a.block = a.block)
    (hb : strLits (fun _ v => ¬ HasDoublePercent v) body) {its : List (List (Str × Expr))} (hi : InForce a (its.map (· ++ d2)))
    {hist : List (Invocation × Luck)} {l : Luck} (hs : Scheduled W hist flat l) {outs : List Toks} (hlen : outs.length = its.length)
    (hin : ∀ (i : Nat) d1 t, its[i]? = some d1 → outs[i]? = some t → ∃ vs fmt inv2 a2 body2 hist2 l2,
      ExpandsWritten W l a d1 d2 body vs fmt inv2 a2 body2 hist2 l2 t)
    {ts : Toks} (h : output W hist flat l = .tokens ts) : unspaced outs.flatten = unspaced ts := by
  have uniq : ∀ js, InForce a js → js = its.map (· ++ d2) := fun js hj =>
    Res.ok.inj ((iterations_of_inForce hj).symm.trans (iterations_of_inForce hi))
  obtain ⟨js, cs, h1, rfl, h3, h4⟩ := C66_text hW hs ha hn hw hc (fun js hj d hd s hs => by
    rw [uniq js hj] at hd
    obtain ⟨d1, hd1, rfl⟩ := List.mem_map.1 hd
    obtain ⟨i, hlt, rfl⟩ := List.mem_iff_getElem.1 hd1
    obtain ⟨vs, fmt, inv2, a2, body2, hist2, l2, hx⟩ := hin i _ _ (List.getElem?_eq_getElem hlt) (List.getElem?_eq_getElem (by omega))
    exact hx.keywords s hs) h
  obtain rfl := uniq js h1
  rw [List.length_map] at h3
  rw [unspaced_coarse.flatten, unspaced_coarse.flatten]
  congr 1
  apply List.ext_getElem?
  intro i
  rw [List.getElem?_map, List.getElem?_map]
  by_cases hlt : i < its.length
  · have e1 := List.getElem?_eq_getElem hlt
    have e2 : outs[i]? = some _ := List.getElem?_eq_getElem (by omega)
    obtain ⟨vs, fmt, inv2, a2, body2, hist2, l2, hx⟩ := hin i _ _ e1 e2
    have e3 : (its.map (· ++ d2))[i]? = some (its[i] ++ d2) := by rw [List.getElem?_map, e1]; rfl
    obtain ⟨vs12, o1, c1⟩ := h4 i _ e3
    obtain ⟨fmt12, hf12⟩ := formatting_exists W.E vs12
    obtain ⟨c, c2, c3⟩ := c1 fmt12 hf12
    rw [e2, c2, Option.map_some, Option.map_some, c3, written_copy hW hx hb hi (List.mem_map_of_mem (List.getElem_mem hlt)) o1 hf12]
  · rw [List.getElem?_eq_none (by omega), List.getElem?_eq_none (by omega)]

/-! ## Example -/

/-- `y = upper(rhs), { code }` -/
def upperOf (rhs : Toks) (code : Toks) : Toks := [id' "y", eq', id' "upper", paren rhs, comma, brace code]

/-- `x = "s", y = upper(x), { x y "%x%-%y%" }` -/
def demoBoth : Toks := [id' "x", eq', .lit (.str (Ext.demo.strRepr (S "s")) (S "s")), comma] ++ upperOf [id' "x"] demoTold

/-- `y = upper("s"), { "s" y "s-%y%" }`, as it comes out of an invocation with `x = "s"`. -/
def demoInside : Toks := upperOf demoS demoFirst

/-- `"s" "S" "s-S"` -/
def demoExpanded : Toks :=
  demoS ++ [.lit (.str (Ext.demo.strRepr (S "S")) (S "S")), .lit (.str (Ext.demo.strRepr (S "s-S")) (S "s-S"))]

example : output demoWorld [] (.compose (firstOf [id' "compose", .punct '!' false, paren (upperOf [id' "x"] demoTold)])) (demoLuck 2 1) =
      .tokens [id' "compose", .punct '!' false, paren demoInside] ∧
    output demoWorld [] (.compose demoInside) (demoLuck 2 1) = .tokens demoExpanded ∧
    output demoWorld [] (.compose demoBoth) (demoLuck 2 1) = .tokens demoExpanded := by decide +kernel

example : Reads demoWorld (.compose demoBoth) (demoParse demoBoth) ∧ Code (.compose demoBoth) demoTold ∧
    InForce (demoParse demoBoth) ([definitions (demoParse (firstOf demoTold))].map
      (· ++ [(S "y", .call 0 (S "upper") [.value 0 (.ident (S "x"))] (some (0, [id' "x"])))])) :=
  ⟨reads_of_parse (ids := fun k => k) (k := 0) rfl, .compose (demoBoth.take 9) _ rfl, .once rfl⟩

example : ExpandsWritten demoWorld (demoLuck 2 1) (demoParse demoBoth) (definitions (demoParse (firstOf demoTold)))
    [(S "y", .call 0 (S "upper") [.value 0 (.ident (S "x"))] (some (0, [id' "x"])))] demoTold demoStringValues (fmtStr demoWorld.E demoStringValues)
    (.compose demoInside) (demoParse demoInside) demoFirst [] (demoLuck 2 1) demoExpanded where
  values := rfl
  formats := formatsAll_fmtStr
  generated := rfl
  reads := reads_of_parse (ids := fun k => k) (k := 0) rfl
  code := .compose (demoInside.take 5) _ rfl
  written := .cons (.call _ _ _ _ _ _ _ (by decide) (.cons (.value _ _ (.ident (S "x"))) .nil)) .nil
  apart d hd := by
    simp only [List.mem_cons, List.not_mem_nil, or_false] at hd
    subst hd
    exact ⟨by decide, fun n h => nomatch demo_string_cases h⟩
  noLoops := rfl
  noSemicolons := rfl
  noWhere := rfl
  scheduled := demo_scheduled _ _ (by decide +kernel)
  seed := .inl rfl
  keywords := by decide +kernel
  inert vs2 _ := demo_inert vs2
  output := by decide +kernel

end Verif.Props
