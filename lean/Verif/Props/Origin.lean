import Verif.Proofs.Origin
import Verif.Props.Depth
/-!
# Property C104: code is made of what was written

Nothing but names, strings and numbers can be made by functions, and these only by the functions which are meant to. All other things in the generated code — punctuation,
brackets, characters, floating point numbers, … — stand in the input, apart from the attribute for the warning about semicolons.
-/

namespace Verif.Props
open Verif Spec

section
variable {P : Glyph → Prop}

mutual
theorem bareTok_all (t : Tok) (h : All P [t]) : All P (bareTok t) := by
  match t with
  | .group .none ts => exact bare_all ts (all_group.1 h).2
  | .group .paren ts | .group .brace ts | .group .bracket ts | .ident _ | .punct _ _ | .lit _ => simpa [bareTok] using h
theorem bare_all (ts : Toks) (h : All P ts) : All P (bare ts) := by
  match ts with
  | [] => exact all_nil
  | t :: ts =>
    have h1 := bareTok_all t (all_cons.1 h).1
    have h2 := bare_all ts (all_cons.1 h).2
    exact all_append.2 ⟨h1, h2⟩
end

theorem code_all {inv : Invocation} {body : Toks} (h : Code inv body) (hP : All P (inputToks inv)) : All P body := by
  have key : ∀ {ts pre post : Toks}, bare ts = pre ++ .group .brace body :: post → All P ts → All P body := by
    intro ts pre post h hts
    have := bare_all ts hts
    rw [h] at this
    exact (all_group.1 (all_cons.1 (all_append.1 this).2).1).2
  cases h with
  | compose _ _ h => exact key h hP
  | composeSep _ _ _ _ _ h => exact key h hP
  | idents _ _ h => exact key h hP
  | identsSep _ _ _ _ _ h => exact key h hP
  | item attr _ => exact (all_append.1 hP).2

theorem header_all {inv : Invocation} (hP : All P (inputToks inv)) : All P (headerToks inv) := by
  cases inv with
  | compose ts => exact hP
  | composeIdents ts => exact hP
  | composeItem attr item => exact (all_append.1 hP).1

/-- The attribute of the warning that an invocation can add to the code. -/
def semicolonWarning (W : World) (hist : List (Invocation × Luck)) (inv : Invocation) : Toks :=
  warningToks W.E.strRepr (macroPrefix (firstOn hist inv)) ⟨S "Using semicolons as separators is deprecated, use commas instead", S "0.0.5"⟩

/-- A text of a string literal of the input with the placeholders replaced in one of the iterations. -/
def Formatted (W : World) (l : Luck) (inv : Invocation) (a : PAst) (v : Str) : Prop :=
  ∃ its defs vs fmt u, InForce a its ∧ defs ∈ its ∧ outcome W.E (Env.builtin (l.ids 0)) defs = .ok vs ∧ FormatsAll W.E vs fmt ∧ '%' ∈ u ∧
    Glyph.str u ∈ glyphs (inputToks inv) ∧ v = fmt u

theorem output_all {W : World} {q : Toks → Toks} (hW : GoodSyntax q W) (hq : ∀ ts, glyphs (q ts) = glyphs ts) {hist : List (Invocation × Luck)}
    {inv : Invocation} {l : Luck} (hs : Scheduled W hist inv l) {a : PAst} (ha : Reads W inv a) {ts : Toks}
    (hk : ∀ its, InForce a its → ∀ defs ∈ its, ∀ s ∈ itemKeywords, s ∉ defs.map (·.1)) (h : output W hist inv l = .tokens ts)
    (hin : All P (inputToks inv)) (hw : All P (semicolonWarning W hist inv)) (hf : ∀ v, Formatted W l inv a v → P (.str v))
    (hn : (∃ e ∈ exprsIn (tree a), ∃ f ∈ nameMakers, f ∈ calls e) → ∀ s, P (.name s))
    (hst : (∃ e ∈ exprsIn (tree a), ∃ f ∈ strMakers, f ∈ calls e) → ∀ s, P (.str s))
    (hi : (∃ e ∈ exprsIn (tree a), S "concat" ∈ calls e) → ∀ r v, P (.int r v)) : All P ts := by
  obtain ⟨body, hc, hb⟩ := C59_code ha
  have hbody := code_all hc hin
  have hbody' : ∀ g ∈ glyphs body, g ∈ glyphs (inputToks inv) := code_all (P := fun g => g ∈ glyphs (inputToks inv)) hc fun g hg => hg
  obtain ⟨its, cs, h1, rfl, h3, h4⟩ := C59_warned hW hs ha hk h
  have hq' : ∀ {P : Glyph → Prop} {a b : Toks}, q a = q b → All P a → All P b := by
    intro P a b hab h g hg
    refine h g ?_
    rw [← hq, hab, hq]
    exact hg
  have noWhere : ∀ {P : Glyph → Prop}, All P body → All P (stmtsToks (stmtsNoWhere a.block)) := by
    intro P hP
    obtain ⟨xs, hx⟩ := stmts_where a.block
    exact ((inserts_all hx).1 (hq' (hW.lossless _ _ hb).symm hP)).1
  refine all_flatten fun c hc => ?_
  obtain ⟨i, hi', rfl⟩ := List.getElem_of_mem hc
  have hlt : i < its.length := by omega
  obtain ⟨vs, h6, h7⟩ := h4 i its[i] (List.getElem?_eq_getElem hlt)
  obtain ⟨fmt, hfm⟩ := formatting_exists W.E vs
  obtain ⟨c, ws, b, h8, h9, h10, h11⟩ := h7 fmt hfm
  rw [List.getElem?_eq_getElem hi'] at h8
  cases h8
  have hex : ∀ d ∈ its[i], d.2 ∈ exprsIn (tree a) := fun d hd => mem_exprsIn h1 _ (List.getElem_mem hlt) d hd
  have hvs := outcome_all (P := P) rfl h6 (fun d hd => reads_all ha (header_all hin) d.2 (hex d hd))
    (fun ⟨d, hd, h⟩ => hn ⟨d.2, hex d hd, h⟩) (fun ⟨d, hd, h⟩ => hst ⟨d.2, hex d hd, h⟩) (fun ⟨d, hd, h⟩ => hi ⟨d.2, hex d hd, h⟩)
  refine (inserts_all h10).2 ⟨hq' h9.symm (substAll_all ?_ _ (noWhere hbody) ?_), ?_⟩
  · intro n u hu
    simp only [valueToks, codeOf_eq, Option.map_eq_some_iff] at hu
    obtain ⟨v, hv, rfl⟩ := hu
    exact hvs _ (lookup_mem' hv)
  · intro v hv
    have hv' : Glyph.str v ∈ glyphs (inputToks inv) := noWhere (P := fun g => g ∈ glyphs (inputToks inv)) hbody' _ hv
    refine all_str.2 ?_
    by_cases hp : '%' ∈ v
    · exact hf _ ⟨its, its[i], vs, fmt, v, h1, List.getElem_mem hlt, h6, hfm, hp, hv', rfl⟩
    · have : fmt v = v := by rw [fmt_unique hfm]; exact formatString_plain v hp
      rw [this]
      exact hin _ hv'
  · rcases h11 with rfl | rfl
    · simp
    · intro x hx
      cases List.mem_singleton.1 hx
      exact hw

end

/-- **C104**, for values: everything in the value of an alias is written in the definitions (the arguments of `raw` and `normalize` included), except names made by
functions that make names, strings made by functions that make strings, and numbers made by `concat`. -/
theorem C104_value {E : Ext} {seed : Nat} {ds : List (Str × Expr)} {vs : Subs} (h : outcome E (Env.builtin seed) ds = .ok vs) {p : Str × VKind} (hp : p ∈ vs)
    {g : Glyph} (hg : g ∈ glyphs p.2.toTokens) :
    (∃ d ∈ ds, ∃ k ∈ leaves d.2, g ∈ glyphs k.toTokens) ∨ ((∃ s, g = .name s) ∧ ∃ d ∈ ds, ∃ f ∈ nameMakers, f ∈ calls d.2) ∨
      ((∃ s, g = .str s) ∧ ∃ d ∈ ds, ∃ f ∈ strMakers, f ∈ calls d.2) ∨ ((∃ r v, g = .int r v) ∧ ∃ d ∈ ds, S "concat" ∈ calls d.2) :=
  outcome_all (P := fun g => (∃ d ∈ ds, ∃ k ∈ leaves d.2, g ∈ glyphs k.toTokens) ∨ ((∃ s, g = .name s) ∧ ∃ d ∈ ds, ∃ f ∈ nameMakers, f ∈ calls d.2) ∨
      ((∃ s, g = .str s) ∧ ∃ d ∈ ds, ∃ f ∈ strMakers, f ∈ calls d.2) ∨ ((∃ r v, g = .int r v) ∧ ∃ d ∈ ds, S "concat" ∈ calls d.2)) rfl h
    (fun d hd k hk _ hg => .inl ⟨d, hd, k, hk, hg⟩) (fun h s => .inr (.inl ⟨⟨s, rfl⟩, h⟩)) (fun h s => .inr (.inr (.inl ⟨⟨s, rfl⟩, h⟩)))
    (fun h r v => .inr (.inr (.inr ⟨⟨r, v, rfl⟩, h⟩))) p hp g hg

section
variable {W : World} {q : Toks → Toks} (hW : GoodSyntax q W) (hq : ∀ ts, glyphs (q ts) = glyphs ts) {hist : List (Invocation × Luck)}
    {inv : Invocation} {l : Luck} (hs : Scheduled W hist inv l) {a : PAst} (ha : Reads W inv a) {ts : Toks}
    (hk : ∀ its, InForce a its → ∀ defs ∈ its, ∀ s ∈ itemKeywords, s ∉ defs.map (·.1)) (h : output W hist inv l = .tokens ts)
include hW hq hs ha hk h

/-- **C104**: everything in the generated code is in the input or in the attribute of the warning, or is a name, a string or a number made by a function called in the
definitions, or a string of the input with placeholders replaced. -/
theorem C104_output {g : Glyph} (hg : g ∈ glyphs ts) :
    g ∈ glyphs (inputToks inv) ∨ g ∈ glyphs (semicolonWarning W hist inv) ∨ (∃ v, g = .str v ∧ Formatted W l inv a v) ∨
      ((∃ s, g = .name s) ∧ ∃ e ∈ exprsIn (tree a), ∃ f ∈ nameMakers, f ∈ calls e) ∨
      ((∃ s, g = .str s) ∧ ∃ e ∈ exprsIn (tree a), ∃ f ∈ strMakers, f ∈ calls e) ∨
      ((∃ r v, g = .int r v) ∧ ∃ e ∈ exprsIn (tree a), S "concat" ∈ calls e) :=
  output_all (P := fun g => g ∈ glyphs (inputToks inv) ∨ g ∈ glyphs (semicolonWarning W hist inv) ∨ (∃ v, g = .str v ∧ Formatted W l inv a v) ∨
      ((∃ s, g = .name s) ∧ ∃ e ∈ exprsIn (tree a), ∃ f ∈ nameMakers, f ∈ calls e) ∨
      ((∃ s, g = .str s) ∧ ∃ e ∈ exprsIn (tree a), ∃ f ∈ strMakers, f ∈ calls e) ∨
      ((∃ r v, g = .int r v) ∧ ∃ e ∈ exprsIn (tree a), S "concat" ∈ calls e)) hW hq hs ha hk h
    (fun _ hg => .inl hg) (fun _ hg => .inr (.inl hg)) (fun v hv => .inr (.inr (.inl ⟨v, rfl, hv⟩)))
    (fun h s => .inr (.inr (.inr (.inl ⟨⟨s, rfl⟩, h⟩)))) (fun h s => .inr (.inr (.inr (.inr (.inl ⟨⟨s, rfl⟩, h⟩)))))
    (fun h r v => .inr (.inr (.inr (.inr (.inr ⟨⟨r, v, rfl⟩, h⟩))))) g hg

/-- **C104**: punctuation, delimiters, and literals other than strings and integers are never made up: they are in the input, or in the attribute of the warning. -/
theorem C104_signs {g : Glyph} (hg : g ∈ glyphs ts) (hn : ∀ s, g ≠ .name s) (hst : ∀ s, g ≠ .str s) (hi : ∀ r v, g ≠ .int r v) :
    g ∈ glyphs (inputToks inv) ∨ g ∈ glyphs (semicolonWarning W hist inv) := by
  rcases C104_output hW hq hs ha hk h hg with h | h | ⟨v, rfl, -⟩ | ⟨⟨s, rfl⟩, -⟩ | ⟨⟨s, rfl⟩, -⟩ | ⟨⟨r, v, rfl⟩, -⟩
  · exact .inl h
  · exact .inr h
  · exact absurd rfl (hst v)
  · exact absurd rfl (hn s)
  · exact absurd rfl (hst s)
  · exact absurd rfl (hi r v)

/-- **C104**: if no function is called that makes names, every name in the generated code is in the input, or is `deprecated`, `since` or `note`. -/
theorem C104_names {s : Str} (hg : Glyph.name s ∈ glyphs ts) (hc : ∀ e ∈ exprsIn (tree a), ∀ f ∈ nameMakers, f ∉ calls e) :
    Glyph.name s ∈ glyphs (inputToks inv) ∨ s ∈ [S "deprecated", S "since", S "note"] := by
  rcases C104_output hW hq hs ha hk h hg with h | h | ⟨v, h, -⟩ | ⟨-, e, he, f, hf, hc'⟩ | ⟨⟨s, h⟩, -⟩ | ⟨⟨r, v, h⟩, -⟩
  · exact .inl h
  · refine .inr ?_
    simp only [semicolonWarning, warningToks, glyphs, glyphsTok, List.append_nil, List.nil_append, List.cons_append, List.mem_cons, Glyph.name.injEq,
      reduceCtorEq, false_or, List.not_mem_nil, or_false] at h
    simpa using h
  · cases h
  · exact absurd hc' (hc e he f hf)
  · cases h
  · cases h

/-- **C104**: without `concat`, every integer in the generated code is in the input. -/
theorem C104_ints {r : Str} {v : Nat} (hg : Glyph.int r v ∈ glyphs ts) (hc : ∀ e ∈ exprsIn (tree a), S "concat" ∉ calls e) :
    Glyph.int r v ∈ glyphs (inputToks inv) := by
  rcases C104_output hW hq hs ha hk h hg with h | h | ⟨v, h, -⟩ | ⟨⟨s, h⟩, -⟩ | ⟨⟨s, h⟩, -⟩ | ⟨-, e, he, hc'⟩
  · exact h
  · simp [semicolonWarning, warningToks, glyphs, glyphsTok] at h
  · cases h
  · cases h
  · cases h
  · exact absurd hc' (hc e he)

/-- **C104**: if no function is called that makes strings, every string in the generated code is in the input, or is made from one in the input by replacing
placeholders, or belongs to the warning. -/
theorem C104_strings {v : Str} (hg : Glyph.str v ∈ glyphs ts) (hc : ∀ e ∈ exprsIn (tree a), ∀ f ∈ strMakers, f ∉ calls e) :
    Glyph.str v ∈ glyphs (inputToks inv) ∨ Formatted W l inv a v ∨ Glyph.str v ∈ glyphs (semicolonWarning W hist inv) := by
  rcases C104_output hW hq hs ha hk h hg with h | h | ⟨v, h, h'⟩ | ⟨⟨s, h⟩, -⟩ | ⟨-, e, he, f, hf, hc'⟩ | ⟨⟨r, v, h⟩, -⟩
  · exact .inl h
  · exact .inr (.inr h)
  · cases h; exact .inr (.inl h')
  · cases h
  · exact absurd hc' (hc e he f hf)
  · cases h

end

/-- **C104**, of what may be made: a name that a function makes can be a keyword which is written nowhere. -/
theorem C104_keyword (seed : Nat) : ∃ ds vs, outcome Ext.demo (Env.builtin seed) ds = .ok vs ∧ vs = [(S "y", .ident (S "Self"))] ∧ S "Self" ∈ keywords ∧
    ∀ d ∈ ds, ∀ k ∈ leaves d.2, Glyph.name (S "Self") ∉ glyphs k.toTokens :=
  ⟨[(S "y", .call 0 (S "concat") [.value 1 (.ident (S "S")), .value 2 (.ident (S "elf"))] none)], _, rfl, rfl, by decide, by
    intro d hd
    cases List.mem_singleton.1 hd
    decide⟩

/-! ## Examples -/

/-- `y = raw(-1.5), z = concat(y, +, y), { [z] }` -/
def originDemo : Toks :=
  [id' "y", eq', id' "raw", paren [.punct '-' false, .lit (.other (S "1.5"))], comma, id' "z", eq', id' "concat",
    paren [id' "y", comma, .punct '+' false, comma, id' "y"], comma, brace [.group .bracket [id' "z"]]]

example : (∀ ts, glyphs (id ts) = glyphs ts) ∧ GoodSyntax id demoWorld ∧ Scheduled demoWorld [] (.compose originDemo) (demoLuck 2 1) ∧
    Reads demoWorld (.compose originDemo) (demoParse originDemo) ∧ InForce (demoParse originDemo) [definitions (demoParse originDemo)] :=
  ⟨fun _ => rfl, demo_good, demo_scheduled _ _ (by decide +kernel), reads_of_parse (ids := fun k => k) (k := 0) rfl, .once rfl⟩

example : ∀ its, InForce (demoParse originDemo) its → ∀ defs ∈ its, ∀ s ∈ itemKeywords, s ∉ defs.map (·.1) := by
  intro its h defs hd
  have := iterations_of_inForce h
  have h1 : iterations (tree (demoParse originDemo)) = .ok [definitions (demoParse originDemo)] := rfl
  rw [h1] at this
  cases this
  cases List.mem_singleton.1 hd
  decide +kernel

/-- Everything in the generated code is in the input: the brackets in the block, the rest in the definitions. -/
example : output demoWorld [] (.compose originDemo) (demoLuck 2 1) =
      .tokens [.group .bracket [.punct '-' false, .lit (.other (S "1.5")), .punct '+' false, .punct '-' false, .lit (.other (S "1.5"))]] ∧
    glyphs [.group .bracket [.punct '-' false, .lit (.other (S "1.5")), .punct '+' false, .punct '-' false, .lit (.other (S "1.5"))]] =
      [.delim .bracket, .sign '-', .other (S "1.5"), .sign '+', .sign '-', .other (S "1.5")] ∧
    ∀ g ∈ [Glyph.delim .bracket, .sign '-', .other (S "1.5"), .sign '+'], g ∈ glyphs (inputToks (.compose originDemo)) := by
  refine ⟨by decide +kernel, rfl, by decide +kernel⟩

example : outcome Ext.demo (Env.builtin 0) (definitions (demoParse originDemo)) =
    .ok [(S "y", .tokens [.punct '-' false, .lit (.other (S "1.5"))]),
      (S "z", .tokens [.punct '-' false, .lit (.other (S "1.5")), .punct '+' false, .punct '-' false, .lit (.other (S "1.5"))])] := rfl

/-- `y = raw("a"), z = 5, { [y, x, z, "%z%"] }` -/
def writtenDemo : Toks :=
  [id' "y", eq', id' "raw", paren [.lit (.str (S "\"a\"") (S "a"))], comma, id' "z", eq', .lit (.int (S "5") 5), comma,
    brace [.group .bracket [id' "y", comma, id' "x", comma, id' "z", comma, .lit (.str (S "\"%z%\"") (S "%z%"))]]]

/-- No function is called that makes names, strings or numbers; the only new thing in the generated code is the string in which a placeholder is replaced. -/
example : (∀ e ∈ exprsIn (tree (demoParse writtenDemo)), (∀ f ∈ nameMakers, f ∉ calls e) ∧ (∀ f ∈ strMakers, f ∉ calls e) ∧ S "concat" ∉ calls e) ∧
    ∃ ts, output demoWorld [] (.compose writtenDemo) (demoLuck 2 1) = .tokens ts ∧
      glyphs ts = [.delim .bracket, .str (S "a"), .sign ',', .name (S "x"), .sign ',', .int (S "5") 5, .sign ',', .str (S "5")] := by
  refine ⟨?_, ?_⟩
  · have : (exprsIn (tree (demoParse writtenDemo))).map calls = [[S "raw"], []] := rfl
    have key : ∀ c ∈ (exprsIn (tree (demoParse writtenDemo))).map calls,
        (∀ f ∈ nameMakers, f ∉ c) ∧ (∀ f ∈ strMakers, f ∉ c) ∧ S "concat" ∉ c := by rw [this]; decide
    exact fun e he => key _ (List.mem_map_of_mem he)
  · exact ⟨_, rfl, rfl⟩

end Verif.Props
