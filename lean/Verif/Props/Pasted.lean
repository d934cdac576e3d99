import Verif.Proofs.Pasted
import Verif.Props.SameReading
import Verif.Props.Text
/-!
# An invocation inside another (C93)

`compose!(A = a, { compose!(B = concat(A, _b), { code }) })` compared with `compose!(A = a, B = concat(A, _b), { code })`.
-/

namespace Verif.Props
open Verif Spec

/-- What an invocation with the values `vs` does to other invocations in its code, if all its values are names. -/
def pasting (E : Ext) (vs : Subs) (fmt : Str → Str) : Leafmap :=
  ⟨fun n => match List.lookup n vs with | some (.ident s) => s | _ => n, fun _ v => (E.strRepr (fmt v), fmt v)⟩

/-- All aliases stand for names, which have no percent in them. -/
def AllNames (vs : Subs) : Prop := ∀ n v, List.lookup n vs = some v → ∃ s, v = .ident s ∧ '%' ∉ s

theorem pasting_name {E : Ext} {vs : Subs} {fmt : Str → Str} (h : AllNames vs) (n : Str) :
    (List.lookup n vs = some (.ident ((pasting E vs fmt).name n))) ∨ (List.lookup n vs = none ∧ (pasting E vs fmt).name n = n) := by
  cases hl : List.lookup n vs with
  | none => exact .inr ⟨rfl, by simp [pasting, hl]⟩
  | some v =>
    obtain ⟨s, rfl, -⟩ := h n v hl
    exact .inl (by simp [pasting, hl])

mutual
theorem pasting_tok {E : Ext} {vs : Subs} {fmt : Str → Str} (h : AllNames vs) :
    ∀ t : Tok, substTok (valueToks vs) (litWith E fmt) t = [(pasting E vs fmt).tok t]
  | .ident n => by
    rcases pasting_name (E := E) (fmt := fmt) h n with h1 | ⟨h1, h2⟩
    · simp [substTok, valueToks, codeOf_eq, h1, Leafmap.tok, VKind.toTokens]
    · simp [substTok, valueToks, codeOf_eq, h1, h2, Leafmap.tok]
  | .lit (.str _ _) => by simp [substTok, Leafmap.tok, litWith, pasting]
  | .lit (.int _ _) => by simp [substTok, Leafmap.tok]
  | .lit (.other _) => by simp [substTok, Leafmap.tok]
  | .punct _ _ => by simp [substTok, Leafmap.tok]
  | .group d ts => by simp [substTok, Leafmap.tok, pasting_toks h ts]
theorem pasting_toks {E : Ext} {vs : Subs} {fmt : Str → Str} (h : AllNames vs) :
    ∀ ts : Toks, substAll (valueToks vs) (litWith E fmt) ts = (pasting E vs fmt).toks ts
  | [] => by simp [substAll, Leafmap.toks]
  | t :: ts => by simp [substAll, Leafmap.toks, pasting_tok h t, pasting_toks h ts]
end

theorem once_meaning {W : World} (hW : TextSyntax W) {hist : List (Invocation × Luck)} {inv : Invocation} {l : Luck}
    (hs : Scheduled W hist inv l) {a : PAst} (ha : Reads W inv a) (hl : (tree a).loops = none) (hn : withSemicolons a.spec = false)
    (hw : stmtsNoWhere a.block = a.block) {body : Toks} (hc : Code inv body) {ts : Toks} (hk : ∀ s ∈ itemKeywords, s ∉ (definitions a).map (·.1))
    (h : output W hist inv l = .tokens ts) : ∃ vs, outcome W.E (Env.builtin (l.ids 0)) (definitions a) = .ok vs ∧ ∀ fmt, FormatsAll W.E vs fmt →
      unspaced ts = unspaced (substAll (valueToks vs) (litWith W.E fmt) body) := by
  have once : ∀ its, InForce a its → its = [definitions a] := fun its hi => by
    cases hi with
    | once => rfl
    | each _ h' => rw [hl] at h'; cases h'
  obtain ⟨its, cs, h1, rfl, h3, h4⟩ := C66_text hW hs ha hn hw hc (fun its hi d hd => by rw [once its hi] at hd; simp at hd; subst hd; exact hk) h
  obtain rfl := once its h1
  obtain ⟨vs, h5, h6⟩ := h4 0 _ rfl
  refine ⟨vs, h5, fun fmt hf => ?_⟩
  obtain ⟨c, h7, h8⟩ := h6 fmt hf
  match cs, h3, h7 with
  | [_], _, h7 =>
    cases h7
    rw [List.flatten_singleton, h8]

/-- **C93**, the outer invocation: an invocation all of whose aliases stand for names writes, in each iteration, these names for the aliases everywhere in its
code, the invocations in it included, and formats the strings there. -/
theorem C93_outer {W : World} (hW : TextSyntax W) {hist : List (Invocation × Luck)} {inv : Invocation} {l : Luck}
    (hs : Scheduled W hist inv l) {a : PAst} (ha : Reads W inv a) (hn : withSemicolons a.spec = false)
    (hw : stmtsNoWhere a.block = a.block) {body : Toks} (hc : Code inv body) {ts : Toks}
    (hk : ∀ its, InForce a its → ∀ defs ∈ its, ∀ s ∈ itemKeywords, s ∉ defs.map (·.1)) (h : output W hist inv l = .tokens ts) :
    ∃ (its : List (List (Str × Expr))) (cs : List Toks), InForce a its ∧ ts = cs.flatten ∧ cs.length = its.length ∧
      ∀ (i : Nat) (defs : List (Str × Expr)), its[i]? = some defs → ∃ vs, outcome W.E (Env.builtin (l.ids 0)) defs = .ok vs ∧
        (AllNames vs → ∀ fmt, FormatsAll W.E vs fmt → ∃ c, cs[i]? = some c ∧ unspaced c = unspaced ((pasting W.E vs fmt).toks body)) := by
  obtain ⟨its, cs, h1, h2, h3, h4⟩ := C66_text hW hs ha hn hw hc hk h
  refine ⟨its, cs, h1, h2, h3, fun i defs hd => ?_⟩
  obtain ⟨vs, h5, h6⟩ := h4 i defs hd
  refine ⟨vs, h5, fun hv fmt hf => ?_⟩
  rw [← pasting_toks hv]
  exact h6 fmt hf

theorem leafOnly_kind {m : Leafmap} {k : VKind} (h : m.kind k = k) : otherLeaf m.name k = k := by
  cases k <;> first | rfl | exact h

mutual
theorem pasted_leafOnly {m : Leafmap} : ∀ {e : Expr}, LeafOnly m e → Pasted (otherLeaf m.name) e (m.expr e)
  | _, .name id n => .value _ _ (.ident n)
  | _, .same id k h => by
    rw [Leafmap.expr, h]
    have := Pasted.value (f := otherLeaf m.name) id id k
    rwa [leafOnly_kind h] at this
  | _, .verbatim id name args rid raw h hr => by
    rw [Leafmap.expr]
    simp only [Option.map_some, hr]
    exact .verbatim _ _ _ _ _ _ _ _ h
  | _, .call id name args raw h ha => by
    rw [Leafmap.expr]
    exact .call _ _ _ _ _ _ _ h (pasted_leafOnlyL ha)
theorem pasted_leafOnlyL {m : Leafmap} : ∀ {es : List Expr}, LeafOnlyL m es → PastedL (otherLeaf m.name) es (m.exprs es)
  | _, .nil => .nil
  | _, .cons h hs => .cons (pasted_leafOnly h) (pasted_leafOnlyL hs)
end

theorem pasted_defs {m : Leafmap} : ∀ {ds : List (Str × Expr)}, (∀ d ∈ ds, m.name d.1 = d.1 ∧ LeafOnly m d.2) →
    PastedDefs (otherLeaf m.name) ds (ds.map fun d => (m.name d.1, m.expr d.2))
  | [], _ => .nil
  | (n, e) :: ds, h => by
    have h1 := h (n, e) (by simp)
    have h2 := pasted_defs (ds := ds) fun d hd => h d (by simp [hd])
    rw [List.map_cons]
    simp only at h1
    simp only [h1.1]
    exact .cons (pasted_leafOnly h1.2) h2

/-- **C93**, the definitions: after definitions which stand for names, other definitions have the values they have by themselves with these names written
in them, or fail in the same way (only the quotation of the definition in the error differs). The names are written only where they stand for values
(`LeafOnly`), and the two invocations do not define or write each other's aliases. -/
theorem C93_definitions {E : Ext} {seed : Nat} {d1 d2 : List (Str × Expr)} {vs : Subs} (h : outcome E (Env.builtin seed) d1 = .ok vs) (hv : AllNames vs)
    {fmt : Str → Str} (ha : ∀ d ∈ d2, List.lookup d.1 vs = none ∧ ∀ n, List.lookup n vs ≠ some (.ident d.1)) (hp : ∀ d ∈ d2, LeafOnly (pasting E vs fmt) d.2) :
    match outcome E (Env.builtin seed) (d2.map fun d => ((pasting E vs fmt).name d.1, (pasting E vs fmt).expr d.2)) with
    | .ok vs2 => outcome E (Env.builtin seed) (d1 ++ d2) = .ok (vs ++ vs2)
    | .err e => ∃ e', outcome E (Env.builtin seed) (d1 ++ d2) = .err e' ∧ blur e' = blur e
    | .panic => outcome E (Env.builtin seed) (d1 ++ d2) = .panic := by
  have same : ∀ n, List.lookup n vs = none → (pasting E vs fmt).name n = n := fun n hn => by simp [pasting, hn]
  have alone : ∀ a ∈ d2.map (·.1), Alone (otherLeaf (pasting E vs fmt).name) a ∧ vs.get a = none := by
    intro a h
    obtain ⟨d, hd, rfl⟩ := List.mem_map.1 h
    obtain ⟨h1, h2⟩ := ha d hd
    refine ⟨⟨by rw [otherLeaf, same _ h1], fun k hk => ?_⟩, by rw [get_eq_lookup, h1]⟩
    cases k <;> try exact hk
    rename_i n
    have hn := VKind.ident.inj hk
    rcases pasting_name (E := E) (fmt := fmt) hv n with h3 | ⟨h3, h4⟩
    · rw [hn] at h3; exact absurd h3 (h2 n)
    · rw [← hn, h4]
  have hb := outcome_pasted (E := E) (env := Env.builtin seed) rfl (f := otherLeaf (pasting E vs fmt).name) h (fun k => by
    cases k <;> try rfl
    rename_i n
    simp only [otherLeaf, writtenLeaf]
    rcases pasting_name (E := E) (fmt := fmt) hv n with h3 | ⟨h3, h4⟩
    · rw [h3]; rfl
    · rw [h3, h4]; rfl) (pasted_defs fun d hd => ⟨same _ (ha d hd).1, hp d hd⟩) alone
  generalize outcome E (Env.builtin seed) (d2.map _) = o at hb
  cases o with
  | ok vs2 =>
    rcases blurR_cases hb with h | ⟨x, y, h1, h2, h3⟩
    · exact h
    · cases h2
  | panic =>
    rcases blurR_cases hb with h | ⟨x, y, h1, h2, h3⟩
    · exact h
    · cases h2
  | err e =>
    rcases blurR_cases hb with h | ⟨x, y, h1, h2, h3⟩
    · exact ⟨e, h, rfl⟩
    · cases h2; exact ⟨x, h1, h3⟩

/-- Percent-free text in front is kept. -/
theorem formats_front {C : CharClass} {look : Str → Option Str} {p s o : Str} (hp : '%' ∉ p) (h : Formats C look s o) :
    Formats C look (p ++ s) (p ++ o) := by
  have two : ∀ {q : Str}, '%' ∉ q → '%' ∉ p ++ q := fun hq => by simp [hp, hq]
  cases h with
  | plain s h => exact .plain _ (two h)
  | unclosed pre body h hb => simpa using Formats.unclosed (C := C) (look := look) (p ++ pre) body (two h) hb
  | run pre post o k h hpost h' => simpa using Formats.run (C := C) (look := look) (p ++ pre) post o k (two h) hpost h'
  | placeholder pre body post o k h hb hne hpost h' =>
    simpa using Formats.placeholder (C := C) (look := look) (p ++ pre) body post o k (two h) hb hne hpost h'

/-- Formatting with some of the aliases and then with the others: if no two percents are next to each other and the first values have no percents, this is
formatting with all. -/
theorem formats_twice {C : CharClass} {look look1 look2 : Str → Option Str} (hl : ∀ n, look n = (look1 n).or (look2 n))
    (hv : ∀ n v, look1 n = some v → '%' ∉ v) {s o : Str} (h : Formats C look s o) (hd : ¬ HasDoublePercent s) :
    ∃ o1, Formats C look1 s o1 ∧ Formats C look2 o1 o ∧ (s.head? ≠ some '%' → o1.head? ≠ some '%') := by
  induction h with
  | plain s h => exact ⟨s, .plain s h, .plain s h, id⟩
  | unclosed pre body hp hb => exact ⟨_, .unclosed pre body hp hb, .unclosed pre body hp hb, id⟩
  | run pre post o k hp hpost h ih =>
    refine absurd ⟨pre, List.replicate k '%' ++ post, ?_⟩ hd
    simp [List.replicate_succ]
  | placeholder pre body post o k hp hb hne hpost h ih =>
    cases k with
    | succ k =>
      refine absurd ⟨pre ++ '%' :: body, List.replicate k '%' ++ post, ?_⟩ hd
      simp [List.replicate_succ]
    | zero =>
      obtain ⟨o1, h1, h2, h3⟩ := ih fun ⟨a, b, e⟩ => hd ⟨pre ++ '%' :: body ++ '%' :: a, b, by simp [e]⟩
      refine ⟨_, .placeholder pre body post o1 0 hp hb hne hpost h1, ?_, fun hh => ?_⟩
      · simp only [List.replicate_zero, List.append_nil, expandPlaceholder, hl]
        cases hx : look1 (body.filter fun c => !C.whitespace c) with
        | some v => simpa using formats_front (p := pre ++ v) (by simp [hp, hv _ _ hx]) h2
        | none =>
          have := Formats.placeholder (C := C) (look := look2) pre body o1 o 0 hp hb hne (h3 hpost) h2
          simpa [expandPlaceholder] using this
      · cases pre with
        | nil => simp at hh
        | cons c pre => simpa using hh

mutual
theorem nested_tok {E : Ext} {vs vs2 : Subs} {fmt fmt2 fmt12 : Str → Str} (hv : AllNames vs) (hx : ∀ n s, List.lookup n vs = some (.ident s) → List.lookup s vs2 = none)
    (hf : ∀ v, ¬ HasDoublePercent v → fmt12 v = fmt2 (fmt v)) : ∀ t : Tok, strLitsTok (fun _ v => ¬ HasDoublePercent v) t →
    substTok (valueToks vs2) (litWith E fmt2) ((pasting E vs fmt).tok t) = substTok (valueToks (vs ++ vs2)) (litWith E fmt12) t
  | .ident n, _ => by
    rw [Leafmap.tok]
    simp only [substTok, valueToks, codeOf_eq, lookup_append]
    rcases pasting_name (E := E) (fmt := fmt) hv n with h1 | ⟨h1, h2⟩
    · rw [hx n _ h1, h1]; rfl
    · rw [h1, h2]; rfl
  | .lit (.str r v), h => by
    simp only [strLitsTok] at h
    simp [substTok, Leafmap.tok, litWith, pasting, hf v h]
  | .lit (.int _ _), _ => by simp [substTok, Leafmap.tok]
  | .lit (.other _), _ => by simp [substTok, Leafmap.tok]
  | .punct _ _, _ => by simp [substTok, Leafmap.tok]
  | .group d ts, h => by
    simp only [strLitsTok] at h
    simp [substTok, Leafmap.tok, nested_toks hv hx hf ts h]
theorem nested_toks {E : Ext} {vs vs2 : Subs} {fmt fmt2 fmt12 : Str → Str} (hv : AllNames vs) (hx : ∀ n s, List.lookup n vs = some (.ident s) → List.lookup s vs2 = none)
    (hf : ∀ v, ¬ HasDoublePercent v → fmt12 v = fmt2 (fmt v)) : ∀ ts : Toks, strLits (fun _ v => ¬ HasDoublePercent v) ts →
    substAll (valueToks vs2) (litWith E fmt2) ((pasting E vs fmt).toks ts) = substAll (valueToks (vs ++ vs2)) (litWith E fmt12) ts
  | [], _ => by simp [substAll, Leafmap.toks]
  | t :: ts, h => by
    simp only [strLits] at h
    simp [substAll, Leafmap.toks, nested_tok hv hx hf t h.1, nested_toks hv hx hf ts h.2]
end

/-- **C93**, the code: if no two percents are next to each other in its strings, then writing the names of the outer invocation and then replacing the aliases
of the inner one is replacing all aliases. -/
theorem C93_code {E : Ext} {vs vs2 : Subs} {fmt fmt2 fmt12 : Str → Str} (hv : AllNames vs)
    (hx : ∀ n s, List.lookup n vs = some (.ident s) → List.lookup s vs2 = none) (hf : FormatsAll E vs fmt) (hf2 : FormatsAll E vs2 fmt2)
    (hf12 : FormatsAll E (vs ++ vs2) fmt12) {body : Toks} (hb : strLits (fun _ v => ¬ HasDoublePercent v) body) :
    substAll (valueToks vs2) (litWith E fmt2) ((pasting E vs fmt).toks body) = substAll (valueToks (vs ++ vs2)) (litWith E fmt12) body := by
  refine nested_toks hv hx (fun v hd => ?_) body hb
  obtain ⟨o1, h1, h2, -⟩ := formats_twice (C := E.toCharClass) (look1 := valueText E vs) (look2 := valueText E vs2)
    (fun n => by simp only [valueText, lookup_append]; cases List.lookup n vs <;> rfl) (fun n w hw => by
      simp only [valueText, Option.map_eq_some_iff] at hw
      obtain ⟨k, hk, rfl⟩ := hw
      obtain ⟨s, rfl, hs⟩ := hv n k hk
      exact hs) (hf12 v) hd
  have e1 : fmt v = o1 := (formats_sound (hf v)).symm.trans (formats_sound h1)
  have e2 := (formats_sound (hf2 o1)).symm.trans (formats_sound h2)
  rw [e1, e2]

/-! ## Whole invocations -/

mutual
theorem expr_erase (m : Leafmap) : ∀ e : Expr, (m.expr e).erase = m.expr e.erase
  | .value _ _ => by simp [Leafmap.expr, Expr.erase]
  | .call _ _ args raw => by simp [Leafmap.expr, Expr.erase, exprs_erase m args, Function.comp_def]
theorem exprs_erase (m : Leafmap) : ∀ es : List Expr, Expr.eraseL (m.exprs es) = m.exprs (Expr.eraseL es)
  | [] => by simp [Leafmap.exprs, Expr.eraseL]
  | e :: es => by simp [Leafmap.exprs, Expr.eraseL, expr_erase m e, exprs_erase m es]
end

theorem definitions_mapped (m : Leafmap) {id id' : Nat} {ls ls' : Option PLoops} {s : Option PSpec} {b b' : List Stmt} :
    definitions ⟨id', ls', s.map m.spec, b'⟩ = (definitions ⟨id, ls, s, b⟩).map fun d => (m.name d.1, m.expr d.2) := by
  cases s with
  | none => rfl
  | some s => simp [definitions, tree, PAst.conv, Leafmap.spec, Leafmap.item, Leafmap.alias, Function.comp_def, expr_erase]

mutual
theorem bareTok_mapped (m : Leafmap) : ∀ t : Tok, bareTok (m.tok t) = m.toks (bareTok t)
  | .ident _ => by simp [Leafmap.tok, bareTok, Leafmap.toks]
  | .lit (.str _ _) => by simp [Leafmap.tok, bareTok, Leafmap.toks]
  | .lit (.int _ _) => by simp [Leafmap.tok, bareTok, Leafmap.toks]
  | .lit (.other _) => by simp [Leafmap.tok, bareTok, Leafmap.toks]
  | .punct _ _ => by simp [Leafmap.tok, bareTok, Leafmap.toks]
  | .group d ts => by cases d <;> simp [Leafmap.tok, bareTok, Leafmap.toks, bare_mapped m ts]
theorem bare_mapped (m : Leafmap) : ∀ ts : Toks, bare (m.toks ts) = m.toks (bare ts)
  | [] => by simp [Leafmap.toks, bare]
  | t :: ts => by rw [Leafmap.toks, bare, bare, bareTok_mapped m t, bare_mapped m ts, Leafmap.toks_append]
end

theorem code_mapped {m : Leafmap} {inv : Invocation} {b : Toks} (h : Code inv b) : Code (replacedIn m inv) (m.toks b) := by
  cases h with
  | compose pre body h => exact .compose (m.toks pre) _ (by rw [bare_mapped, h, Leafmap.toks_append]; simp [Leafmap.toks, Leafmap.tok])
  | composeSep pre body c t ht h =>
    exact .composeSep (m.toks pre) _ c (m.tok t) (Leafmap.tok_sep.2 ht) (by rw [bare_mapped, h, Leafmap.toks_append]; simp [Leafmap.toks, Leafmap.tok])
  | idents pre body h => exact .idents (m.toks pre) _ (by rw [bare_mapped, h, Leafmap.toks_append]; simp [Leafmap.toks, Leafmap.tok])
  | identsSep pre body c t ht h =>
    exact .identsSep (m.toks pre) _ c (m.tok t) (Leafmap.tok_sep.2 ht) (by rw [bare_mapped, h, Leafmap.toks_append]; simp [Leafmap.toks, Leafmap.tok])
  | item attr body => exact .item _ _

/-- An invocation `inner`, read as `a2`, as it stands in the code of another, whose definitions `d1` have the values `vs`: neither has loops or semicolons; the
values are names; what is special for the grammar is no alias and no value of the outer invocation; the aliases of the inner one are not those of the outer
one, nor their values; names are replaced in the inner definitions only where they stand for values; no two percents are next to each other in the code. -/
structure Nests (W : World) (special : Str → Prop) (d1 : List (Str × Expr)) (vs : Subs) (fmt : Str → Str) (a2 : PAst) (body : Toks) : Prop where
  names : AllNames vs
  plain : ∀ n s, List.lookup n vs = some (.ident s) → ¬ special n ∧ ¬ special s
  formats : FormatsAll W.E vs fmt
  noLoops : a2.loops = none
  noSemicolons : withSemicolons a2.spec = false
  apart : ∀ d ∈ definitions a2, List.lookup d.1 vs = none ∧ ∀ n, List.lookup n vs ≠ some (.ident d.1)
  leaves : ∀ d ∈ definitions a2, LeafOnly (pasting W.E vs fmt) d.2
  percents : strLits (fun _ v => ¬ HasDoublePercent v) body
  keywords : ∀ s ∈ itemKeywords, s ∉ (d1 ++ definitions a2).map (·.1)

theorem pasting_keeps {W : World} {special : Str → Prop} {d1 : List (Str × Expr)} {vs : Subs} {fmt : Str → Str} {a2 : PAst} {body : Toks}
    (h : Nests W special d1 vs fmt a2 body) : (pasting W.E vs fmt).Keeps special := by
  constructor
  · intro n hn
    rcases pasting_name (E := W.E) (fmt := fmt) h.names n with h1 | ⟨h1, h2⟩
    · exact absurd hn (h.plain n _ h1).1
    · exact h2
  · intro n hn
    rcases pasting_name (E := W.E) (fmt := fmt) h.names n with h1 | ⟨h1, h2⟩
    · exact (h.plain n _ h1).2
    · rw [h2]; exact hn

/-- The definitions `d1` of the outer invocation in one of its iterations stand for names, the inner invocation is written with these names, and then expands to
`t`. The seed is that of `l`, or `NoHash a`. -/
structure ExpandsInside (W : World) (special : Str → Prop) (l : Luck) (a : PAst) (inner : Invocation) (a2 : PAst) (body : Toks) (d1 : List (Str × Expr))
    (vs : Subs) (fmt : Str → Str) (hist' : List (Invocation × Luck)) (l' : Luck) (t : Toks) : Prop where
  nests : Nests W special d1 vs fmt a2 body
  values : outcome W.E (Env.builtin (l.ids 0)) d1 = .ok vs
  scheduled : Scheduled W hist' (replacedIn (pasting W.E vs fmt) inner) l'
  seed : l.ids 0 = l'.ids 0 ∨ NoHash a
  noWhere : ∀ a', Reads W (replacedIn (pasting W.E vs fmt) inner) a' → stmtsNoWhere a'.block = a'.block
  output : output W hist' (replacedIn (pasting W.E vs fmt) inner) l' = .tokens t

theorem nested_copy {W : World} (hW : TextSyntax W) {special : Str → Prop} (hk : ∀ n ∈ keywords, special n) (hb : ∀ n, isBuiltin n = true → special n)
    (hY : BlindSyn special W.Y) {inner : Invocation} {a a2 : PAst} {body : Toks} (ha2 : Reads W inner a2) (hc2 : Code inner body)
    {l : Luck} {d1 : List (Str × Expr)} {vs : Subs} {fmt : Str → Str} {hist' : List (Invocation × Luck)} {l' : Luck} {t : Toks}
    (h : ExpandsInside W special l a inner a2 body d1 vs fmt hist' l' t) {its : List (List (Str × Expr))} (hi : InForce a its)
    (hd : d1 ++ definitions a2 ∈ its) {vs12 : Subs} (h1 : outcome W.E (Env.builtin (l.ids 0)) (d1 ++ definitions a2) = .ok vs12)
    {fmt12 : Str → Str} (hf12 : FormatsAll W.E vs12 fmt12) : unspaced t = unspaced (substAll (valueToks vs12) (litWith W.E fmt12) body) := by
  obtain ⟨hN, hv, hs', hseed, hw', h'⟩ := h
  obtain ⟨b', c, hr, -, -⟩ := C92_read (pasting_keeps hN) hk hb hY ha2
  have hdef := definitions_mapped (pasting W.E vs fmt) (id := a2.id) (id' := a2.id) (ls := a2.loops) (ls' := a2.loops.map (pasting W.E vs fmt).loops) (s := a2.spec)
    (b := a2.block) (b' := b')
  have hsemi : withSemicolons (a2.spec.map (pasting W.E vs fmt).spec) = false := by
    have := hN.noSemicolons
    cases hs : a2.spec with
    | none => rfl
    | some s =>
      rw [hs] at this
      obtain ⟨i, items, c⟩ := s
      rcases c with _ | _ | _ <;> first | rfl | cases this
  have hsame : ∀ d ∈ definitions a2, (pasting W.E vs fmt).name d.1 = d.1 := fun d hd => by simp [pasting, (hN.apart d hd).1]
  have hnames : (definitions ⟨a2.id, a2.loops.map (pasting W.E vs fmt).loops, a2.spec.map (pasting W.E vs fmt).spec, b'⟩).map (·.1) =
      (definitions a2).map (·.1) := by
    rw [hdef, List.map_map]
    exact List.map_congr_left fun d hd => hsame d hd
  have hseed' : ∀ {ds}, (∀ d ∈ ds, d ∈ d1 ++ definitions a2) → outcome W.E (Env.builtin (l.ids 0)) ds = outcome W.E (Env.builtin (l'.ids 0)) ds := by
    intro ds hds
    rcases hseed with hs | hs
    · rw [hs]
    · exact outcome_seed fun d hd' => hs _ (iterations_mem (iterations_of_inForce hi) _ hd d (hds d hd'))
  obtain ⟨vs2, h3, h4⟩ := once_meaning hW hs' hr (by simp [tree, PAst.conv, hN.noLoops]) hsemi (hw' _ hr) (code_mapped hc2) (by
    rw [hnames]; exact fun s hs hm => hN.keywords s hs (by simp only [List.map_append, List.mem_append]; exact .inr hm)) h'
  have h5 := C93_definitions (E := W.E) (seed := l'.ids 0) (d1 := d1) (d2 := definitions a2) (vs := vs) (fmt := fmt)
    (by rw [← hseed' (fun d hd' => by simp [hd'])]; exact hv) hN.names hN.apart hN.leaves
  rw [hdef] at h3
  rw [h3] at h5
  simp only at h5
  rw [hseed' (fun d h => h), h5] at h1
  cases h1
  obtain ⟨fmt2, hf2⟩ := formatting_exists W.E vs2
  rw [h4 fmt2 hf2, C93_code hN.names ?_ hN.formats hf2 hf12 hN.percents]
  intro n s hns
  apply lookup_not_mem
  rw [(denote_names (outcome_ok.1 h3).2).1, ← hdef, hnames]
  intro hm
  obtain ⟨d, hd, rfl⟩ := List.mem_map.1 hm
  exact (hN.apart d hd).2 n hns

/-- **C93** (partial), the invocations: the inner invocation as the outer one writes it in each of its iterations (`C93_outer`) expands to what one invocation with
the loops of the outer one, the definitions of both and the same code expands to, up to spacing, if all succeed. Missing are: definitions that are not names (see `C93_values_partial`), names
and strings inside other tokens of the inner definitions, and percents next to each other, for which it is false (`C93_false`). -/
theorem C93_partial {W : World} (hW : TextSyntax W) {special : Str → Prop} (hk : ∀ n ∈ keywords, special n) (hb : ∀ n, isBuiltin n = true → special n)
    (hY : BlindSyn special W.Y) {inner flat : Invocation} {a a2 : PAst} {body : Toks} (ha2 : Reads W inner a2) (hc2 : Code inner body)
    (ha : Reads W flat a) (hc : Code flat body) (hn : withSemicolons a.spec = false) (hw : stmtsNoWhere a.block = a.block)
    {its : List (List (Str × Expr))} (hi : InForce a (its.map (· ++ definitions a2)))
    {hist : List (Invocation × Luck)} {l : Luck} (hs : Scheduled W hist flat l) {outs : List Toks} (hlen : outs.length = its.length)
    (hin : ∀ (i : Nat) d1 t, its[i]? = some d1 → outs[i]? = some t → ∃ vs fmt hist' l', ExpandsInside W special l a inner a2 body d1 vs fmt hist' l' t)
    {ts : Toks} (h : output W hist flat l = .tokens ts) : unspaced outs.flatten = unspaced ts := by
  have uniq : ∀ js, InForce a js → js = its.map (· ++ definitions a2) := fun js hj =>
    Res.ok.inj ((iterations_of_inForce hj).symm.trans (iterations_of_inForce hi))
  have hex : ∀ d1 ∈ its, ∃ t vs fmt hist' l', ExpandsInside W special l a inner a2 body d1 vs fmt hist' l' t := by
    intro d1 hd
    obtain ⟨i, hlt, rfl⟩ := List.mem_iff_getElem.1 hd
    exact ⟨_, hin i _ _ (List.getElem?_eq_getElem hlt) (List.getElem?_eq_getElem (by omega))⟩
  obtain ⟨js, cs, h1, rfl, h3, h4⟩ := C66_text hW hs ha hn hw hc (fun js hj d hd s hs => by
    rw [uniq js hj] at hd
    obtain ⟨d1, hd1, rfl⟩ := List.mem_map.1 hd
    obtain ⟨t, vs, fmt, hist', l', hx⟩ := hex d1 hd1
    exact hx.nests.keywords s hs) h
  obtain rfl := uniq js h1
  rw [List.length_map] at h3
  rw [unspaced_coarse.flatten, unspaced_coarse.flatten]
  congr 1
  apply List.ext_getElem?
  intro i
  rw [List.getElem?_map, List.getElem?_map]
  by_cases hlt : i < its.length
  · have e1 := List.getElem?_eq_getElem hlt
    have e2 : outs[i]? = some _ := List.getElem?_eq_getElem (by omega)
    obtain ⟨vs, fmt, hist', l', hx⟩ := hin i _ _ e1 e2
    have e3 : (its.map (· ++ definitions a2))[i]? = some (its[i] ++ definitions a2) := by rw [List.getElem?_map, e1]; rfl
    obtain ⟨vs12, o1, c1⟩ := h4 i _ e3
    obtain ⟨fmt12, hf12⟩ := formatting_exists W.E vs12
    obtain ⟨c, c2, c3⟩ := c1 fmt12 hf12
    rw [e2, c2, Option.map_some, Option.map_some, c3,
      nested_copy hW hk hb hY ha2 hc2 hx hi (List.mem_map_of_mem (List.getElem_mem hlt)) o1 hf12]
  · rw [List.getElem?_eq_none (by omega), List.getElem?_eq_none (by omega)]

/-! ## Examples -/

/-- `y = rhs, { struct y {} }` -/
def innerOf (rhs : Toks) (code : Toks) : Toks := [id' "y", eq'] ++ rhs ++ [comma, brace code]

/-- `x = a, { compose!(inner) }` -/
def outerOf (inner : Toks) : Toks := [id' "x", eq', id' "a", comma, brace [id' "compose", .punct '!' false, paren inner]]

/-- `x = a, inner` -/
def flatOf (inner : Toks) : Toks := [id' "x", eq', id' "a", comma] ++ inner

/-- `concat(x, 1)` -/
def demoRhs : Toks := [id' "concat", paren [id' "x", comma, .lit (.int (S "1") 1)]]

/-- `x y "%x%-%y%"` -/
def demoTold : Toks := [id' "x", id' "y", .lit (.str (S "r") (S "%x%-%y%"))]

def demoInner : Toks := innerOf demoRhs demoTold

/-- The value of `x`. -/
def demoOuterValues : Subs := [(S "x", .ident (S "a"))]

theorem demo_values_cases {n : Str} {v : VKind} (h : List.lookup n demoOuterValues = some v) : n = S "x" ∧ v = .ident (S "a") := by
  simp only [demoOuterValues, List.lookup_cons, List.lookup_nil] at h
  split at h
  · next e => cases h; exact ⟨by simpa using e, rfl⟩
  · cases h

theorem demo_nests : Nests demoWorld taken [(S "x", .value 0 (.ident (S "a")))] demoOuterValues (fmtStr demoWorld.E demoOuterValues)
    (demoParse demoInner) demoTold where
  names n v h := ⟨S "a", (demo_values_cases h).2, by decide⟩
  plain n s h := by
    obtain ⟨rfl, h2⟩ := demo_values_cases h
    cases h2
    decide +kernel
  formats := formatsAll_fmtStr
  noLoops := rfl
  noSemicolons := rfl
  apart d hd := by
    have hd : d ∈ [(S "y", _)] := hd
    simp only [List.mem_cons, List.not_mem_nil, or_false] at hd
    subst hd
    refine ⟨by decide, fun n h => ?_⟩
    have := (demo_values_cases h).2
    exact absurd (VKind.ident.inj this) (by decide)
  leaves d hd := by
    have hd : d ∈ [(S "y", Expr.call 0 (S "concat") [.value 0 (.ident (S "x")), .value 0 (.litInt ⟨false, S "1", 1⟩)] _)] := hd
    simp only [List.mem_cons, List.not_mem_nil, or_false] at hd
    subst hd
    exact .call _ _ _ _ (by decide) (.cons (.name _ _) (.cons (.same _ _ rfl) .nil))
  percents := by
    simp only [demoTold, strLits, strLitsTok, id', and_true, true_and]
    rintro ⟨a, b, h⟩
    have : ∀ (a b : Str) (s : Str), s = a ++ '%' :: '%' :: b → (s.zip s.tail).contains ('%', '%') = true := by
      intro a b s hs
      subst hs
      induction a with
      | nil => simp
      | cons c a ih =>
        cases a with
        | nil => simp
        | cons d a => simp_all
    exact absurd (this a b _ h) (by decide)
  keywords := by decide +kernel

example : TextSyntax demoWorld ∧ BlindSyn taken demoWorld.Y ∧
    Reads demoWorld (.compose demoInner) (demoParse demoInner) ∧ Code (.compose demoInner) demoTold ∧
    Nests demoWorld taken [(S "x", .value 0 (.ident (S "a")))] demoOuterValues (fmtStr demoWorld.E demoOuterValues) (demoParse demoInner) demoTold ∧
    Reads demoWorld (.compose (flatOf demoInner)) (demoParse (flatOf demoInner)) ∧ Code (.compose (flatOf demoInner)) demoTold ∧
    definitions (demoParse (flatOf demoInner)) = [(S "x", .value 0 (.ident (S "a")))] ++ definitions (demoParse demoInner) ∧
    outcome demoWorld.E (Env.builtin ((demoLuck 2 1).ids 0)) [(S "x", .value 0 (.ident (S "a")))] = .ok demoOuterValues ∧
    InForce (demoParse (flatOf demoInner)) ([[(S "x", .value 0 (.ident (S "a")))]].map (· ++ definitions (demoParse demoInner))) ∧
    stmtsNoWhere (demoParse (flatOf demoInner)).block = (demoParse (flatOf demoInner)).block :=
  ⟨demo_text, demo_blindSyn, reads_of_parse (ids := fun k => k) (k := 0) rfl, .compose (demoInner.take 5) _ rfl, demo_nests,
    reads_of_parse (ids := fun k => k) (k := 0) rfl, .compose ((flatOf demoInner).take 9) _ rfl, rfl, rfl, .once rfl, rfl⟩

example : output demoWorld [] (.compose (outerOf demoInner)) (demoLuck 2 1) = .tokens [id' "compose", .punct '!' false,
      paren (innerOf [id' "concat", paren [id' "a", comma, .lit (.int (S "1") 1)]]
        [id' "a", id' "y", .lit (.str (Ext.demo.strRepr (S "a-%y%")) (S "a-%y%"))])] ∧
    output demoWorld [] (.compose (innerOf [id' "concat", paren [id' "a", comma, .lit (.int (S "1") 1)]]
        [id' "a", id' "y", .lit (.str (Ext.demo.strRepr (S "a-%y%")) (S "a-%y%"))])) (demoLuck 2 1) =
      .tokens [id' "a", id' "a1", .lit (.str (Ext.demo.strRepr (S "a-a1")) (S "a-a1"))] ∧
    output demoWorld [] (.compose (flatOf demoInner)) (demoLuck 2 1) =
      .tokens [id' "a", id' "a1", .lit (.str (Ext.demo.strRepr (S "a-a1")) (S "a-a1"))] := by decide +kernel

theorem demo_noWhere {inv : Invocation} {a : PAst} (h : Reads demoWorld inv a) : stmtsNoWhere a.block = a.block := by
  obtain ⟨body, -, hb⟩ := C59_code h
  have hb : some (demoStmts body) = some a.block := hb
  rw [← Option.some.inj hb]
  unfold demoStmts
  split
  · split <;> rfl
  · rfl

example : ExpandsInside demoWorld taken (demoLuck 2 1) (demoParse (flatOf demoInner)) (.compose demoInner) (demoParse demoInner) demoTold
    [(S "x", .value 0 (.ident (S "a")))] demoOuterValues (fmtStr demoWorld.E demoOuterValues) [] (demoLuck 2 1)
    [id' "a", id' "a1", .lit (.str (Ext.demo.strRepr (S "a-a1")) (S "a-a1"))] where
  nests := demo_nests
  values := rfl
  scheduled := demo_scheduled _ _ (by decide +kernel)
  seed := .inl rfl
  noWhere _ h := demo_noWhere h
  output := by decide +kernel

/-- The output of the invocation in the output. -/
def twice (inner : Toks) : Option Output :=
  match output demoWorld [] (.compose (outerOf inner)) (demoLuck 2 1) with
  | .tokens [_, _, .group _ ts] => some (output demoWorld [] (.compose ts) (demoLuck 2 1))
  | _ => none

/-- **C93** is false in general. `normalize(x)` does not see an alias `x` of its own invocation, but it sees the name written by an outer one: with `x = a`,
`y = normalize(x)` stands for `x` in one invocation and for `a` in the inner of two. The same goes for `y = "%x%"`, whose placeholder is replaced by the outer
invocation only, and in the code `"%%%%"` loses a percent in each invocation. -/
theorem C93_false :
    (twice (innerOf [id' "normalize", paren [id' "x"]] [id' "y"]) = some (.tokens [id' "a"]) ∧
      output demoWorld [] (.compose (flatOf (innerOf [id' "normalize", paren [id' "x"]] [id' "y"]))) (demoLuck 2 1) = .tokens [id' "x"]) ∧
    (twice (innerOf [.lit (.str (S "r") (S "%x%"))] [id' "y"]) = some (.tokens [.lit (.str (Ext.demo.strRepr (S "a")) (S "a"))]) ∧
      output demoWorld [] (.compose (flatOf (innerOf [.lit (.str (S "r") (S "%x%"))] [id' "y"]))) (demoLuck 2 1) =
        .tokens [.lit (.str (S "r") (S "%x%"))]) ∧
    (twice (innerOf demoRhs [.lit (.str (S "r") (S "%%%%"))]) = some (.tokens [.lit (.str (Ext.demo.strRepr (S "%%")) (S "%%"))]) ∧
      output demoWorld [] (.compose (flatOf (innerOf demoRhs [.lit (.str (S "r") (S "%%%%"))]))) (demoLuck 2 1) =
        .tokens [.lit (.str (Ext.demo.strRepr (S "%%%")) (S "%%%"))]) := by decide +kernel

end Verif.Props
