import Verif.Proofs.Ordinary
import Verif.Props.Failures
import Verif.Props.Resolve
import Verif.Props.Visitor
import Verif.Props.Whole
/-!
# Ordinary invocations do not crash

C82: a crash needs a definition of enormous size, a block whose pieces are not valid by themselves, a raw identifier, a negative integer,
a character outside ASCII or the character `#`, or one of two groups of functions used together.
-/

namespace Verif.Props
open Verif Spec

/-- The costs of the expression stay below `2 ^ 32`. -/
def Modest (e : Expr) : Prop := 5 * nodes e * 2 ^ nesting e < 2 ^ 32

/-- The pieces of the block are well formed by themselves. -/
def PiecesValid (G : Grammar) (b : List Stmt) : Prop := ∀ p ∈ stmtsParts b, validPart G p.1 p.2 = true

theorem mem_exprsIn {a : PAst} {its : List (List (Str × Expr))} (h : InForce a its) : ∀ defs ∈ its, ∀ d ∈ defs, d.2 ∈ exprsIn (tree a) :=
  iterations_mem (iterations_of_inForce h)

/-- No crash if the values written are in classes which the functions called do not leave. -/
theorem no_crash {W : World} (hE : AsciiExt W.E) (hG : ∀ k, StringBlind (validPart W.Y.toGrammar k))
    {hist : List (Invocation × Luck)} {inv : Invocation} {l : Luck} (hs : Scheduled W hist inv l) {a : PAst} (ha : Reads W inv a)
    (hm : ∀ e ∈ exprsIn (tree a), Modest e) (hb : PiecesValid W.Y.toGrammar a.block) {I : Str → Prop} {J : Char → Prop}
    (hN : NameClass W.E (l.ids 0) (fun n => ∃ e ∈ exprsIn (tree a), n ∈ calls e) I J)
    (hv : ∀ e ∈ exprsIn (tree a), ∀ k ∈ leaves e, ValueFine I J k) : output W hist inv l ≠ .panicked := by
  intro h
  obtain ⟨pre, defs, post, hi, -, h⟩ := panics_at hs ha h
  have hmem := mem_exprsIn hi defs (by simp)
  rcases h with h | ⟨tes, f, vs, hc, hf, happ, hfit, hp⟩ | ⟨vs, -, hp⟩
  · obtain ⟨i, hi, hb⟩ := overflowsSpec_bound h
    have := costBound_le i.2
    have := hm i.2 (hmem i hi)
    unfold Modest at this
    omega
  · have hsafe : ∀ g ∈ builtins, ∀ d ∈ defs, g.name ∈ calls d.2 → SafeOn W.E (l.ids 0) (ValueFine I J) g := fun g hg d hd hn =>
      builtins_safe hE hN hg ⟨d.2, hmem d hd, hn⟩
    obtain ⟨h1, -⟩ := spec_keeps (E := W.E) (env := Env.builtin (l.ids 0)) rfl (fine_closed (I := I) (J := J)) hc typed_empty
      (fun _ _ h => by cases h) (fun d hd => hv d.2 (hmem d hd))
      (fun d hd g hg hn vs hfit hvs r hr => (hsafe g hg d hd hn vs hfit hvs).2 r hr)
    obtain ⟨⟨d, hd, hn⟩, hvs⟩ := h1 f vs happ
    exact (hsafe f hf d hd hn vs hfit hvs).1 hp
  · exact C18_no_panic_partial hG hb hp

/-- **C82**: suppose that all definitions and loop values are of modest size and that the pieces of the block are valid by themselves. If all
identifiers in values are ASCII and not raw, all literals and punctuation ASCII without `#`, no integer negative, and neither
`snake_case`, `camel_case` nor `pascal_case` is used, then the macro does not crash. If `to_int` is used, the values must not contain a minus
sign either. -/
theorem C82_plain {W : World} (hE : AsciiExt W.E) (hG : ∀ k, StringBlind (validPart W.Y.toGrammar k))
    {hist : List (Invocation × Luck)} {inv : Invocation} {l : Luck} (hs : Scheduled W hist inv l) {a : PAst} (ha : Reads W inv a)
    (hm : ∀ e ∈ exprsIn (tree a), Modest e) (hb : PiecesValid W.Y.toGrammar a.block) {J : Char → Prop} (hJ : ∀ c, J c → PlainChar c)
    (hv : ∀ e ∈ exprsIn (tree a), ∀ k ∈ leaves e, ValueFine (PlainName W.E.toCharClass) J k)
    (hc : ∀ e ∈ exprsIn (tree a), ∀ n ∈ calls e, n ≠ S "snake_case" ∧ n ≠ S "camel_case" ∧ n ≠ S "pascal_case" ∧ (n = S "to_int" → ¬ J '-')) :
    output W hist inv l ≠ .panicked :=
  no_crash hE hG hs ha hm hb (plainNames hE (fun ⟨e, he, hn⟩ => (hc e he _ hn).1 rfl) (fun ⟨e, he, hn⟩ => (hc e he _ hn).2.1 rfl)
    (fun ⟨e, he, hn⟩ => (hc e he _ hn).2.2.1 rfl) hJ (fun ⟨e, he, hn⟩ => (hc e he _ hn).2.2.2 rfl)) hv

/-- **C82**: the same with `snake_case`, `camel_case` and `pascal_case`, if all identifiers in values start with a letter and neither `hash`,
`normalize`, `normalize2` nor `to_ident` is used, which could make an identifier that does not. -/
theorem C82_letters {W : World} (hE : AsciiExt W.E) (hG : ∀ k, StringBlind (validPart W.Y.toGrammar k))
    {hist : List (Invocation × Luck)} {inv : Invocation} {l : Luck} (hs : Scheduled W hist inv l) {a : PAst} (ha : Reads W inv a)
    (hm : ∀ e ∈ exprsIn (tree a), Modest e) (hb : PiecesValid W.Y.toGrammar a.block) {J : Char → Prop} (hJ : ∀ c, J c → PlainChar c)
    (hv : ∀ e ∈ exprsIn (tree a), ∀ k ∈ leaves e, ValueFine (LetterName W.E.toCharClass) J k)
    (hc : ∀ e ∈ exprsIn (tree a), ∀ n ∈ calls e, n ≠ S "hash" ∧ n ≠ S "normalize" ∧ n ≠ S "normalize2" ∧ n ≠ S "to_ident" ∧
      (n = S "to_int" → ¬ J '-')) :
    output W hist inv l ≠ .panicked :=
  no_crash hE hG hs ha hm hb (letterNames hE (fun ⟨e, he, hn⟩ => (hc e he _ hn).1 rfl) (fun ⟨e, he, hn⟩ => (hc e he _ hn).2.1 rfl)
    (fun ⟨e, he, hn⟩ => (hc e he _ hn).2.2.1 rfl) (fun ⟨e, he, hn⟩ => (hc e he _ hn).2.2.2.1 rfl) hJ
    (fun ⟨e, he, hn⟩ => (hc e he _ hn).2.2.2.2 rfl)) hv

/-- The values keep to the classes. -/
theorem values_fine {W : World} (hE : AsciiExt W.E) {seed : Nat} {a : PAst} {I : Str → Prop} {J : Char → Prop}
    (hN : NameClass W.E seed (fun n => ∃ e ∈ exprsIn (tree a), n ∈ calls e) I J)
    (hv : ∀ e ∈ exprsIn (tree a), ∀ k ∈ leaves e, ValueFine I J k) {its : List (List (Str × Expr))} (hi : InForce a its)
    {defs : List (Str × Expr)} (hd : defs ∈ its) {vs : List (Str × VKind)} (h : outcome W.E (Env.builtin seed) defs = .ok vs) :
    ∀ w ∈ vs, ValueFine I J w.2 := by
  have hmem := mem_exprsIn hi defs hd
  rw [outcome_ok] at h
  have h := h.2
  unfold denote at h
  split at h
  · cases h
  · rename_i tes hc
    refine (spec_keeps (E := W.E) (env := Env.builtin seed) rfl (fine_closed (I := I) (J := J)) hc typed_empty
      (fun _ _ h => by cases h) (fun d hd => hv d.2 (hmem d hd))
      (fun d hd g hg hn vs hfit hvs r hr => (builtins_safe hE hN hg ⟨d.2, hmem d hd, hn⟩ vs hfit hvs).2 r hr)).2 vs h

/-- **C82**: under the conditions on values and functions of `C82_plain`, all values of aliases are made of ASCII identifiers which are not raw,
ASCII literals and ASCII punctuation, and no integer is negative. -/
theorem C82_values {W : World} (hE : AsciiExt W.E) {seed : Nat} {a : PAst} {J : Char → Prop} (hJ : ∀ c, J c → PlainChar c)
    (hv : ∀ e ∈ exprsIn (tree a), ∀ k ∈ leaves e, ValueFine (PlainName W.E.toCharClass) J k)
    (hc : ∀ e ∈ exprsIn (tree a), ∀ n ∈ calls e, n ≠ S "snake_case" ∧ n ≠ S "camel_case" ∧ n ≠ S "pascal_case" ∧ (n = S "to_int" → ¬ J '-'))
    {its : List (List (Str × Expr))} (hi : InForce a its) {defs : List (Str × Expr)} (hd : defs ∈ its) {vs : List (Str × VKind)}
    (h : outcome W.E (Env.builtin seed) defs = .ok vs) : ∀ w ∈ vs, ValueFine (PlainName W.E.toCharClass) J w.2 :=
  values_fine hE (plainNames hE (fun ⟨e, he, hn⟩ => (hc e he _ hn).1 rfl) (fun ⟨e, he, hn⟩ => (hc e he _ hn).2.1 rfl)
    (fun ⟨e, he, hn⟩ => (hc e he _ hn).2.2.1 rfl) hJ (fun ⟨e, he, hn⟩ => (hc e he _ hn).2.2.2 rfl)) hv hi hd h

/-- **C82**: under those of `C82_letters`, all their identifiers moreover start with a letter. -/
theorem C82_letter_values {W : World} (hE : AsciiExt W.E) {seed : Nat} {a : PAst} {J : Char → Prop} (hJ : ∀ c, J c → PlainChar c)
    (hv : ∀ e ∈ exprsIn (tree a), ∀ k ∈ leaves e, ValueFine (LetterName W.E.toCharClass) J k)
    (hc : ∀ e ∈ exprsIn (tree a), ∀ n ∈ calls e, n ≠ S "hash" ∧ n ≠ S "normalize" ∧ n ≠ S "normalize2" ∧ n ≠ S "to_ident" ∧
      (n = S "to_int" → ¬ J '-'))
    {its : List (List (Str × Expr))} (hi : InForce a its) {defs : List (Str × Expr)} (hd : defs ∈ its) {vs : List (Str × VKind)}
    (h : outcome W.E (Env.builtin seed) defs = .ok vs) : ∀ w ∈ vs, ValueFine (LetterName W.E.toCharClass) J w.2 :=
  values_fine hE (letterNames hE (fun ⟨e, he, hn⟩ => (hc e he _ hn).1 rfl) (fun ⟨e, he, hn⟩ => (hc e he _ hn).2.1 rfl)
    (fun ⟨e, he, hn⟩ => (hc e he _ hn).2.2.1 rfl) (fun ⟨e, he, hn⟩ => (hc e he _ hn).2.2.2.1 rfl) hJ
    (fun ⟨e, he, hn⟩ => (hc e he _ hn).2.2.2.2 rfl)) hv hi hd h

/-! The demo instance is an instance of the assumptions. -/

theorem ascii_all {P : Char → Prop} (h : ∀ n : Fin 128, P (Char.ofNat n.val)) {c : Char} (hc : c.toNat < 128) : P c := by
  have := h ⟨c.toNat, hc⟩
  simpa using this

mutual
theorem demoRender_plain : ∀ (t : Tok), TokFine PlainText PlainChar t → PlainText t.demoRender
  | .ident _, h => h
  | .punct c _, h => fun d hd => by rw [List.mem_singleton.1 hd]; exact h
  | .lit (.str _ _), h => h.1
  | .lit (.int _ _), h => h
  | .lit (.other _), h => h
  | .group .paren ts, h => plainText_append (a := '(' :: Tok.demoRenderL ts) (plainText_append (a := ['(']) (by decide) (demoRenderL_plain ts h)) (by decide)
  | .group .brace ts, h => plainText_append (a := '{' :: Tok.demoRenderL ts) (plainText_append (a := ['{']) (by decide) (demoRenderL_plain ts h)) (by decide)
  | .group .bracket ts, h => plainText_append (a := '[' :: Tok.demoRenderL ts) (plainText_append (a := ['[']) (by decide) (demoRenderL_plain ts h)) (by decide)
  | .group .none ts, h => demoRenderL_plain ts h
theorem demoRenderL_plain : ∀ (ts : List Tok), ToksFine PlainText PlainChar ts → PlainText (Tok.demoRenderL ts)
  | [], _ => by intro c hc; cases hc
  | [t], h => demoRender_plain t h.1
  | t :: u :: ts, h => plainText_append (demoRender_plain t h.1) (plainText_append (a := [' ']) (by decide) (demoRenderL_plain (u :: ts) h.2))
end

theorem plainText_map {g : Char → Char} (hg : ∀ n : Fin 128, PlainChar (Char.ofNat n.val) → PlainChar (g (Char.ofNat n.val))) {s : Str} (h : PlainText s) :
    PlainText (s.map g) := by
  intro c hc
  obtain ⟨d, hd, rfl⟩ := List.mem_map.1 hc
  exact ascii_all (P := fun d => PlainChar d → PlainChar (g d)) hg (h d hd).1 (h d hd)

theorem plainText_filter {p : Char → Bool} {s : Str} (h : PlainText s) : PlainText (s.filter p) := fun c hc => h c (List.mem_filter.1 hc).1

theorem plainName_map {g : Char → Char} (hg : ∀ n : Fin 128, PlainChar (Char.ofNat n.val) → PlainChar (g (Char.ofNat n.val)))
    (hs : ∀ n : Fin 128, (Char.ofNat n.val = '_' ∨ CharClass.ascii.xidStart (Char.ofNat n.val) = true) →
      (g (Char.ofNat n.val) = '_' ∨ CharClass.ascii.xidStart (g (Char.ofNat n.val)) = true))
    (hc : ∀ n : Fin 128, CharClass.ascii.xidContinue (Char.ofNat n.val) = true → CharClass.ascii.xidContinue (g (Char.ofNat n.val)) = true)
    {s : Str} (h : PlainName CharClass.ascii s) : PlainName CharClass.ascii (s.map g) := by
  obtain ⟨h1, c, cs, rfl, h2, h3⟩ := h
  refine ⟨plainText_map hg h1, g c, cs.map g, rfl, ?_, fun d hd => ?_⟩
  · exact ascii_all (P := fun c => (c = '_' ∨ CharClass.ascii.xidStart c = true) → (g c = '_' ∨ CharClass.ascii.xidStart (g c) = true)) hs
      (h1 c (by simp)).1 h2
  · obtain ⟨e, he, rfl⟩ := List.mem_map.1 hd
    exact ascii_all (P := fun c => CharClass.ascii.xidContinue c = true → CharClass.ascii.xidContinue (g c) = true) hc
      (h1 e (by simp [he])).1 (h3 e he)

theorem letterName_map {g : Char → Char} (hg : ∀ n : Fin 128, PlainChar (Char.ofNat n.val) → PlainChar (g (Char.ofNat n.val)))
    (hs : ∀ n : Fin 128, (Char.ofNat n.val = '_' ∨ CharClass.ascii.xidStart (Char.ofNat n.val) = true) →
      (g (Char.ofNat n.val) = '_' ∨ CharClass.ascii.xidStart (g (Char.ofNat n.val)) = true))
    (hc : ∀ n : Fin 128, CharClass.ascii.xidContinue (Char.ofNat n.val) = true → CharClass.ascii.xidContinue (g (Char.ofNat n.val)) = true)
    (hl : ∀ n : Fin 128, (Char.ofNat n.val).isAlpha = true → (g (Char.ofNat n.val)).isAlpha = true)
    {s : Str} (h : LetterName CharClass.ascii s) : LetterName CharClass.ascii (s.map g) := by
  obtain ⟨h1, c, cs, rfl, h2⟩ := h
  exact ⟨plainName_map hg hs hc h1, g c, cs.map g, rfl, ascii_all (P := fun c => c.isAlpha = true → (g c).isAlpha = true) hl (h1.1 c (by simp)).1 h2⟩

theorem letterName_filter {s : Str} (h : LetterName CharClass.ascii s) :
    ∃ c cs, s.filter (· ≠ '_') = c :: cs ∧ c.isAlpha = true ∧ PlainText (c :: cs) ∧ ∀ d ∈ cs, CharClass.ascii.xidContinue d = true := by
  obtain ⟨⟨h1, c', cs', h2, -, h3⟩, c, cs, rfl, hc⟩ := h
  cases h2
  have : c' ≠ '_' := by rintro rfl; exact absurd hc (by decide)
  refine ⟨c', cs'.filter (· ≠ '_'), by simp [this], hc, ?_, fun d hd => h3 d (List.mem_filter.1 hd).1⟩
  intro d hd
  rcases List.mem_cons.1 hd with rfl | hd
  · exact h1 _ (by simp)
  · exact h1 d (by simp [(List.mem_filter.1 hd).1])

theorem demoLex_ident {s i : Str} (h : demoLex s = some [.ident i]) : i = s ∧ ValidIdent CharClass.ascii s := by
  unfold demoLex at h
  split at h
  · split at h <;> cases h
  · split at h
    · cases h
    · split at h
      · rename_i h1
        cases h
        exact ⟨rfl, lexIdent_iff.1 h1⟩
      · cases h

theorem demo_ascii : AsciiExt Ext.demo where
  lawful := CharClass.ascii_lawful
  digits c h := by
    change (c.isAlphanum || c == '_') = true
    simp [Char.isAlphanum, h]
  chars c h := ascii_all (P := fun c => CharClass.ascii.alnum c = true → CharClass.ascii.xidContinue c = true ∧
    (CharClass.ascii.numeric c = false → CharClass.ascii.xidStart c = true)) (by decide +kernel) h
  render := demoRenderL_plain
  renderIdent _ := rfl
  strRepr s h := plainText_append (a := '"' :: s) (plainText_append (a := ['"']) (by decide) h) (by decide)
  cases s h := by
    refine ⟨plainText_map (by decide +kernel) h, plainText_map (by decide +kernel) h, plainText_map (by decide +kernel) h, plainText_filter h, ?_⟩
    have hf : PlainText (s.filter (· ≠ '_')) := plainText_filter h
    change PlainText (match s.filter (· ≠ '_') with | [] => [] | c :: cs => c.toUpper :: cs)
    split
    · intro c hc; cases hc
    · rename_i c cs he
      rw [he] at hf
      intro d hd
      rcases List.mem_cons.1 hd with rfl | hd
      · exact ascii_all (P := fun c => PlainChar c → PlainChar c.toUpper) (by decide +kernel) (hf c (by simp)).1 (hf c (by simp))
      · exact hf d (by simp [hd])
  names s h := ⟨plainName_map (by decide +kernel) (by decide +kernel) (by decide +kernel) h,
    plainName_map (by decide +kernel) (by decide +kernel) (by decide +kernel) h⟩
  letters s h := by
    refine ⟨letterName_map (by decide +kernel) (by decide +kernel) (by decide +kernel) (by decide +kernel) h,
      letterName_map (by decide +kernel) (by decide +kernel) (by decide +kernel) (by decide +kernel) h,
      letterName_map (by decide +kernel) (by decide +kernel) (by decide +kernel) (by decide +kernel) h, ?_, ?_⟩
    · obtain ⟨c, cs, he, h1, h2, h3⟩ := letterName_filter h
      change LetterName CharClass.ascii (s.filter (· ≠ '_'))
      rw [he]
      exact ⟨⟨h2, c, cs, rfl, .inr h1, h3⟩, c, cs, rfl, h1⟩
    · obtain ⟨c, cs, he, h1, h2, h3⟩ := letterName_filter h
      change LetterName CharClass.ascii (match s.filter (· ≠ '_') with | [] => [] | c :: cs => c.toUpper :: cs)
      rw [he]
      have h4 : c.toUpper.isAlpha = true := ascii_all (P := fun c => c.isAlpha = true → c.toUpper.isAlpha = true) (by decide +kernel) (h2 c (by simp)).1 h1
      refine ⟨⟨fun d hd => ?_, c.toUpper, cs, rfl, .inr h4, h3⟩, c.toUpper, cs, rfl, h4⟩
      rcases List.mem_cons.1 hd with rfl | hd
      · exact ascii_all (P := fun c => PlainChar c → PlainChar c.toUpper) (by decide +kernel) (h2 c (by simp)).1 (h2 c (by simp))
      · exact h2 d (by simp [hd])
  lex s i h hl := by
    obtain ⟨rfl, h1⟩ := demoLex_ident hl
    exact ⟨h, h1⟩
  lexLetter c s i h hc hl := by
    obtain ⟨rfl, h1⟩ := demoLex_ident hl
    exact ⟨⟨h, h1⟩, c, s, rfl, hc⟩

/-- `x = camel_case(concat(a, b_c)), { struct x {} }` -/
def demoCamel : Toks := [id' "x", eq', id' "camel_case", paren [id' "concat", paren [id' "a", comma, id' "b_c"]], comma,
  brace [id' "struct", id' "x", brace []]]

instance {C : CharClass} {s : Str} : Decidable (ValidIdent C s) := decidable_of_iff _ lexIdent_iff
instance {C : CharClass} {s : Str} : Decidable (PlainName C s) := inferInstanceAs (Decidable (_ ∧ _))
instance {C : CharClass} {s : Str} : Decidable (LetterName C s) :=
  decidable_of_iff (PlainName C s ∧ (s.head?.any Char.isAlpha = true)) (by
    unfold LetterName
    refine and_congr_right fun _ => ?_
    cases s with
    | nil => simp
    | cons c cs =>
      simp only [List.head?_cons, Option.any_some]
      exact ⟨fun h => ⟨c, cs, rfl, h⟩, by rintro ⟨_, _, h, h'⟩; cases h; exact h'⟩)
instance (l : Lit) : Decidable (PlainLiteral l) := by
  cases l <;> (simp only [PlainLiteral]; infer_instance)
mutual
def decTokFine (I : Str → Prop) (J : Char → Prop) [DecidablePred I] [DecidablePred J] : (t : Tok) → Decidable (TokFine I J t)
  | .ident s => inferInstanceAs (Decidable (I s))
  | .punct c _ => inferInstanceAs (Decidable (J c))
  | .lit l => inferInstanceAs (Decidable (PlainLiteral l))
  | .group _ ts => decToksFine I J ts
def decToksFine (I : Str → Prop) (J : Char → Prop) [DecidablePred I] [DecidablePred J] : (ts : List Tok) → Decidable (ToksFine I J ts)
  | [] => .isTrue trivial
  | t :: ts => @instDecidableAnd _ _ (decTokFine I J t) (decToksFine I J ts)
end
instance (I : Str → Prop) (J : Char → Prop) [DecidablePred I] [DecidablePred J] (v : VKind) : Decidable (ValueFine I J v) :=
  match v with
  | .ident s => inferInstanceAs (Decidable (I s))
  | .litStr r v => inferInstanceAs (Decidable (PlainText r ∧ PlainText v))
  | .litInt i => inferInstanceAs (Decidable (i.neg = false ∧ PlainText i.repr))
  | .path ts => decToksFine I J ts
  | .type ts => decToksFine I J ts
  | .expr ts => decToksFine I J ts
  | .tokens ts => decToksFine I J ts
  | .raw ts => decToksFine I J ts
instance (e : Expr) : Decidable (Modest e) := inferInstanceAs (Decidable (_ < _))
instance (G : Grammar) (b : List Stmt) : Decidable (PiecesValid G b) := inferInstanceAs (Decidable (∀ p ∈ stmtsParts b, _))

/-- The hypotheses hold for the example with a loop. -/
example : AsciiExt demoWorld.E ∧ (∀ k, StringBlind (validPart demoWorld.Y.toGrammar k)) ∧
    Scheduled demoWorld [] (.compose demoLoop) (demoLuck 2 1) ∧ Reads demoWorld (.compose demoLoop) (demoParse demoLoop) ∧
    (∀ e ∈ exprsIn (tree (demoParse demoLoop)), Modest e) ∧ PiecesValid demoWorld.Y.toGrammar (demoParse demoLoop).block ∧
    (∀ e ∈ exprsIn (tree (demoParse demoLoop)), ∀ k ∈ leaves e, ValueFine (PlainName demoWorld.E.toCharClass) PlainChar k) ∧
    (∀ e ∈ exprsIn (tree (demoParse demoLoop)), ∀ n ∈ calls e, n ≠ S "snake_case" ∧ n ≠ S "camel_case" ∧ n ≠ S "pascal_case" ∧
      (n = S "to_int" → ¬ PlainChar '-')) := by
  refine ⟨demo_ascii, Grammar.demo_blind, demo_scheduled _ _ (by decide +kernel), reads_of_parse (ids := fun k => k) (k := 0) rfl, by decide +kernel, by decide +kernel, by decide +kernel, by decide +kernel⟩

/-- And those of the second theorem for one with `camel_case`. -/
example : Scheduled demoWorld [] (.compose demoCamel) (demoLuck 2 1) ∧ Reads demoWorld (.compose demoCamel) (demoParse demoCamel) ∧
    (∀ e ∈ exprsIn (tree (demoParse demoCamel)), Modest e) ∧ PiecesValid demoWorld.Y.toGrammar (demoParse demoCamel).block ∧
    (∀ e ∈ exprsIn (tree (demoParse demoCamel)), ∀ k ∈ leaves e, ValueFine (LetterName demoWorld.E.toCharClass) PlainChar k) ∧
    (∀ e ∈ exprsIn (tree (demoParse demoCamel)), ∀ n ∈ calls e, n ≠ S "hash" ∧ n ≠ S "normalize" ∧ n ≠ S "normalize2" ∧ n ≠ S "to_ident" ∧
      (n = S "to_int" → ¬ PlainChar '-')) := by
  refine ⟨demo_scheduled _ _ (by decide +kernel), reads_of_parse (ids := fun k => k) (k := 0) rfl, by decide +kernel, by decide +kernel, by decide +kernel, by decide +kernel⟩

example : output demoWorld [] (.compose demoCamel) (demoLuck 2 1) = .tokens [id' "struct", id' "abc", brace []] := by decide +kernel

/-- In each of the two iterations of the example with a loop there are values. -/
example : ∃ its, InForce (demoParse demoLoop) its ∧ its.length = 2 ∧ ∀ defs ∈ its, ∃ vs, outcome demoWorld.E (Env.builtin 0) defs = .ok vs ∧
    vs.length = 2 := by
  refine ⟨_, inForce_of_iterations rfl, rfl, fun defs hd => ?_⟩
  cases hd with
  | head => exact ⟨_, rfl, rfl⟩
  | tail _ hd =>
    cases hd with
    | head => exact ⟨_, rfl, rfl⟩
    | tail _ hd => cases hd

/-- `x = …, { struct x {} }` -/
def oneValue (e : Toks) : Toks := [id' "x", eq'] ++ e ++ [comma, brace [id' "struct", id' "x", brace []]]

/-- **C82**: each of the conditions on values and functions is needed. There are crashes on `camel_case(hash(a))`, where both groups of functions
meet, on `camel_case(_1)`, where the identifier does not start with a letter, on the raw identifier in `concat(r#type, y)`, on the
character in `normalize("²")`, on the negative integer in `concat(1, -1)` and on the one `to_int` makes in `concat(1, to_int(-1))`. -/
theorem C82_needed : ∀ e ∈ [[id' "camel_case", paren [id' "hash", paren [id' "a"]]], [id' "camel_case", paren [id' "_1"]],
      [id' "concat", paren [id' "r#type", comma, id' "y"]], [id' "normalize", paren [.lit (.str (c! "\"²\"") (c! "²"))]],
      [id' "concat", paren [.lit (.int (S "1") 1), comma, .punct '-' false, .lit (.int (S "1") 1)]],
      [id' "concat", paren [.lit (.int (S "1") 1), comma, id' "to_int", paren [.punct '-' false, .lit (.int (S "1") 1)]]]],
    output demoWorld [] (.compose (oneValue e)) (demoLuck 2 1) = .panicked := by decide +kernel

end Verif.Props
