import Verif.Props.ExactMore
import Verif.Props.Exact
/-!
# The laws of `normalize` and of strings, where users meet them

C01–C05 for the functions `normalize` and `normalize2`, and C06–C10 for string literals in code: the theorems of `Props/Normalize` and
`Props/FormatString` are about texts.
-/

namespace Verif.Props
open Verif Spec

/-! ## `normalize` and `normalize2` -/

section
variable {C : CharClass}

/-- **C05**, exact, in terms of the text: normalizing twice is the same as normalizing once if and only if the text does not end with an underscore, any
special characters, and one last character that is no letter or digit, after some letter or digit. -/
theorem C05_exact (hu : C.alnum '_' = false) (s : Str) :
    normalize C (normalize C s) = normalize C s ↔
    ¬ ∃ a b l, s = a ++ '_' :: (b ++ [l]) ∧ (∃ c ∈ a, C.alnum c = true) ∧ C.alnum l = false ∧ ∀ d ∈ b, C.alnum d = false ∧ d ≠ '_' := by
  rw [C05_normalize_idempotent_partial hu, ← C04_exact hu]
  by_cases h : normalize C s = ['_'] <;> simp [h]

example : (∃ a b l, S "a__" = a ++ '_' :: (b ++ [l]) ∧ (∃ c ∈ a, CharClass.ascii.alnum c = true) ∧ CharClass.ascii.alnum l = false ∧
    ∀ d ∈ b, CharClass.ascii.alnum d = false ∧ d ≠ '_') ∧
    normalize CharClass.ascii (normalize CharClass.ascii (S "a b!")) = normalize CharClass.ascii (S "a b!") :=
  ⟨⟨S "a", [], '_', rfl, ⟨'a', by decide⟩, by decide, by simp⟩, by decide⟩
end

section
variable {E : Ext} {seed : Nat}

/-- `normalize` and `normalize2` put the normal form of the text of their argument into an identifier, or crash. -/
theorem normalize_result {f : Func} (hf : Builtin "normalize" f ∨ Builtin "normalize2" f) {v w : VKind} (hv : ArgsFit f [v]) {s : Str}
    (ht : TextOf E v s) (h : f.impl E seed [v] = .ok w) : w = .ident (normalize E.toCharClass s) ∧ ValidIdent E.toCharClass (normalize E.toCharClass s) := by
  have e := normalize2Text_of ht
  subst e
  have key : ∀ s w, newIdent E (normalize E.toCharClass s) = .ok w →
      w = .ident (normalize E.toCharClass s) ∧ ValidIdent E.toCharClass (normalize E.toCharClass s) := by
    intro s w h
    obtain ⟨h1, h2⟩ := newIdent_ok.1 h
    exact ⟨h2, lexIdent_iff.1 h1⟩
  rcases hf with hf | hf
  · simp only [builtin_iff builtin_normalize, List.mem_singleton] at hf
    subst hf
    obtain ⟨w, hw, ht⟩ := hv
    cases hw
    obtain ⟨ts, rfl⟩ := asRaw_of ht
    exact key _ _ h
  · simp only [builtin_iff builtin_normalize2, List.mem_cons, List.not_mem_nil, or_false] at hf
    rcases hf with rfl | rfl | rfl | rfl | rfl | rfl | rfl
    all_goals
      obtain ⟨w, hw, ht⟩ := hv
      cases hw
      simp only [normalize2For, ht, if_true] at h
      exact key _ _ h

/-- **C01** for the functions: what they give is an identifier (when they do not crash: `C36_normalize_exact`). -/
theorem C01_functions {f : Func} (hf : Builtin "normalize" f ∨ Builtin "normalize2" f) {v w : VKind} (hv : ArgsFit f [v]) {s : Str} (ht : TextOf E v s)
    (h : f.impl E seed [v] = .ok w) : ∃ n, w = .ident n ∧ ValidIdent E.toCharClass n :=
  ⟨_, (normalize_result hf hv ht h).1, (normalize_result hf hv ht h).2⟩

/-- **C02** for the functions: no letter or digit of the text of the argument is lost or added. -/
theorem C02_functions {f : Func} (hf : Builtin "normalize" f ∨ Builtin "normalize2" f) (hu : E.alnum '_' = false) {v w : VKind} (hv : ArgsFit f [v])
    {s : Str} (ht : TextOf E v s) (h : f.impl E seed [v] = .ok w) :
    ∃ n, w = .ident n ∧ n.filter E.alnum = s.filter E.alnum ∧ ∀ c ∈ n, E.alnum c = true ∨ c = '_' :=
  ⟨_, (normalize_result hf hv ht h).1, C02_normalize_preserves_alnum hu s⟩

/-- **C03** for the functions: a text without underscores gives none in a row; an identifier that does not end with an underscore and begins with a
letter is kept. -/
theorem C03_functions {f : Func} (hf : Builtin "normalize" f ∨ Builtin "normalize2" f) (hu : E.alnum '_' = false) {v w : VKind} (hv : ArgsFit f [v])
    {s : Str} (ht : TextOf E v s) (h : f.impl E seed [v] = .ok w) :
    ('_' ∉ s → ∃ n, w = .ident n ∧ ¬ HasDoubleUnderscore n) ∧
    ∀ c cs, s = c :: cs → E.alnum c = true → E.numeric c = false → (∀ d ∈ cs, E.alnum d = true ∨ d = '_') → s.getLast? ≠ some '_' → w = .ident s := by
  refine ⟨fun hs => ⟨_, (normalize_result hf hv ht h).1, C03_normalize_no_double_underscore hu s hs⟩, ?_⟩
  rintro c cs rfl hc hn hcs hl
  rw [(normalize_result hf hv ht h).1, C03_normalize_fixes_identifiers hu c cs hc hn hcs hl]

/-- `normalize2("a-b")` is `a_b`. -/
example : ∃ f, Builtin "normalize2" f ∧ ArgsFit f [.litStr (S "\"a-b\"") (S "a-b")] ∧ TextOf Ext.demo (.litStr (S "\"a-b\"") (S "a-b")) (S "a-b") ∧
    f.impl Ext.demo 0 [.litStr (S "\"a-b\"") (S "a-b")] = .ok (.ident (S "a_b")) := by
  refine ⟨normalize2For 12 .litStr, (builtin_iff builtin_normalize2).2 (.tail _ (.head _)), ⟨_, rfl, rfl⟩, .litStr _ _, by decide +kernel⟩
end

/-! ## String literals in code -/

section
variable {E : Ext} {valid : Toks → Bool} {subs : Subs}

/-- **C10** in code: a string literal anywhere in the code becomes the plainly spelled literal with the formatted text, at the same place; what is around
it is substituted as if the literal were not there. -/
theorem C10_in_code (node : Hole) {r v o : Str} (hv : Formats E.toCharClass (valueText E subs) v o) :
    ∃ node' : Hole, (∀ fmt, FormatsAll E subs fmt → ∀ ts,
        substAll (valueToks subs) (litWith E fmt) (node.fill ts) = node'.fill (substAll (valueToks subs) (litWith E fmt) ts)) ∧
      ∀ out, substituteIdents E valid subs (node.fill [.lit (.str r v)]) = .ok out → out = node'.fill [.lit (.str (E.strRepr o) o)] := by
  refine ⟨substHole (lookToks subs) (strLit E subs) node, fun fmt hf ts => ?_, fun out h => ?_⟩
  · rw [litWith_eq hf, valueToks_eq, substAll_fill]
  · rw [(substituteIdents_ok h).1, substAll_fill]
    have : fmtStr E subs v = o := by
      have := formats_sound hv
      rw [valueText_eq] at this
      exact this
    simp [substAll, substTok, strLit, this]

/-- **C06** in code: a string literal without a percent sign keeps its text. -/
theorem C06_in_code (node : Hole) {r v : Str} (hv : '%' ∉ v) :
    ∃ node' : Hole, (∀ fmt, FormatsAll E subs fmt → ∀ ts,
        substAll (valueToks subs) (litWith E fmt) (node.fill ts) = node'.fill (substAll (valueToks subs) (litWith E fmt) ts)) ∧
      ∀ out, substituteIdents E valid subs (node.fill [.lit (.str r v)]) = .ok out → out = node'.fill [.lit (.str (E.strRepr v) v)] :=
  C10_in_code node (.plain v hv)

/-- **C07** in code: in a string literal, a placeholder for an alias is replaced by the text of its value, whatever the white space in it; a text without
percent signs before it is kept, and what comes after it is formatted on its own. -/
theorem C07_in_code (node : Hole) {r pre ws₁ name ws₂ post o : Str} {x : VKind} (hpre : '%' ∉ pre) (hpost : post.head? ≠ some '%')
    (hws₁ : ∀ c ∈ ws₁, E.whitespace c = true) (hws₂ : ∀ c ∈ ws₂, E.whitespace c = true) (hwp : E.whitespace '%' = false)
    (hname : ∀ c ∈ name, E.whitespace c = false ∧ c ≠ '%') (hne : name ≠ []) (hx : List.lookup name subs = some x)
    (ho : Formats E.toCharClass (valueText E subs) post o) :
    ∃ node' : Hole, (∀ fmt, FormatsAll E subs fmt → ∀ ts,
        substAll (valueToks subs) (litWith E fmt) (node.fill ts) = node'.fill (substAll (valueToks subs) (litWith E fmt) ts)) ∧
      ∀ out, substituteIdents E valid subs (node.fill [.lit (.str r (pre ++ '%' :: (ws₁ ++ name ++ ws₂) ++ '%' :: post))]) = .ok out →
        out = node'.fill [.lit (.str (E.strRepr (pre ++ stringForm E x ++ o)) (pre ++ stringForm E x ++ o))] := by
  refine C10_in_code node ?_
  rw [C10_format_characterised, C07_placeholder_replaced pre ws₁ name ws₂ post _ hpre hpost hws₁ hws₂ hwp hname hne
    (show valueText E subs name = some (stringForm E x) by simp [valueText, hx]), (C10_format_characterised _ _).1 ho]

/-- **C08** in code: a string literal without `%%` in which no placeholder names an alias keeps its text. -/
theorem C08_in_code (node : Hole) {r v : Str} (hd : ¬ HasDoublePercent v)
    (hn : ∀ a body b, v = a ++ '%' :: body ++ '%' :: b → '%' ∉ body → List.lookup (body.filter fun c => !E.whitespace c) subs = none) :
    ∃ node' : Hole, (∀ fmt, FormatsAll E subs fmt → ∀ ts,
        substAll (valueToks subs) (litWith E fmt) (node.fill ts) = node'.fill (substAll (valueToks subs) (litWith E fmt) ts)) ∧
      ∀ out, substituteIdents E valid subs (node.fill [.lit (.str r v)]) = .ok out → out = node'.fill [.lit (.str (E.strRepr v) v)] := by
  refine C10_in_code node ((C10_format_characterised _ _).2 (C08_unknown_placeholders_verbatim v hd fun a body b h hb => ?_))
  simp [valueText, hn a body b h hb]

/-- `{ "x %a% y" }` with `a = Foo`. -/
example : substituteIdents Ext.demo (fun _ => true) demoSubs ((Hole.inside [] .brace (.here [.ident (S "a")] []) []).fill
      [.lit (.str (S "\"x %a % y\"") (S "x %a % y"))]) =
    .ok [.group .brace [.ident (S "Foo"), .lit (.str (S "\"x Foo y\"") (S "x Foo y"))]] := by decide

end

end Verif.Props
