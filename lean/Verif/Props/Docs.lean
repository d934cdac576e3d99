import Verif.Props.Reference
import Verif.Lite.Units
/-!
# Property C79: the examples of the reference

The tables of functions and types of `snippets/reference_h2.md` (which is part of the README and of the documentation of the crate) give an example for each row. Here they are run
on the whole model, with the reader of Rust of `Lite`.
-/

namespace Verif.Props
open Verif Spec Lite

/-- The examples of the tables of functions and their results, `snippets/reference_h2.md:356-418`. The results given for `hash` are placeholders and left out. -/
def docCalls : List (Str × Str) :=
  [ (c! "upper(\"foo\")", c! "\"FOO\""),
    (c! "upper(foo)", c! "FOO"),
    (c! "lower(\"FOO\")", c! "\"foo\""),
    (c! "lower(FOO)", c! "foo"),
    (c! "snake_case(\"FooBar\")", c! "\"foo_bar\""),
    (c! "snake_case(FooBar)", c! "foo_bar"),
    (c! "camel_case(\"foo_bar\")", c! "\"fooBar\""),
    (c! "camel_case(foo_bar)", c! "fooBar"),
    (c! "pascal_case(\"foo_bar\")", c! "\"FooBar\""),
    (c! "pascal_case(foo_bar)", c! "FooBar"),
    (c! "normalize(&'static str)", c! "static_str"),
    (c! "normalize2(FooBar)", c! "FooBar"),
    (c! "normalize2(\"&'static str\")", c! "static_str"),
    (c! "normalize2(123)", c! "_123"),
    (c! "normalize2(Foo::Bar)", c! "Foo_Bar"),
    (c! "normalize2(&'static str)", c! "static_str"),
    (c! "normalize2(1 + 2)", c! "_1_2"),
    (c! "normalize2(raw(Result<u32, String>))", c! "Result_u32_String"),
    (c! "concat(foo, _, bar)", c! "foo_bar"),
    (c! "concat(prefix, _, 123)", c! "prefix_123"),
    (c! "concat(\"foo\", \"_\", \"bar\")", c! "\"foo_bar\""),
    (c! "concat(1, 2, 3)", c! "123"),
    (c! "concat(Result<, raw(u32,), String, >)", c! "Result<u32, String>"),
    (c! "raw(Result<u32, Error>)", c! "Result<u32, Error>"),
    (c! "to_ident(lower(\"FOO\"))", c! "foo"),
    (c! "to_path(concat(std, ::, vec))", c! "std::vec"),
    (c! "to_type(concat(Vec, <, u32, >))", c! "Vec<u32>"),
    (c! "to_expr(concat(1, +, 2))", c! "1 + 2"),
    (c! "to_str(foo)", c! "\"foo\""),
    (c! "to_int(concat(4, 2))", c! "42"),
    (c! "to_tokens(foo)", c! "foo") ]

/-- Examples which do not do what the table says. -/
def docWrong : List Str := [c! "to_path(concat(std, ::, vec))", c! "to_type(concat(Vec, <, u32, >))"]

/-- Defined as an alias, the text expands to the other text. -/
abbrev ExampleOf (p : Str × Str) : Prop := Gives (c! "x = " ++ p.1 ++ c! ",") (c! "out! { x }") (c! "out! { " ++ p.2 ++ c! " }")

/-- **C79**: the examples of the tables of functions give the documented results, except for two. (What is missing: `C79_false`.) -/
theorem C79_calls_partial : ∀ p ∈ docCalls, p.1 ∉ docWrong → ExampleOf p := by decide +kernel

/-- **C79** is false: the examples for `to_path` and `to_type` are rejected. `concat` of an identifier and other tokens gives an identifier, and neither `std::vec` nor
`Vec<u32>` is one. -/
theorem C79_false : ∀ t ∈ docWrong, (∃ r, (t, r) ∈ docCalls) ∧ Fails (c! "x = " ++ t ++ c! ",") (c! "out! { x }") .eval := by
  intro t ht
  simp only [docWrong, List.mem_cons, List.not_mem_nil, or_false] at ht
  rcases ht with rfl | rfl
  · exact ⟨⟨c! "std::vec", by decide +kernel⟩, by decide +kernel⟩
  · exact ⟨⟨c! "Vec<u32>", by decide +kernel⟩, by decide +kernel⟩

/-- Why: `concat` is an identifier as soon as its first argument is one, whatever the other arguments are. So no path or type can be put together by `concat` beginning with an
identifier, as the table does. -/
theorem C79_concat {Γ : TyEnv} {args : List Expr} {tys : List Ty} (hs : HasTypes Γ args (.ident :: tys)) (id : Nat) (raw : Option (Nat × Toks)) :
    HasType Γ (.call id (c! "concat") args raw) .ident := by
  have hrows : ∀ r ∈ reference, r.name = c! "concat" → r.out = .ident ∨ r.out = .tokens ∨ (firstTy r.params ≠ some .ident ∧ (firstTy r.params).any strict = true) := by
    decide +kernel
  have hu : ∀ r ∈ reference, r.name = c! "concat" → Takes r.params (.ident :: tys) → r.out = .ident ∨ r.out = .tokens := by
    intro r hr hn ht
    rcases hrows r hr hn with h | h | ⟨h1, h2⟩
    · exact .inl h
    · exact .inr h
    · cases h3 : firstTy r.params with
      | none => rw [h3] at h2; cases h2
      | some p =>
        rw [h3] at h1 h2
        exact absurd (takes_first ht h3 h2).symm h1
  cases tys with
  | nil =>
    exact .call id (r := ⟨c! "concat", [.variadic .ident], .ident⟩) hs (by decide +kernel) (fun h => by simp at h)
      (.many (by intro s h; simp only [List.mem_singleton] at h; rw [h]; exact .same _)) hu
  | cons t tys =>
    exact .call id (r := ⟨c! "concat", [.ident, .variadic .tokens], .ident⟩) hs (by decide +kernel) (fun h => by simp at h)
      (.one rfl (.same _) (.many fun s _ => .tokens s)) hu

/-- The same for the value of a definition. -/
theorem C79_concat_value {E : Ext} {env : Env} {order : List (Alias × VKind) → List (Alias × VKind)} {a : Alias} {id : Nat} {args : List Expr}
    {raw : Option (Nat × Toks)} {tys : List Ty} (henv : env.funcs = builtinFuncs) (hN : (ids (.call id (c! "concat") args raw)).Nodup) (ho : IsOrder order)
    (hs : HasTypes (fun _ => none) args (.ident :: tys)) {subs : Subs}
    (h : makeSubstitutions E env order [(a, .call id (c! "concat") args raw)] = .ok subs) : ∃ s, subs.get a.2 = some (.ident s) := by
  obtain ⟨v, h1, h2⟩ := (C78_values (E := E) (env := env) (order := order) (items := [(a, .call id (c! "concat") args raw)]) henv
    (by simpa [specIds, idsL] using hN) ho (.cons (C79_concat hs id raw) rfl .nil)).2 subs h (a.2, .ident) (by simp)
  cases v <;> simp [VKind.ty] at h2
  exact ⟨_, h1⟩

/-- Example: `concat(std, ::, vec)`. -/
example : HasTypes (fun _ => none) [.value 1 (.ident (c! "std")), .value 2 (.tokens [.punct ':' true, .punct ':' false]), .value 3 (.ident (c! "vec"))]
    [.ident, .tokens, .ident] :=
  .cons (.value 1 (.ident (c! "std"))) (.cons (.value 2 (.tokens _)) (.cons (.value 3 (.ident (c! "vec"))) .nil))

/-! ## Types -/

/-- The examples of the table of types, `snippets/reference_h2.md:334-340`, and those of the text, lines 6-7, 278-283. -/
def docValues : List (Str × Ty) :=
  [ (c! "foo", .ident), (c! "Result<u32, Error>", .type), (c! "foo::bar", .path), (c! "2 + 2", .expr), (c! "if c { 1 } else { 0 }", .expr),
    (c! "\"foo\"", .litStr), (c! "123", .litInt), (c! "mod foo { fn bar() -> u32 { 0 } }", .tokens), (c! "_", .ident), (c! "std::vec::Vec", .path) ]

/-- **C79**: the examples of the table of types are read as values of these types, except for one. (What is missing: `C79_type_false`.) -/
theorem C79_values_partial : ∀ p ∈ docValues, p.1 ≠ c! "Result<u32, Error>" → Parsed (p.1 ++ c! ", 42") p.1 p.2 (c! ", 42") := by decide +kernel

/-- **C79** is false: the example for `type` is a value of the type `path`, from which there is no coercion to `type`. -/
theorem C79_type_false : (c! "Result<u32, Error>", .type) ∈ docValues ∧ Parsed (c! "Result<u32, Error>, 42") (c! "Result<u32, Error>") .path (c! ", 42") ∧
    ¬ Converts .path .type :=
  ⟨by decide +kernel, by decide +kernel, fun h => by cases h⟩

/-! ## Definitions -/

/-- The definitions shown in the section about aliases, `snippets/reference_h2.md:300-326`, and what the aliases stand for. -/
def docAliases : List (Str × Str × Str) :=
  [ (c! "alias1 = foo,", c! "alias1", c! "foo"), (c! "alias2 = concat(foo, _, bar),", c! "alias2", c! "foo_bar"),
    (c! "alias3 = upper(snake_case(fooBarBaz)),", c! "alias3", c! "FOO_BAR_BAZ"),
    (c! "alias4 = concat(Result<, raw(u32,), String>),", c! "alias4", c! "Result<u32, String>"),
    (c! "alias5 = concat(my, _, fn, _, normalize(My::Enum)),", c! "alias5", c! "my_fn_My_Enum"),
    (c! "alias1 = foo, alias2 = concat(alias1, _, bar),", c! "alias1 alias2", c! "foo foo_bar") ]

/-- **C79**: the definitions of the section about aliases. -/
theorem C79_aliases : ∀ p ∈ docAliases, Gives p.1 (c! "out! { " ++ p.2.1 ++ c! " }") (c! "out! { " ++ p.2.2 ++ c! " }") := by decide +kernel

/-- The examples for `hash` show the same digits for a string and an identifier; so it is. -/
theorem C79_hash : ∃ d, (∀ c ∈ d, c.isDigit = true) ∧ ExampleOf (c! "hash(\"input\")", c! "\"" ++ d ++ c! "\"") ∧ ExampleOf (c! "hash(input)", c! "__" ++ d) :=
  ⟨c! "7903761883308571045", by decide +kernel, by decide +kernel, by decide +kernel⟩

end Verif.Props
