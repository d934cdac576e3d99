import Verif.Props.Failures
/-!
# Exact conditions: the two forms of an invocation (C46)
-/

namespace Verif.Props
open Verif Spec

/-- **C46**, exactly: `compose!(defs { item })` and `#[compose_item(defs)] item` have the same output (under the hypotheses of
`C46_expansion_partial`) in two cases only: there is a separator after each definition, or `#[compose_item(defs)] item` cannot be read
either. Otherwise the first is rejected for its syntax, while the second is read. -/
theorem C46_exact {W : World} (h1 : StopsAtSep W.Y.path) (h2 : StopsAtSep W.Y.type) (h3 : StopsAtSep W.Y.expr) {x b : Toks}
    (hx : Solid x) {hist : List (Invocation × Luck)} {l l' : Luck} (hs : Scheduled W hist (.compose (x ++ [.group .brace b])) l)
    (hs' : Scheduled W hist (.composeItem x b) l') (hi : l.ids 0 = l'.ids 0)
    (hw : hist ≠ [] ∨ ∀ a, Reads W (.composeItem x b) a → withSemicolons a.spec = false) :
    (output W hist (.compose (x ++ [.group .brace b])) l = output W hist (.composeItem x b) l' ↔
      (∃ h, ReadsClosed isBuiltin W.Y x h []) ∨ ∀ a, ¬ Reads W (.composeItem x b) a) ∧
    ((∀ h, ¬ ReadsClosed isBuiltin W.Y x h []) → output W hist (.compose (x ++ [.group .brace b])) l = .compileError .parse) := by
  have hno : (∀ h, ¬ ReadsClosed isBuiltin W.Y x h []) → output W hist (.compose (x ++ [.group .brace b])) l = .compileError .parse :=
    fun hc => output_unread hs fun a ha => hc _ ((readsInput_attr h1 h2 h3 hx).mp ha).1
  refine ⟨⟨fun h => ?_, ?_⟩, hno⟩
  · by_cases hc : ∃ h, ReadsClosed isBuiltin W.Y x h []
    · exact .inl hc
    · rw [hno fun h hh => hc ⟨h, hh⟩] at h
      exact .inr ((C65_parse_iff hs').1 h.symm)
  · rintro (hc | hr)
    · exact C46_expansion_partial h1 h2 h3 hx hc hs hs' hi hw
    · by_cases hc : ∃ h, ReadsClosed isBuiltin W.Y x h []
      · exact C46_expansion_partial h1 h2 h3 hx hc hs hs' hi hw
      · rw [hno fun h hh => hc ⟨h, hh⟩, output_unread hs' hr]

/-- Both cases occur: `for x in [a, b] y = concat(x, 1),` and `a = x`, whose separator is missing. -/
example : Scheduled demoWorld [] (.compose demoLoop) (demoLuck 2 1) ∧
    output demoWorld [] (.compose demoLoop) (demoLuck 2 1) =
      output demoWorld [] (.composeItem demoLoop.dropLast [id' "struct", id' "y", brace []]) (demoLuck 2 1) ∧
    Scheduled demoWorld [] (.composeItem [id' "a", eq', id' "x"] [id' "struct", id' "a", brace []]) (demoLuck 2 1) ∧
    output demoWorld [] (.composeItem [id' "a", eq', id' "x"] [id' "struct", id' "a", brace []]) (demoLuck 2 1) =
      .tokens [id' "struct", id' "x", brace []] ∧
    output demoWorld [] (.compose [id' "a", eq', id' "x", brace [id' "struct", id' "a", brace []]]) (demoLuck 2 1) = .compileError .parse :=
  ⟨demo_scheduled _ _ (by decide +kernel), by decide +kernel, demo_scheduled _ _ (by decide +kernel), by decide +kernel, by decide +kernel⟩

end Verif.Props
