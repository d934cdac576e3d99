import Verif.Proofs.FaultPlaces
import Verif.Props.Failures
/-!
# What a syntax error says, and where it points (C83)

A tool which shows the error to a user shows the message and marks the token at the place. `SyntaxFault W inv w r` (`Spec/Faults`)
says what is wrong with an invocation without any parser: everything before `r` can be read, and `w` is wrong with `r`.
-/

namespace Verif.Props
open Spec

/-- **C83**: the parser reports exactly the mistake there is, at the place where it is. -/
theorem C83_diagnosis (W : World) (ids : Nat → Nat) (k : Nat) (inv : Invocation) (w : Why) (r : Toks) :
    syntaxError W.Y isBuiltin ids k inv = some (w, r) ↔ SyntaxFault W inv w r :=
  syntaxError_iff W ids k inv w r

/-- **C83**: an invocation fails with a syntax error exactly if there is a mistake, and there is never more than one to report. -/
theorem C83_reported {W : World} {hist : List (Invocation × Luck)} {inv : Invocation} {l : Luck} (hs : Scheduled W hist inv l) :
    output W hist inv l = .compileError .parse ↔ ∃ w r, SyntaxFault W inv w r ∧ ∀ w' r', SyntaxFault W inv w' r' → w' = w ∧ r' = r := by
  rw [C65_parse_iff hs]
  rcases syntax_cases W inv with ⟨a, ha, hn⟩ | ⟨w, r, h, hn, hu⟩
  · exact ⟨fun h => (h a ha).elim, fun ⟨w, r, h, _⟩ => (hn w r h).elim⟩
  · exact ⟨fun _ => ⟨w, r, h, hu⟩, fun _ => hn⟩

/-- **C83**: the reason does not depend on what the parser has done before. -/
theorem C83_stable (W : World) (ids ids' : Nat → Nat) (k k' : Nat) (inv : Invocation) :
    syntaxError W.Y isBuiltin ids k inv = syntaxError W.Y isBuiltin ids' k' inv := by
  apply Option.ext
  rintro ⟨w, r⟩
  rw [syntaxError_iff, syntaxError_iff]

/-- The arguments of an invocation. -/
def arguments : Invocation → List Toks
  | .compose ts | .composeIdents ts => [ts]
  | .composeItem attr item => [attr, item]

/-- **C83**: the error points into the input: what is left at the place is a part of one of the arguments. -/
theorem C83_place {W : World} {inv : Invocation} {w : Why} {r : Toks} (h : SyntaxFault W inv w r) :
    ∃ ts ∈ arguments inv, ∃ pre post, flat ts = pre ++ flat r ++ post := by
  have key : ∀ {ts}, flat r <:+: flat ts → ∃ pre post, flat ts = pre ++ flat r ++ post := fun ⟨p, q, h⟩ => ⟨p, q, h.symm⟩
  cases h with
  | compose h => exact ⟨_, by simp [arguments], key (inputFault_flat h)⟩
  | composeIdents h => exact ⟨_, by simp [arguments], key (inputFault_flat h)⟩
  | attr h => exact ⟨_, by simp [arguments], key (attrFault_flat h)⟩
  | item _ _ => exact ⟨r, by simp [arguments], [], [], by simp⟩

/-- **C83**: mixing separators is only reported if there are commas and semicolons. -/
theorem C83_mixed {W : World} {inv : Invocation} {r : Toks} (h : SyntaxFault W inv .mixed r) :
    ∃ ts ∈ arguments inv, (∃ j, .punct ',' j ∈ flat ts) ∧ ∃ j, .punct ';' j ∈ flat ts := by
  have key : ∀ {ts}, SepIn true ts ∧ SepIn false ts → (∃ j, .punct ',' j ∈ flat ts) ∧ ∃ j, .punct ';' j ∈ flat ts := by
    rintro ts ⟨⟨t, h1, h2⟩, t', h3, h4⟩
    cases h2
    cases h4
    exact ⟨⟨_, h1⟩, _, h3⟩
  cases h with
  | compose h => exact ⟨_, by simp [arguments], key (inputFault_mixed h)⟩
  | composeIdents h => exact ⟨_, by simp [arguments], key (inputFault_mixed h)⟩
  | attr h => exact ⟨_, by simp [arguments], key (attrFault_mixed h)⟩

/-- **C83**: five of the messages are never seen: a missing `for`, `Expected argument or function call`, `Failed to parse loop source value`,
`Expected "," or ";"` and `Failed to parse any loops`. -/
theorem C83_never_said {W : World} {inv : Invocation} {w : Why} {r : Toks} (h : SyntaxFault W inv w r) :
    w ≠ .kwFor ∧ w ≠ .value ∧ w ≠ .loopValue ∧ w ≠ .expectedSep ∧ w ≠ .noLoops := by
  cases h with
  | compose h => exact inputFault_said h
  | composeIdents h => exact inputFault_said h
  | attr h => exact attrFault_said h
  | item _ _ => simp

/-- **C83**: different reasons have different texts, so that a message tells the reason. -/
theorem C83_distinct {w w' : Why} {t : Str} (h : w.text = some t) (h' : w'.text = some t) : w' = w := by
  have hm : ∀ {w : Why} {t : Str}, w.text = some t → w ∈ [Why.mixed, .loopAlias, .loopValue, .value, .separator, .expectedSep, .noLoops, .loopsSep] := by
    intro w t h
    cases w <;> first | (cases h; done) | simp
  have hd : ∀ w ∈ [Why.mixed, .loopAlias, .loopValue, .value, .separator, .expectedSep, .noLoops, .loopsSep],
      ∀ w' ∈ [Why.mixed, .loopAlias, .loopValue, .value, .separator, .expectedSep, .noLoops, .loopsSep], w.text = w'.text → w' = w := by decide +kernel
  exact hd w (hm h) w' (hm h') (h.trans h'.symm)

/-- **C83**: so the crate has four messages of its own, each for one reason; for the others the text is that of `syn`. -/
theorem C83_words {W : World} {inv : Invocation} {w : Why} {r : Toks} (h : SyntaxFault W inv w r) :
    w.text = match w with
      | .mixed => some c! "Mixing \",\" and \";\" as separators is not allowed"
      | .loopAlias => some c! "Failed to parse loop alias (see errors below)"
      | .separator => some c! "Unable to parse any of the combined tokens (see the errors below)"
      | .loopsSep => some c! "Trailing separator after loops is not allowed in #[compose_item]."
      | _ => none := by
  obtain ⟨h1, h2, h3, h4, h5⟩ := C83_never_said h
  cases w <;> first | rfl | contradiction

/-! ## All the others are -/

/-- The world of the examples, without any block that can be parsed. -/
def noBlocks : World := { demoWorld with Y := { demoWorld.Y with parseBlock := fun _ => none } }

/-- `[…]` -/
def square (ts : Toks) : Tok := .group .bracket ts

/-- `a = x, b = upper(y); {}` at the block -/
example : SyntaxFault demoWorld (.compose [id' "a", eq', id' "x", comma, id' "b", eq', id' "upper", paren [id' "y"], semi, brace []]) .mixed [brace []] :=
  (C83_diagnosis _ (fun k => k) 0 _ _ _).mp (by decide +kernel)
/-- `a = x, {};` at the end -/
example : SyntaxFault demoWorld (.compose [id' "a", eq', id' "x", comma, brace [], semi]) .mixed [] :=
  (C83_diagnosis _ (fun k => k) 0 _ _ _).mp (by decide +kernel)
/-- `a x, {}` at the `x` -/
example : SyntaxFault demoWorld (.compose [id' "a", id' "x", comma, brace []]) .equals [id' "x", comma, brace []] :=
  (C83_diagnosis _ (fun k => k) 0 _ _ _).mp (by decide +kernel)
/-- `a = upper(x) y, {}` at the `y` -/
example : SyntaxFault demoWorld (.compose [id' "a", eq', id' "upper", paren [id' "x"], id' "y", comma, brace []]) .separator [id' "y", comma, brace []] :=
  (C83_diagnosis _ (fun k => k) 0 _ _ _).mp (by decide +kernel)
/-- `a = x,` at the end -/
example : SyntaxFault demoWorld (.compose [id' "a", eq', id' "x", comma]) .braces [] :=
  (C83_diagnosis _ (fun k => k) 0 _ _ _).mp (by decide +kernel)
/-- `a = x, {} y` at the `y` -/
example : SyntaxFault demoWorld (.compose [id' "a", eq', id' "x", comma, brace [], id' "y"]) .leftOver [id' "y"] :=
  (C83_diagnosis _ (fun k => k) 0 _ _ _).mp (by decide +kernel)
/-- `{ x }` at the `x`, if there is something wrong with it -/
example : SyntaxFault noBlocks (.compose [brace [id' "x"]]) .block [id' "x"] :=
  (C83_diagnosis _ (fun k => k) 0 _ _ _).mp (by decide +kernel)
/-- `for in [] {}` at the `in` -/
example : SyntaxFault demoWorld (.compose [id' "for", id' "in", square [], brace []]) .name [id' "in", square [], brace []] :=
  (C83_diagnosis _ (fun k => k) 0 _ _ _).mp (by decide +kernel)
/-- `for (x y) in [] {}` at the `(` -/
example : SyntaxFault demoWorld (.compose [id' "for", paren [id' "x", id' "y"], id' "in", square [], brace []]) .loopAlias
    [paren [id' "x", id' "y"], id' "in", square [], brace []] :=
  (C83_diagnosis _ (fun k => k) 0 _ _ _).mp (by decide +kernel)
/-- `for x [] {}` at the `[` -/
example : SyntaxFault demoWorld (.compose [id' "for", id' "x", square [], brace []]) .kwIn [square [], brace []] :=
  (C83_diagnosis _ (fun k => k) 0 _ _ _).mp (by decide +kernel)
/-- `for x in {}` at the `{` -/
example : SyntaxFault demoWorld (.compose [id' "for", id' "x", id' "in", brace []]) .brackets [brace []] :=
  (C83_diagnosis _ (fun k => k) 0 _ _ _).mp (by decide +kernel)
/-- `for x in [upper(a) b] {}` at the `b`, inside the brackets -/
example : SyntaxFault demoWorld (.compose [id' "for", id' "x", id' "in", square [id' "upper", paren [id' "a"], id' "b"], brace []]) .comma [id' "b"] :=
  (C83_diagnosis _ (fun k => k) 0 _ _ _).mp (by decide +kernel)
/-- `#[compose_item(for x in [a],)]` at the comma -/
example : SyntaxFault demoWorld (.composeItem [id' "for", id' "x", id' "in", square [id' "a"], comma] []) .loopsSep [comma] :=
  (C83_diagnosis _ (fun k => k) 0 _ _ _).mp (by decide +kernel)
/-- `#[compose_item(a = x)]` on something that is not a block -/
example : SyntaxFault noBlocks (.composeItem [id' "a", eq', id' "x"] [id' "y"]) .block [id' "y"] :=
  (C83_diagnosis _ (fun k => k) 0 _ _ _).mp (by decide +kernel)

/-- `a = x; {}` is reported as a missing block, at the end: the block has become a part of the value. -/
example : SyntaxFault demoWorld (.compose [id' "a", eq', id' "x", semi, brace []]) .braces [] :=
  (C83_diagnosis _ (fun k => k) 0 _ _ _).mp (by decide +kernel)

/-- `for x in [a] b = x, {}` is read: nothing to report. -/
example : syntaxError demoWorld.Y isBuiltin (fun k => k) 0
    (.compose [id' "for", id' "x", id' "in", square [id' "a"], id' "b", eq', id' "x", comma, brace []]) = none := by decide +kernel

example : Scheduled demoWorld [] (.compose [id' "a", eq', id' "x", comma, brace [], semi]) (demoLuck 2 1) ∧
    output demoWorld [] (.compose [id' "a", eq', id' "x", comma, brace [], semi]) (demoLuck 2 1) = .compileError .parse :=
  ⟨demo_scheduled _ _ (by decide +kernel), by decide +kernel⟩

end Verif.Props
