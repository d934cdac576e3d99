import Verif.Proofs.Reports
import Verif.Props.Diagnose
/-!
# A syntax error shows everything that was tried (C87)

`Messages w r rs` (`Spec/Reports`) are the messages for the mistake `w` at `r`. The text of each one is that of `Why.text` (or one of `syn`).
-/

namespace Verif.Props
open Spec

/-- **C87**: the messages of the error are those for the mistake there is, in this order and at these places. -/
theorem C87_reports (W : World) (ids : Nat → Nat) (k : Nat) (inv : Invocation) (rs : List Report) :
    reports W.Y isBuiltin ids k inv = some rs ↔ ∃ w r, SyntaxFault W inv w r ∧ Messages w r rs :=
  reports_iff ids

/-- **C87**: every mistake has its messages: `combine_errors` is never called without an error, where it would panic. -/
theorem C87_never_empty {W : World} (ids : Nat → Nat) (k : Nat) {inv : Invocation} {w : Why} {r : Toks} (h : SyntaxFault W inv w r) :
    ∃ rs, reports W.Y isBuiltin ids k inv = some rs ∧ rs ≠ [] := by
  obtain ⟨rs, hm⟩ := messages_exist (syntaxFault_place h)
  refine ⟨rs, reports_of ids h hm, ?_⟩
  cases hm <;> simp

/-- **C87**: an invocation fails with a syntax error exactly if there are messages. -/
theorem C87_reported {W : World} {hist : List (Invocation × Luck)} {inv : Invocation} {l : Luck} (hs : Scheduled W hist inv l) (ids : Nat → Nat) (k : Nat) :
    output W hist inv l = .compileError .parse ↔ ∃ rs, reports W.Y isBuiltin ids k inv = some rs := by
  rw [C83_reported hs]
  constructor
  · rintro ⟨w, r, h, -⟩
    obtain ⟨rs, hr, -⟩ := C87_never_empty ids k h
    exact ⟨rs, hr⟩
  · rintro ⟨rs, hr⟩
    obtain ⟨w, r, h, -⟩ := (C87_reports W ids k inv rs).1 hr
    refine ⟨w, r, h, fun w' r' h' => ?_⟩
    have e := ((C83_diagnosis W ids k inv w r).2 h).symm.trans ((C83_diagnosis W ids k inv w' r').2 h')
    cases e
    exact ⟨rfl, rfl⟩

/-- **C87**: the first message is the mistake of C83. -/
theorem C87_first {W : World} {ids : Nat → Nat} {k : Nat} {inv : Invocation} {rs : List Report} (h : reports W.Y isBuiltin ids k inv = some rs) :
    syntaxError W.Y isBuiltin ids k inv = rs.head? := by
  obtain ⟨w, r, h, hm⟩ := (C87_reports W ids k inv rs).1 h
  rw [(C83_diagnosis W ids k inv w r).2 h]
  cases hm <;> rfl

/-- **C87**: all the messages point into the input. -/
theorem C87_places {W : World} {ids : Nat → Nat} {k : Nat} {inv : Invocation} {rs : List Report} (h : reports W.Y isBuiltin ids k inv = some rs) :
    ∃ ts ∈ arguments inv, ∀ m ∈ rs, ∃ pre post, flat ts = pre ++ flat m.2 ++ post := by
  obtain ⟨w, r, h, hm⟩ := (C87_reports W ids k inv rs).1 h
  obtain ⟨ts, hts, hp⟩ := C83_place h
  have key : ∀ {p}, flat p <:+: flat r → ∃ pre post, flat ts = pre ++ flat p ++ post := by
    rintro p ⟨a, b, h⟩
    obtain ⟨c, d, hp⟩ := hp
    exact ⟨c ++ a, b ++ d, by rw [hp, ← h]; simp⟩
  refine ⟨ts, hts, ?_⟩
  cases hm with
  | one => simpa using hp
  | alias hf ht =>
    have h1 := key ((tupleFault_flat ht).trans (first_group_flat hf))
    simp only [List.forall_mem_cons, List.not_mem_nil, false_implies, implies_true, and_true]
    exact ⟨hp, h1, hp⟩
  | separator => simpa using hp

/-- **C87**: there are several messages for a tuple of names and for a missing separator only; then there are three. -/
theorem C87_several {W : World} {ids : Nat → Nat} {k : Nat} {inv : Invocation} {w : Why} {r : Toks} {rs : List Report}
    (h : reports W.Y isBuiltin ids k inv = some ((w, r) :: rs)) :
    (w = .loopAlias ∧ ∃ c r' p, First r (.group .paren c) r' ∧ flat p <:+: flat c ∧
      (rs = [(.name, p), (.name, r)] ∨ rs = [(.comma, p), (.name, r)])) ∨
    (w = .separator ∧ rs = [(.comma, r), (.semicolon, r)]) ∨
    (w ≠ .loopAlias ∧ w ≠ .separator ∧ rs = []) := by
  obtain ⟨w', r', h, hm⟩ := (C87_reports W ids k inv _).1 h
  cases hm with
  | one h1 h2 => exact .inr (.inr ⟨h1, h2, rfl⟩)
  | alias hf ht =>
    refine .inl ⟨rfl, _, _, _, hf, tupleFault_flat ht, ?_⟩
    rcases tupleFault_why ht with rfl | rfl
    · exact .inl rfl
    · exact .inr rfl
  | separator => exact .inr (.inl ⟨rfl, rfl⟩)

/-- **C87**: the messages do not depend on what the parser has done before. -/
theorem C87_stable (W : World) (ids ids' : Nat → Nat) (k k' : Nat) (inv : Invocation) :
    reports W.Y isBuiltin ids k inv = reports W.Y isBuiltin ids' k' inv := by
  apply Option.ext
  intro rs
  rw [C87_reports, C87_reports]

/-- **C87**: `combine_errors` itself: it panics without an error only, passes on a single one, and keeps all messages of several in order, after one of its
own. -/
theorem C87_combined (w : Why) (p : Toks) (es : List (List Report)) :
    (combineErrors w p es = none ↔ es = []) ∧ (∀ e, es = [e] → combineErrors w p es = some e) ∧
    (2 ≤ es.length → combineErrors w p es = some ((w, p) :: es.flatten)) := by
  match es with
  | [] => simp [combineErrors]
  | [e] => simp [combineErrors]
  | e :: e' :: es => simp [combineErrors]

/-- A single error, and two of them. -/
example : combineErrors .loopAlias [] [[(.name, [])]] = some [(.name, [])] ∧
    combineErrors .loopAlias [] [[(.comma, [])], [(.name, [])]] = some [(.loopAlias, []), (.comma, []), (.name, [])] := by decide

/-! ## Some errors -/

/-- `for (x y) in [] {}`: what is wrong with the loop alias, a comma is missing at the `y`, and a name at the `(`. -/
example : reports demoWorld.Y isBuiltin (fun k => k) 0 (.compose [id' "for", paren [id' "x", id' "y"], id' "in", square [], brace []]) =
    some [(.loopAlias, [paren [id' "x", id' "y"], id' "in", square [], brace []]), (.comma, [id' "y"]),
      (.name, [paren [id' "x", id' "y"], id' "in", square [], brace []])] := by decide +kernel

/-- `for (x, (y, for)) in [] {}`: the second message points to the `for` in the inner tuple. -/
example : reports demoWorld.Y isBuiltin (fun k => k) 0
    (.compose [id' "for", paren [id' "x", comma, paren [id' "y", comma, id' "for"]], id' "in", square [], brace []]) =
    some [(.loopAlias, [paren [id' "x", comma, paren [id' "y", comma, id' "for"]], id' "in", square [], brace []]), (.name, [id' "for"]),
      (.name, [paren [id' "x", comma, paren [id' "y", comma, id' "for"]], id' "in", square [], brace []])] := by decide +kernel

/-- `for in [] {}`: one message. -/
example : reports demoWorld.Y isBuiltin (fun k => k) 0 (.compose [id' "for", id' "in", square [], brace []]) =
    some [(.name, [id' "in", square [], brace []])] := by decide +kernel

/-- `a = upper(x) y, {}`: neither a comma nor a semicolon at the `y`. -/
example : reports demoWorld.Y isBuiltin (fun k => k) 0 (.compose [id' "a", eq', id' "upper", paren [id' "x"], id' "y", comma, brace []]) =
    some [(.separator, [id' "y", comma, brace []]), (.comma, [id' "y", comma, brace []]), (.semicolon, [id' "y", comma, brace []])] := by decide +kernel

/-- `a = x, {}`: nothing to report. -/
example : reports demoWorld.Y isBuiltin (fun k => k) 0 (.compose [id' "a", eq', id' "x", comma, brace []]) = none := by decide +kernel

/-- The hypotheses of `C87_several` and `C87_places` hold for the first of them. -/
example : ∃ ts ∈ arguments (.compose [id' "for", paren [id' "x", id' "y"], id' "in", square [], brace []]),
    ∃ pre post, flat ts = pre ++ flat [id' "y"] ++ post := by
  obtain ⟨ts, h, hp⟩ := C87_places (W := demoWorld) (ids := fun k => k) (k := 0)
    (inv := .compose [id' "for", paren [id' "x", id' "y"], id' "in", square [], brace []]) rfl
  exact ⟨ts, h, hp (.comma, [id' "y"]) (by simp)⟩

end Verif.Props
