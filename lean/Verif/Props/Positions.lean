import Verif.Props.Commas
import Verif.Lite.Findings
/-!
# C86: a value is read in the same way wherever it stands

Values stand in three places: in a definition, in the list of a loop, and as an argument of a call.
-/

namespace Verif.Props
open Verif Spec

section
variable {Y : Syn} (h1 : StopsBeforeComma Y.path) (h2 : StopsBeforeComma Y.type) (h3 : StopsBeforeComma Y.expr)

variable {known : Str → Bool}

include h1 h2 h3 in
/-- **C86**: what is read as `e` before a comma is read as `e` if it stands alone. -/
theorem C86_alone {v : Toks} {j : Bool} {r : Toks} {e : Expr} (h : ReadsExpr known Y (v ++ .punct ',' j :: r) e (.punct ',' j :: r)) :
    ReadsExpr known Y v e [] :=
  expr_alone h1 h2 h3 h

include h1 h2 h3 in
/-- **C86** (partial: if the value ends at the same place; see `C86_false`): the same tokens before a comma are read in the same way, whatever comes after
the comma; and in the same way as at the end. -/
theorem C86_context_partial {v : Toks} {j : Bool} {r : Toks} {e : Expr} (h : ReadsExpr known Y (v ++ .punct ',' j :: r) e (.punct ',' j :: r)) :
    (∀ j' r' e', ReadsExpr known Y (v ++ .punct ',' j' :: r') e' (.punct ',' j' :: r') → e'.erase = e.erase) ∧
    ∀ e', ReadsExpr known Y v e' [] → e'.erase = e.erase := by
  have ha := C86_alone h1 h2 h3 h
  refine ⟨fun j' r' e' h' => ?_, fun e' h' => ?_⟩
  · exact ((parseE_exact Y known (fun x => x) _).unique (Nat.le_refl _) ha (C86_alone h1 h2 h3 h')).2
  · exact ((parseE_exact Y known (fun x => x) _).unique (Nat.le_refl _) ha h').2

include h1 h2 h3 in
/-- **C86** (partial: the value does not begin with parentheses, and ends at the same place): an element of the list of a loop is read as in a definition. -/
theorem C86_loop_partial {v : Toks} {j : Bool} {r : Toks} {e : Expr} (h : ReadsExpr known Y (v ++ .punct ',' j :: r) e (.punct ',' j :: r))
    (hp : ∀ c s, ¬ First v (.group .paren c) s) {x : PLoopElem Expr}
    (hx : ReadsElem (ReadsExpr known Y) v x [] ∨ ∃ j' r', ReadsElem (ReadsExpr known Y) (v ++ .punct ',' j' :: r') x (.punct ',' j' :: r')) :
    ∃ e', x = .simple e' ∧ e'.erase = e.erase := by
  rcases hx with hx | ⟨j', r', hx⟩
  · cases hx with
    | tuple id hp' => exact (hp _ _ hp').elim
    | simple hn hx => exact ⟨_, rfl, (C86_context_partial h1 h2 h3 h).2 _ hx⟩
  · cases hx with
    | tuple id hp' =>
      obtain ⟨s, -, g⟩ := first_comma hp' (by simp)
      exact (hp _ _ g).elim
    | simple hn hx => exact ⟨_, rfl, (C86_context_partial h1 h2 h3 h).1 _ _ _ hx⟩

include h1 h2 h3 in
/-- **C86**, exact for arguments: what is the value of a definition is, between the parentheses of a call, one argument with the same meaning if and only if
it has no comma of its own (outside of brackets). -/
theorem C86_exact {v : Toks} {j : Bool} {r : Toks} {e : Expr} (h : ReadsExpr known Y (v ++ .punct ',' j :: r) e (.punct ',' j :: r)) (hne : v ≠ [])
    (hlast : ∀ j, v.getLast? ≠ some (.punct ',' j)) {ts rest : Toks} {f : Str} (hc : CallAt known ts f v rest) :
    (∃ id rid e', ReadsExpr known Y ts (.call id f [e'] (some (rid, v))) rest ∧ e'.erase = e.erase) ↔ ∀ j, .punct ',' j ∉ v := by
  constructor
  · rintro ⟨id, rid, e', hx, -⟩ i hi
    cases hx with
    | call id rid h' ha =>
      -- there are at least two pieces
      have key : ∀ v : Toks, .punct ',' i ∈ v → (∀ j, v.getLast? ≠ some (.punct ',' j)) → 2 ≤ (pieces v).length := by
        intro v
        induction v with
        | nil => intro h; cases h
        | cons t v ih =>
          intro hi hl
          by_cases ht : ∃ j, t = .punct ',' j
          · obtain ⟨j, rfl⟩ := ht
            cases v with
            | nil => exact (hl j rfl).elim
            | cons s v =>
              simp only [pieces, List.length_cons]
              have := pieces_cons (s :: v) (by simp)
              rw [this]
              simp
          · have ht' : ∀ j, t ≠ .punct ',' j := fun j e => ht ⟨j, e⟩
            rw [pieces_notComma ht']
            have hi : .punct ',' i ∈ v := by
              rcases List.mem_cons.1 hi with h | h
              · exact (ht' i h.symm).elim
              · exact h
            have := ih hi (by
              cases v with
              | nil => cases hi
              | cons s v => intro j hj; exact hl j (by rw [List.getLast?_cons_cons]; exact hj))
            split
            · rename_i h0; rw [h0] at this; simp at this
            · rename_i h0; rw [h0] at this; simpa using this
      have := key v hi hlast
      generalize pieces v = ps at this ha
      cases ha with
      | cons _ hs => cases hs with | nil => simp at this
  · intro hv
    have ha := C86_alone h1 h2 h3 h
    refine ⟨0, 0, e, .call 0 0 hc ?_, rfl⟩
    rw [pieces_piece hne hv]
    exact .cons ha .nil
end

/-- **C86**, full statement, which is false: `Result<u32, E>` is one value in a definition and in a list, but two arguments of a call; parentheses make a
tuple in the list of a loop, but not in a definition. -/
theorem C86_false :
    Lite.Expands (Lite.compose c! "T = Result<u32, E>, { type X = T; }") (c! "type X = Result<u32, E>;") ∧
    Lite.Expands (Lite.compose c! "for T in [Result<u32, E>] { type X = T; }") (c! "type X = Result<u32, E>;") ∧
    Lite.Rejected (Lite.compose c! "T = to_path(Result<u32, E>), { type X = T; }")
      (.signature (c! "to_path(tokens) -> path")
        [.str c! "to_path", .str c! "(", .toks (Lite.toks c! "Result<u32"), .str c! ", ", .toks (Lite.toks c! "E>"), .str c! ")"]) ∧
    Lite.Expands (Lite.compose c! "T = to_path(Result<u32>), { type X = T; }") (c! "type X = Result<u32>;") ∧
    Lite.Expands (Lite.compose c! "T = (u8, u16), { type X = T; }") (c! "type X = (u8, u16);") ∧
    Lite.Rejected (Lite.compose c! "for T in [(u8, u16)] { type X = T; }") (.typeError .loopKind) := by
  refine ⟨?_, ?_, ?_, ?_, ?_, ?_⟩ <;> decide +kernel

/-- The value `a::b` of a definition, before `, { … }`; in `lower(a::b)` it is one argument. -/
example : ReadsExpr demoKnown Syn.demo ([id' "a", .punct ':' true, .punct ':' false, id' "b"] ++ .punct ',' false :: [brace []])
      (.value 0 (.path [id' "a", .punct ':' true, .punct ':' false, id' "b"])) (.punct ',' false :: [brace []]) ∧
    CallAt demoKnown [id' "lower", paren [id' "a", .punct ':' true, .punct ':' false, id' "b"]] (S "lower")
      [id' "a", .punct ':' true, .punct ':' false, id' "b"] [] ∧
    (∀ c s, ¬ First [id' "a", .punct ':' true, .punct ':' false, id' "b"] (.group .paren c) s) ∧
    StopsBeforeComma Syn.demo.path ∧ StopsBeforeComma Syn.demo.type ∧ StopsBeforeComma Syn.demo.expr := by
  refine ⟨?_, .mk (.here (by simp [id'])) (by decide +kernel) (by decide +kernel) (.here (by simp [paren])), fun c s h => ?_,
    demoPath_stops, demoPath_stops, demoExpr_stops⟩
  · rcases (parseE_ok Syn.demo demoKnown (fun k => k) ([id' "a", .punct ':' true, .punct ':' false, id' "b"] ++ .punct ',' false :: [brace []]) 0).cases
      with ⟨e, r, k', h1, g⟩ | ⟨_, _, _, h⟩
    · cases h1.symm.trans (rfl : parseE Syn.demo demoKnown (fun k => k) _ 0 = _)
      exact g.reads
    · exact h.elim
  · cases h

end Verif.Props
