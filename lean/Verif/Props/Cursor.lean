import Verif.Proofs.Cursor
/-!
# Property C91: how the tokens of a value are counted
-/

namespace Verif.Props
open Verif Spec

variable {buf : List Entry} {c c' : Cursor} {ts ts' rest : Toks}

/-- **C91**: the distance of two cursors in the same group is the number of tokens, at any depth, that the first one has in front of it and the second one
has not. It does not matter in which order they are given. -/
theorem C91_distance (h : Sees buf c ts) (h' : Sees buf c' ts') (hs : c'.scope = c.scope) (hl : (flat ts').length ≤ (flat ts).length) :
    tokenDistance buf c c' + (flat ts').length = (flat ts).length ∧ tokenDistance buf c' c = tokenDistance buf c c' :=
  distance_sees h h' hs hl

/-- **C91**: when a value has been read, the distance from the cursor before it to the one after it is the number of its tokens. So the readings compared
by `TerminatedValue` (C44) are compared by their tokens. -/
theorem C91_value {Y : Syn} {i : Nat} {v : VKind} {used : Toks} (h : Sees buf c ts) (hr : ReadsAs Y i ts v used rest) (h' : Sees buf c' rest)
    (hs : c'.scope = c.scope) : tokenDistance buf c c' = (flat used).length := by
  have hf := readsAs_tokens hr
  have hl : (flat ts).length = (flat used).length + (flat rest).length := by rw [hf, List.length_append]
  have := (C91_distance h h' hs (by omega)).1
  omega

/-- **C91**: cursors stand where they should. The first cursor sees the whole input; token by token, the cursor moves on, also out of groups without
delimiters; from a group one comes to its contents, and to what follows it. -/
theorem C91_cursors :
    Sees (bufferOf ts) (Cursor.begin (bufferOf ts)) ts ∧
    (∀ t, Sees buf c (t :: ts) → ∃ c', c.tokenTree buf = some c' ∧ c'.scope = c.scope ∧ Sees buf c' ts) ∧
    (∀ d us, Sees buf c (.group d us :: ts) → ∃ i a, c.anyGroup buf = some (i, a) ∧ Sees buf i us ∧ a.scope = c.scope ∧ Sees buf a ts) ∧
    (∀ t, (∀ d us, t ≠ .group d us) → Sees buf c ts → First ts t rest → ∃ c', c.token buf = some (t, c') ∧ c'.scope = c.scope ∧ Sees buf c' rest) ∧
    (Sees buf c [] → c.tokenTree buf = none ∧ c.anyGroup buf = none) :=
  ⟨begin_sees ts, fun _ h => tokenTree_sees h, fun _ _ h => anyGroup_sees h, fun _ ht h hf => token_sees h hf ht, tokenTree_end⟩

/-- **C91**: and so, for every input, there are cursors before and behind every piece of it, and their distance is the number of tokens of the piece. -/
theorem C91_pieces (pre used rest : Toks) :
    ∃ c c', Sees (bufferOf (pre ++ used ++ rest)) c (used ++ rest) ∧ Sees (bufferOf (pre ++ used ++ rest)) c' rest ∧ c'.scope = c.scope ∧
      tokenDistance (bufferOf (pre ++ used ++ rest)) c c' = (flat used).length := by
  have walk : ∀ (us ts : Toks) (buf : List Entry) (c : Cursor), Sees buf c (us ++ ts) → ∃ c', c'.scope = c.scope ∧ Sees buf c' ts := by
    intro us
    induction us with
    | nil => intro ts buf c h; exact ⟨c, rfl, h⟩
    | cons u us ih =>
      intro ts buf c h
      obtain ⟨c1, -, h1, h2⟩ := tokenTree_sees h
      obtain ⟨c2, h3, h4⟩ := ih ts buf c1 h2
      exact ⟨c2, by rw [h3, h1], h4⟩
  obtain ⟨c, -, hc⟩ := walk pre (used ++ rest) _ _ (by simpa using begin_sees (pre ++ used ++ rest))
  obtain ⟨c', hs, hc'⟩ := walk used rest _ c hc
  refine ⟨c, c', by simpa using hc, by simpa using hc', hs, ?_⟩
  have := (C91_distance hc hc' hs (by rw [flat_append]; simp)).1
  rw [flat_append, List.length_append] at this
  simp only [← List.append_assoc] at this
  omega

/-- The tests of the repository, `src/util/token_distance.rs:72-99`, and a group without delimiters that has been entered: `a + (b * c) - d`, from the first
token to `-`, from `b` to the end of the parentheses, and from the last one back to the first; `⟦x y⟧ z` from `x` to `y`, and to the end. -/
example :
    let buf := bufferOf [.ident c! "a", .punct '+' false, .group .paren [.ident c! "b", .punct '*' false, .ident c! "c"], .punct '-' false, .ident c! "d"]
    tokenDistance buf ⟨0, 9⟩ ⟨7, 9⟩ = 5 ∧ tokenDistance buf ⟨3, 6⟩ ⟨6, 6⟩ = 3 ∧ tokenDistance buf ⟨8, 9⟩ ⟨0, 9⟩ = 6 := by
  decide +kernel

example :
    let buf := bufferOf [.group .none [.ident c! "x", .ident c! "y"], .ident c! "z"]
    Cursor.begin buf = ⟨0, 5⟩ ∧ ((Cursor.begin buf).token buf).map (·.2) = some ⟨2, 5⟩ ∧ ((⟨2, 5⟩ : Cursor).token buf).map (·.2) = some ⟨4, 5⟩ ∧
    tokenDistance buf ⟨0, 5⟩ ⟨2, 5⟩ = 1 ∧ tokenDistance buf ⟨2, 5⟩ ⟨5, 5⟩ = 2 := by
  decide +kernel

/-- The cursor in the group without delimiters sees the rest of it and what follows it. -/
example : Sees (bufferOf [.group .none [.ident c! "x", .ident c! "y"], .ident c! "z"]) ⟨2, 5⟩ [.ident c! "y", .ident c! "z"] :=
  ⟨[.group .none 2, .leaf (.ident c! "x")], [[.ident c! "y"], [.ident c! "z"]], [], rfl, rfl, rfl, rfl, by rintro _ ⟨⟩⟩

end Verif.Props
