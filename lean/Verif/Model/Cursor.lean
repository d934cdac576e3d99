import Verif.Model.Basic
/-!
# Cursors and `token_distance` (`src/util/token_distance.rs`)

`Model/Parse` counts the tokens of what was read (`leafCount`). The code counts them in the buffer of `syn`, between two cursors; this is modelled here.
-/

namespace Verif

/-- An entry of `syn::buffer::TokenBuffer`, where token trees are laid out one after the other. A group is followed by its contents and by an entry that
marks its end; the group has the offset of that entry, one less of which is stored here, so that it cannot be 0. (`syn` is outside of the repository.
Simplification: the offset of an `End`, which leads back to the start of the buffer and tells buffers apart, is left out; the cursors that are compared
in `src/parse/value.rs:17` are in the same buffer.) -/
inductive Entry
  | group (d : Delim) (n : Nat)
  | leaf (t : Tok)
  | end_
  deriving Repr

/-- Whether an entry marks the end of a group. -/
def Entry.isEnd : Entry → Bool
  | .end_ => true
  | _ => false

mutual
/-- `TokenBuffer::recursive_new` of `syn`: the entries of a token tree. -/
def Tok.entries : Tok → List Entry
  | .group d ts => .group d (toksEntries ts).length :: toksEntries ts ++ [.end_]
  | .ident n => [.leaf (.ident n)]
  | .punct c j => [.leaf (.punct c j)]
  | .lit l => [.leaf (.lit l)]
def toksEntries : Toks → List Entry
  | [] => []
  | t :: ts => t.entries ++ toksEntries ts
end

/-- `TokenBuffer::new2` of `syn`. -/
def bufferOf (ts : Toks) : List Entry := toksEntries ts ++ [.end_]

/-- `syn::buffer::Cursor`: a position in the buffer, and the position of the end of the group it is in. -/
structure Cursor where
  ptr : Nat
  scope : Nat
  deriving Repr, DecidableEq

/-- `Cursor::create` of `syn`: ends of groups are skipped, except for that of the group the cursor is in. -/
def Cursor.create (buf : List Entry) (ptr scope : Nat) : Cursor :=
  if h : ptr < buf.length then
    if buf[ptr].isEnd && ptr != scope then Cursor.create buf (ptr + 1) scope else ⟨ptr, scope⟩
  else ⟨ptr, scope⟩
termination_by buf.length - ptr

/-- `TokenBuffer::begin` of `syn`. -/
def Cursor.begin (buf : List Entry) : Cursor := Cursor.create buf 0 (buf.length - 1)

/-- `Cursor::any_group` of `syn`: the cursors inside of the group and after it. -/
def Cursor.anyGroup (buf : List Entry) (c : Cursor) : Option (Cursor × Cursor) :=
  match buf[c.ptr]? with
  | some (.group _ n) => some (Cursor.create buf (c.ptr + 1) (c.ptr + (n + 1)), Cursor.create buf (c.ptr + (n + 1)) c.scope)
  | _ => none

/-- `Cursor::token_tree` of `syn`: the cursor after the next token tree. (The token tree itself is not looked at.) -/
def Cursor.tokenTree (buf : List Entry) (c : Cursor) : Option Cursor :=
  match buf[c.ptr]? with
  | some (.group _ n) => some (Cursor.create buf (c.ptr + (n + 1)) c.scope)
  | some (.leaf _) => some (Cursor.create buf (c.ptr + 1) c.scope)
  | _ => none

theorem Cursor.create_le (buf : List Entry) (ptr scope : Nat) : ptr ≤ (Cursor.create buf ptr scope).ptr := by
  fun_induction Cursor.create buf ptr scope <;> first | exact Nat.le_refl _ | omega

/-- `Cursor::ignore_none` of `syn`: groups without delimiters are entered. -/
def Cursor.ignoreNone (buf : List Entry) (c : Cursor) : Cursor :=
  if h : c.ptr < buf.length then
    match buf[c.ptr] with
    | .group .none _ =>
      have := Cursor.create_le buf (c.ptr + 1) c.scope
      Cursor.ignoreNone buf (Cursor.create buf (c.ptr + 1) c.scope)
    | _ => c
  else c
termination_by buf.length - c.ptr

/-- `Cursor::ident`, `Cursor::punct`, `Cursor::literal` of `syn`: the next token, and the cursor after it. -/
def Cursor.token (buf : List Entry) (c : Cursor) : Option (Tok × Cursor) :=
  match buf[(c.ignoreNone buf).ptr]? with
  | some (.leaf t) => some (t, Cursor.create buf ((c.ignoreNone buf).ptr + 1) (c.ignoreNone buf).scope)
  | _ => none

theorem Cursor.anyGroup_lt {buf : List Entry} {c i a : Cursor} (h : c.anyGroup buf = some (i, a)) : c.ptr < i.ptr ∧ c.ptr < a.ptr := by
  unfold Cursor.anyGroup at h
  split at h
  · next d n _ =>
    simp only [Option.some.injEq, Prod.mk.injEq] at h
    obtain ⟨rfl, rfl⟩ := h
    have := Cursor.create_le buf (c.ptr + 1) (c.ptr + (n + 1))
    have := Cursor.create_le buf (c.ptr + (n + 1)) c.scope
    omega
  · cases h

theorem Cursor.tokenTree_lt {buf : List Entry} {c a : Cursor} (h : c.tokenTree buf = some a) : c.ptr < a.ptr := by
  unfold Cursor.tokenTree at h
  split at h
  · next d n _ =>
    simp only [Option.some.injEq] at h
    subst h
    have := Cursor.create_le buf (c.ptr + (n + 1)) c.scope
    omega
  · simp only [Option.some.injEq] at h
    subst h
    have := Cursor.create_le buf (c.ptr + 1) c.scope
    omega
  · cases h

/-- `inner`, `src/util/token_distance.rs:19-39`; cursors are compared by their positions. The loop is a recursion here; `total` is the sum of what it
adds. -/
def distanceInner (buf : List Entry) (start : Cursor) (stop : Nat) : Nat :=
  if h : start.ptr < stop then
    match hg : start.anyGroup buf with
    | some (inside, after) =>
      have := Cursor.anyGroup_lt hg
      have : (if stop < after.ptr then stop else after.ptr) ≤ stop := by split <;> omega
      distanceInner buf inside (if stop < after.ptr then stop else after.ptr) + (if stop < after.ptr then 0 else distanceInner buf after stop)
    | none =>
      match ht : start.tokenTree buf with
      | some next =>
        have := Cursor.tokenTree_lt ht
        1 + distanceInner buf next stop
      | none => 0
  else 0
termination_by stop - start.ptr

/-- `token_distance`, `src/util/token_distance.rs:9-42`. -/
def tokenDistance (buf : List Entry) (start stop : Cursor) : Nat :=
  if stop.ptr < start.ptr then distanceInner buf stop start.ptr else distanceInner buf start stop.ptr

end Verif
