import Verif.Proofs.Cells
import Verif.Model.Demo
/-! # C75: the metadata which is shared in memory -/

namespace Verif.Props
open Verif

/-- **C75**: resolving and evaluating definitions on metadata behind `Rc<RefCell<_>>` gives what it gives on metadata passed by value; in particular
it never reads or writes metadata while another part of the program writes it, which would panic. -/
theorem C75_no_conflict (E : Ext) (env : Env) (order : List (Alias × VKind) → List (Alias × VKind)) (items : List (Alias × Expr)) (h : Heap) :
    (Cells.makeSubstitutions E env order items h).1 = match makeSubstitutions E env order items with
      | .ok subs => .ok subs
      | .err e => .err e
      | .panic => .panic := by
  have h1 := (makeSubstitutions_cells E env order items h).2
  generalize makeSubstitutions E env order items = y at h1
  cases y with
  | ok subs => obtain ⟨a, h2, rfl⟩ := h1; exact h2
  | err e => exact h1
  | panic => exact h1

/-- **C75**: no guard is left behind, even after an error or a panic, and the metadata of others is not touched. -/
theorem C75_released (E : Ext) (env : Env) (order : List (Alias × VKind) → List (Alias × VKind)) (items : List (Alias × Expr)) (h : Heap) :
    (∀ (i : Nat) c, h[i]? = some c → (Cells.makeSubstitutions E env order items h).2[i]? = some c) ∧
    ((∀ c ∈ h, c.flag = .shared 0) → ∀ c ∈ (Cells.makeSubstitutions E env order items h).2, c.flag = .shared 0) := by
  have h1 := (makeSubstitutions_cells E env order items h).1
  refine ⟨?_, h1.free⟩
  intro i c hc
  have hi : i < h.length := by
    rcases Nat.lt_or_ge i h.length with h2 | h2
    · exact h2
    · rw [List.getElem?_eq_none h2] at hc; cases hc
  rw [h1.same i (by omega) hi, hc]

/-- **C75**: while a call is resolved, successfully or not, the metadata of the scope it stands in is not written: each overload is tried on a copy,
and success replaces the scope by the copy of the best. -/
theorem C75_copies (env : Env) (id : Nat) (name : Str) (args : List Expr) (raw : Option (Nat × Toks)) (expected : Option Ty) (h : Heap) (sc : ScopeRef)
    (m : Metadata) (hm : h[sc.cell]? = some ⟨m, .shared 0⟩) :
    ∀ (i : Nat) c, h[i]? = some c → (Cells.resolve env (.call id name args raw) expected sc h).2[i]? = some c := by
  have hf := resolveCall_follows env id name args raw expected h sc ⟨sc.aliases, m⟩ ⟨hm, rfl⟩ (resolveArgs_follows env args)
  intro i c hc
  have hi : i < h.length := by
    rcases Nat.lt_or_ge i h.length with h2 | h2
    · exact h2
    · rw [List.getElem?_eq_none h2] at hc; cases hc
  rw [hf.1.same i (by omega) hi, hc]

/-- Borrowing twice is a conflict, so that C75 is not true by construction. -/
example : (Mem.borrowMut 0 (fun _ => Mem.borrow 0 (fun _ => pure ((), none))) [⟨Metadata.empty, .shared 0⟩]).1 = .conflict ∧
    (Mem.borrow 0 (fun _ => Mem.borrowMut 0 (fun _ => pure ((), none))) [⟨Metadata.empty, .shared 0⟩]).1 = .conflict ∧
    (Mem.borrow 0 (fun _ => Mem.borrow 0 (fun _ => pure ())) [⟨Metadata.empty, .shared 0⟩]).1 = .ok () := ⟨rfl, rfl, rfl⟩

/-- `A = concat(upper(x), y), B = concat(A, A)` -/
def cellsDemo : List (Alias × Expr) :=
  [((0, c! "A"), .call 1 (c! "concat") [.call 2 (c! "upper") [.value 3 (.ident (c! "x"))] none, .value 4 (.ident (c! "y"))] none),
   ((5, c! "B"), .call 6 (c! "concat") [.value 7 (.ident (c! "A")), .value 8 (.ident (c! "A"))] none)]

example : (Cells.makeSubstitutions Ext.demo (Env.builtin 1) id cellsDemo []).1 = .ok [(c! "A", .ident (c! "Xy")), (c! "B", .ident (c! "XyXy"))] ∧
    20 < (Cells.makeSubstitutions Ext.demo (Env.builtin 1) id cellsDemo []).2.length := by decide +kernel

end Verif.Props
