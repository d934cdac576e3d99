import Verif.Proofs.Order
import Verif.Props.Eval
import Verif.Props.Context
/-!
# Property C109: the order in which the functions are declared does not matter

The number a function gets when it is declared is the last thing overloads are compared by. It decides only between overloads which are equally
expensive, and for these to exist `hash` of a string has to be the argument of another call.
-/

namespace Verif.Props
open Verif Spec

/-- The same values, the same error up to the order in which overloads are listed in it, or a panic in both cases. -/
inductive SameValues : Res Subs → Res Subs → Prop
  | ok {a b : Subs} (h : ∀ n, a.get n = b.get n) : SameValues (.ok a) (.ok b)
  | err {x x' : Err} (h : SameError x x') : SameValues (.err x) (.err x')
  | panic : SameValues .panic .panic

/-- **C109**, where `hash` of a string is not the argument of another call: with the functions declared in any other order, the values of the
definitions are the same. (What is missing: `C109_false`.) -/
theorem C109_partial {T : Str → Option (List Func)} (hT : SameFunctions builtinFuncs T) {E : Ext} {seed : Nat} {items : List (Alias × Expr)}
    (hN : (specIds items).Nodup) (hh : hashesOutermost (named items) fun _ => none) {order order' : List (Alias × VKind) → List (Alias × VKind)}
    (ho : IsOrder order) (ho' : IsOrder order') :
    SameValues (makeSubstitutions E (Env.builtin seed) order items) (makeSubstitutions E ⟨seed, T⟩ order' items) := by
  have h1 := C24_exact (E := E) (env := Env.builtin seed) hN ho
  have h2 := C24_exact (E := E) (env := ⟨seed, T⟩) hN ho'
  have h3 := outcome_like hT (E := E) (seed := seed) hh
  change Same _ (outcome E ⟨seed, builtinFuncs⟩ (named items)) at h1
  generalize makeSubstitutions E (Env.builtin seed) order items = a at h1 ⊢
  generalize makeSubstitutions E ⟨seed, T⟩ order' items = b at h2 ⊢
  rcases h3 with h3 | ⟨x, x', h3, h4, h5⟩
  · rw [h3] at h1
    generalize outcome E ⟨seed, T⟩ (named items) = c at h1 h2
    cases h1 with
    | ok e1 => cases h2 with | ok e2 => exact .ok fun n => (e1 n).trans (e2 n).symm
    | err x => cases h2; exact .err (.inl rfl)
    | panic => cases h2; exact .panic
  · rw [h4] at h1
    rw [h5] at h2
    cases h1
    cases h2
    exact .err h3

/-- Only the last comparison changes: the two overloads of `upper` are declared the other way round. -/
def upperSwapped (name : Str) : Option (List Func) :=
  (builtinFuncs name).map (·.map fun f => { f with id := if f.id = 0 then 1 else if f.id = 1 then 0 else f.id })

theorem upperSwapped_same : SameFunctions builtinFuncs upperSwapped := by
  intro name
  unfold upperSwapped
  cases h : builtinFuncs name with
  | none => exact .inl ⟨rfl, rfl⟩
  | some fs =>
    refine .inr ⟨fs, _, rfl, rfl, ?_⟩
    rw [List.map_map]
    exact .refl _

/-- `y = upper(concat(hash(to_str(to_ident(to_ident(x)))), hash("a")))`. -/
def tyingDefs : List (Alias × Expr) :=
  [((0, S "y"), .call 1 (S "upper") [.call 2 (S "concat") [
    .call 3 (S "hash") [.call 4 (S "to_str") [.call 5 (S "to_ident") [.call 6 (S "to_ident") [.value 7 (.ident (S "x"))] none] none] none] none,
    .call 8 (S "hash") [.value 9 (.litStr (S "\"a\"") (S "a"))] none] none] none)]

/-- The type of the alias `y`. -/
def typeOfY (r : Res Subs) : Option Ty := match r with | .ok s => (s.get (S "y")).map VKind.ty | _ => none

/-- Whether there is an error. -/
def isErr (r : Res Subs) : Bool := match r with | .err _ => true | _ => false

/-- **C109**, full statement, which is false: `upper` of `concat` of two hashes of strings is a string. If the two overloads of `upper` were
declared the other way round, the one for identifiers would be used, and the first hash and the text of the second are none. Both cost 24. -/
theorem C109_false : ∃ (T : Str → Option (List Func)) (items : List (Alias × Expr)) (a : Subs) (n : Str) (x : Err), SameFunctions builtinFuncs T ∧
    (specIds items).Nodup ∧ makeSubstitutions Ext.demo (Env.builtin 1) id items = .ok a ∧ (a.get n).map VKind.ty = some .litStr ∧
    makeSubstitutions Ext.demo ⟨1, T⟩ id items = .err x := by
  have h1 : typeOfY (makeSubstitutions Ext.demo (Env.builtin 1) id tyingDefs) = some .litStr := by decide +kernel
  have h2 : isErr (makeSubstitutions Ext.demo ⟨1, upperSwapped⟩ id tyingDefs) = true := by decide +kernel
  have hN : (specIds tyingDefs).Nodup := by decide
  generalize ha : makeSubstitutions Ext.demo (Env.builtin 1) id tyingDefs = ra at h1
  generalize hb : makeSubstitutions Ext.demo ⟨1, upperSwapped⟩ id tyingDefs = rb at h2
  cases ra with
  | err => cases h1
  | panic => cases h1
  | ok a =>
    cases rb with
    | ok => cases h2
    | panic => cases h2
    | err x => exact ⟨upperSwapped, tyingDefs, a, S "y", x, upperSwapped_same, hN, ha, h1, hb⟩

/-- `x = concat(a, b)`, `y = upper(x)`, `z = concat(y, 1)`, and the overloads of `upper` exchanged. -/
example : hashesOutermost (named threeDefs) (fun _ => none) ∧ (specIds threeDefs).Nodup ∧ SameFunctions builtinFuncs upperSwapped ∧
    (makeSubstitutions Ext.demo ⟨0, upperSwapped⟩ id threeDefs).map (fun s => (s.get (S "x"), s.get (S "y"), s.get (S "z")))
      = .ok (some (.ident (S "ab")), some (.ident (S "AB")), some (.ident (S "AB1"))) := by
  refine ⟨?_, threeDefs_nodup, upperSwapped_same, by decide +kernel⟩
  exact ⟨noStrHashL_of_calls _ (by decide), fun _ _ _ => ⟨noStrHashL_of_calls _ (by decide), fun _ _ _ => ⟨noStrHashL_of_calls _ (by decide),
    fun _ _ _ => trivial⟩⟩⟩

/-- All functions declared in reverse, under numbers which count down. -/
def reversed (name : Str) : Option (List Func) := (builtinFuncs name).map fun fs => (fs.map fun f => { f with id := 100 - f.id }).reverse

theorem reversed_same : SameFunctions builtinFuncs reversed := by
  intro name
  unfold reversed
  cases h : builtinFuncs name with
  | none => exact .inl ⟨rfl, rfl⟩
  | some fs =>
    refine .inr ⟨fs, _, rfl, rfl, ?_⟩
    rw [List.map_reverse, List.map_map]
    exact (List.reverse_perm _).symm

example : (makeSubstitutions Ext.demo ⟨0, reversed⟩ id threeDefs).map (fun s => (s.get (S "x"), s.get (S "y"), s.get (S "z")))
      = .ok (some (.ident (S "ab")), some (.ident (S "AB")), some (.ident (S "AB1"))) := by decide +kernel

/-- Of a hash itself a string may be the argument. -/
example : hashesOutermost [(S "h", .call 0 (S "hash") [.value 1 (.litStr (S "\"a\"") (S "a"))] none)] fun _ => none := by
  simp [hashesOutermost, noStrHashL, noStrHash]

end Verif.Props
