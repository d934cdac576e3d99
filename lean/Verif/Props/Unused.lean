import Verif.Proofs.Unused
import Verif.Props.Order
import Verif.Props.Whole
/-!
# Property C110: a function that is not named in an invocation does not matter for it

The functions are in one table. The parser asks whether a name in front of parentheses is in it; the type checker looks the called functions up. What the table has
for other names is not looked at.
-/

namespace Verif.Props
open Verif Spec

/-- **C110**, how the input is read: only whether the names outside of braces are names of functions matters. -/
theorem C110_read {T T' : Str → Option (List Func)} {W : World} {inv : Invocation} (h : ∀ n ∈ outerNames (headerToks inv), T n = T' n) (a : PAst) :
    ReadsWith T W inv a ↔ ReadsWith T' W inv a :=
  ⟨fun ha => readsWith_agree ha h, fun ha => readsWith_agree ha fun n hn => (h n hn).symm⟩

/-- **C110**, the definitions: only the functions that are called matter for the values, the errors, and panics. -/
theorem C110_definitions {T T' : Str → Option (List Func)} {E : Ext} {seed : Nat} {items : List (Alias × Expr)}
    (h : ∀ i ∈ items, ∀ n ∈ calls i.2, T n = T' n) (hN : (specIds items).Nodup) {order order' : List (Alias × VKind) → List (Alias × VKind)}
    (ho : IsOrder order) (ho' : IsOrder order') : Same (makeSubstitutions E ⟨seed, T⟩ order items) (makeSubstitutions E ⟨seed, T'⟩ order' items) := by
  have h1 := C24_exact (E := E) (env := ⟨seed, T⟩) hN ho
  have h2 := C24_exact (E := E) (env := ⟨seed, T'⟩) hN ho'
  rw [outcome_unused (T := T) (T' := T') (fun d hd => by
    obtain ⟨i, hi, rfl⟩ := List.mem_map.1 hd
    exact h i hi)] at h1
  exact h1.trans h2.symm

/-- **C110**: in two crates whose functions differ only in names that are not in the input outside of braces, the same comes out of an invocation. -/
theorem C110_functions {T T' : Str → Option (List Func)} {W : World} {inv : Invocation} (h : ∀ n ∈ outerNames (headerToks inv), T n = T' n)
    (seed : Nat) (pre : Str) (o : Output) : ResultWith T W seed pre inv o ↔ ResultWith T' W seed pre inv o := by
  have key : ∀ {T T' : Str → Option (List Func)}, (∀ n ∈ outerNames (headerToks inv), T n = T' n) → ResultWith T W seed pre inv o →
      ResultWith T' W seed pre inv o := by
    intro T T' h hr
    cases hr with
    | unread hu => exact .unread fun a ha => hu a ((C110_read h a).2 ha)
    | read a ha =>
      rw [expansion_unused (T := T) (T' := T') fun e he n hn => h n (readsWith_names ha e he n hn)]
      exact .read a ((C110_read h a).1 ha)
  exact ⟨key h, key fun n hn => (h n hn).symm⟩

theorem readsWith_builtin {W : World} {inv : Invocation} {a : PAst} : ReadsWith builtinFuncs W inv a ↔ Reads W inv a := by
  cases inv <;> exact Iff.rfl

/-- **C110**, for the crate itself: what comes out of an invocation is what would come out with any other functions beside those that are named in the input outside
of braces, and nothing else would. -/
theorem C110_added {T : Str → Option (List Func)} {W : World} {hist : List (Invocation × Luck)} {inv : Invocation} {l : Luck} (hs : Scheduled W hist inv l)
    (h : ∀ n ∈ outerNames (headerToks inv), T n = builtinFuncs n) (o : Output) :
    ResultWith T W (l.ids 0) (macroPrefix (firstOn hist inv)) inv o ↔ o = output W hist inv l := by
  rw [C110_functions h]
  constructor
  · intro hr
    cases hr with
    | read a ha => exact (output_reads hs (readsWith_builtin.1 ha)).symm
    | unread hu => exact (output_unread hs fun a ha => hu a (readsWith_builtin.2 ha)).symm
  · rintro rfl
    by_cases he : ∃ a, Reads W inv a
    · obtain ⟨a, ha⟩ := he
      rw [output_reads hs ha]
      exact .read a (readsWith_builtin.2 ha)
    · rw [output_unread hs fun a ha => he ⟨a, ha⟩]
      exact .unread fun a ha => he ⟨a, readsWith_builtin.1 ha⟩

/-! ## Examples -/

/-- A function that is not there: `twice(a)`. -/
def twiceFunc : Func := ⟨100, S "twice", [.ident], .ident, fun _ _ vs => match vs with | [.ident s] => .ok (.ident (s ++ s)) | _ => .panic⟩

/-- The functions, and one more. -/
def withTwice (n : Str) : Option (List Func) := if n = S "twice" then some [twiceFunc] else builtinFuncs n

/-- `x = upper(a), { twice(x) }` -/
def demoTwice : Toks := [id' "x", eq', id' "upper", paren [id' "a"], comma, brace [id' "twice", paren [id' "x"]]]

/-- The name of the function is in the code, where it does not matter. -/
example : (∀ n ∈ outerNames (headerToks (.compose demoTwice)), withTwice n = builtinFuncs n) ∧ withTwice (S "twice") ≠ builtinFuncs (S "twice") ∧
    Scheduled demoWorld [] (.compose demoTwice) (demoLuck 2 1) ∧
    output demoWorld [] (.compose demoTwice) (demoLuck 2 1) = .tokens [id' "twice", paren [id' "A"]] := by
  refine ⟨fun n hn => ?_, fun h => ?_, demo_scheduled _ _ (by decide +kernel), by decide +kernel⟩
  · have : n ≠ S "twice" := by
      rintro rfl
      revert hn
      decide +kernel
    simp [withTwice, this]
  · exact absurd (congrArg Option.isSome h) (by decide +kernel)

/-- In a definition it matters: `x = twice(a)`. -/
example : typeOfY (makeSubstitutions Ext.demo ⟨1, withTwice⟩ id [((0, S "y"), .call 1 (S "twice") [.value 2 (.ident (S "a"))] none)]) = some .ident ∧
    isErr (makeSubstitutions Ext.demo ⟨1, builtinFuncs⟩ id [((0, S "y"), .call 1 (S "twice") [.value 2 (.ident (S "a"))] none)]) = true := by
  decide +kernel

example : ∀ i ∈ threeDefs, ∀ n ∈ calls i.2, withTwice n = builtinFuncs n := by
  have h : ∀ i ∈ threeDefs, ∀ n ∈ calls i.2, n ≠ S "twice" := by decide +kernel
  intro i hi n hn
  simp [withTwice, h i hi n hn]

end Verif.Props
