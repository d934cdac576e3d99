import Verif.Proofs.Release
import Verif.Props.Panics
/-!
# Property C97: the macro built with and without overflow checks

`output` is what an invocation puts out if the macro was built with overflow checks, `outputR` what it puts out if built without (`Model/Release`).
-/

namespace Verif.Props
open Verif Verif.Spec

/-- What an invocation puts out after others on the same thread, with the macro built without overflow checks. -/
def outputR (W : World) (hist : List (Invocation × Luck)) (inv : Invocation) (l : Luck) : Output :=
  (composeCoreR W l.ids l.orders inv (runAllR W hist Thread.fresh).2).1

/-- **C97**, the part that holds: if an invocation does not panic in the build with checks, the build without puts out the same. -/
theorem C97_partial {W : World} {hist : List (Invocation × Luck)} {inv : Invocation} {l : Luck} (h : output W hist inv l ≠ .panicked) :
    outputR W hist inv l = output W hist inv l := by
  unfold outputR
  rw [runAllR_thread]
  rcases (composeCore_panicOr W l.ids l.orders inv (runAll W hist Thread.fresh).2).2 with h' | h'
  · exact absurd h' h
  · exact h'

/-- So the build without checks does not panic where the other does not, after whatever other invocations. -/
theorem C97_panics_partial {W : World} {hist : List (Invocation × Luck)} {inv : Invocation} {l : Luck} (h : outputR W hist inv l = .panicked) :
    output W hist inv l = .panicked := by
  by_cases h' : output W hist inv l = .panicked
  · exact h'
  · rw [← C97_partial h', h]

/-- **C97**, the part that holds for panics: if the costs of the definitions do not overflow in any iteration, the outputs are the same, also if the macro
panics for another reason. (By C29 they do not if `5 * nodes * 2 ^ nesting < 2 ^ 32` for every expression.) -/
theorem C97_no_overflow_partial {W : World} {hist : List (Invocation × Luck)} {inv : Invocation} {l : Luck} (hs : Scheduled W hist inv l)
    (h : ∀ a its, Reads W inv a → InForce a its → ∀ defs ∈ its, overflowsSpec builtinFuncs defs (fun _ => none) = false) :
    outputR W hist inv l = output W hist inv l := by
  unfold outputR
  rw [runAllR_thread]
  have := composeCoreR_eq (runAll_idle W hist idle_fresh) hs.fair (fun a its ha hi => h a its ha (inForce_of_iterations hi))
  exact congrArg (·.1) this

/-- The same with a bound on the size of the expressions: `nodes` counts the values and calls, `nesting` the calls around one another. -/
theorem C97_small_partial {W : World} {hist : List (Invocation × Luck)} {inv : Invocation} {l : Luck} (hs : Scheduled W hist inv l)
    (h : ∀ a its, Reads W inv a → InForce a its → ∀ defs ∈ its, ∀ d ∈ defs, 5 * nodes d.2 * 2 ^ nesting d.2 < 2 ^ 32) :
    outputR W hist inv l = output W hist inv l := by
  refine C97_no_overflow_partial hs fun a its ha hi defs hd => ?_
  cases ho : overflowsSpec builtinFuncs defs (fun _ => none) with
  | false => rfl
  | true =>
    obtain ⟨d, hd', hb⟩ := overflowsSpec_bound ho
    have := costBound_le d.2
    have := h a its ha hi defs hd d hd'
    omega

/-- `x` inside `n` pairs of `normalize2(concat(1, …))`. -/
def demoTower : Nat → Toks
  | 0 => [id' "x"]
  | n + 1 => [id' "normalize2", paren [id' "concat", paren (.lit (.int (c! "1") 1) :: comma :: demoTower n)]]

/-- `y = concat(a, normalize2(concat(1, …)), 1, 1), { y }` -/
def demoWrap (n : Nat) : Toks :=
  [id' "y", eq', id' "concat", paren (id' "a" :: comma :: demoTower n ++ [comma, .lit (.int (c! "1") 1), comma, .lit (.int (c! "1") 1)]),
    comma, brace [id' "y"]]

/-- Enough ids for one invocation. -/
def demoLong : Luck := ⟨stream (List.replicate 300 ()) (), fun _ l => l⟩

theorem demoLong_scheduled (inv : Invocation) (h : idsDrawn demoWorld demoLong.ids inv (after demoWorld []) ≤ 300) :
    Scheduled demoWorld [] inv demoLong :=
  ⟨fun _ l => .refl l, Unit, inferInstance, _, (), rfl, by decide +kernel, Nat.le_trans h (by decide +kernel)⟩

/-- `_1__1_…_x` -/
def demoName (n : Nat) : Str := (List.replicate n (c! "_1_")).flatten ++ c! "x"

/-- **C97** as stated is false. With 27 levels the overload of `concat` for an identifier costs `2 ^ 32 - 8` and the one for tokens `2 ^ 32`. With checks
the macro panics. Without them the second cost is `0`, and that overload is taken: the code is no longer one name. -/
theorem C97_false : ∃ (W : World) (inv : Invocation) (l : Luck), Scheduled W [] inv l ∧ output W [] inv l = .panicked ∧
    outputR W [] inv l = .tokens [id' "a", .ident (demoName 27), .lit (.int (c! "1") 1), .lit (.int (c! "1") 1)] :=
  ⟨demoWorld, .compose (demoWrap 27), demoLong, demoLong_scheduled _ (by decide +kernel), by decide +kernel, by decide +kernel⟩

/-- With 26 levels it is the same name in both builds. -/
example : output demoWorld [] (.compose (demoWrap 26)) demoLong = .tokens [.ident (c! "a" ++ demoName 26 ++ c! "11")] ∧
    outputR demoWorld [] (.compose (demoWrap 26)) demoLong = output demoWorld [] (.compose (demoWrap 26)) demoLong :=
  have h : output demoWorld [] (.compose (demoWrap 26)) demoLong = .tokens [.ident (c! "a" ++ demoName 26 ++ c! "11")] := by decide +kernel
  ⟨h, C97_partial (by rw [h]; exact fun h => by cases h)⟩

/-- `x = concat(1, -2), { x }` panics in both builds. -/
example : outputR demoWorld [] (.compose demoPanic) (demoLuck 2 1) = .panicked ∧ output demoWorld [] (.compose demoPanic) (demoLuck 2 1) = .panicked := by
  have h : output demoWorld [] (.compose demoPanic) (demoLuck 2 1) = .panicked := by decide +kernel
  refine ⟨?_, h⟩
  rw [C97_small_partial (demo_scheduled _ _ (by decide +kernel)), h]
  intro a its ha hi
  have ht := tree_congr (reads_unique ha (reads_of_parse (W := demoWorld) (inv := .compose demoPanic) (ids := fun k => k) (k := 0) rfl))
  have hi := iterations_of_inForce hi
  rw [ht] at hi
  cases Res.ok.inj hi
  decide +kernel

end Verif.Props
