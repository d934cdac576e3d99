import Verif.Proofs.Numbers
import Verif.Props.Respelled
/-!
# Property C108: the spelling of numbers

A number can be written as `16`, `0x10`, `1_6` or `16u8`. What the functions make of it should depend on the number only.
-/

namespace Verif.Props
open Verif Spec

/-- **C108**: numbers of which `normalize2` or a `concat` of numbers makes something may be spelled in any way, at any depth, whatever the outcome is: the code is
the same, or the error, apart from what it quotes. -/
theorem C108_partial {W : World} {hist hist' : List (Invocation × Luck)} {inv inv' : Invocation} {l l' : Luck} {a a' : PAst}
    (hs : Scheduled W hist inv l) (ha : Reads W inv a) (hs' : Scheduled W hist' inv' l') (ha' : Reads W inv' a')
    (hal : SameSetting hist inv l a hist' inv' l' a') (hl : (tree a').loops = (tree a).loops) (hb : a'.block = a.block)
    (hd : ExchangedDefs Rewritten (definitions a) (definitions a')) :
    blurO (output W hist' inv' l') = blurO (output W hist inv l) :=
  output_exchanged hs ha hs' ha' hal hl hb (fun _ _ h => rewritten_interchangeable h) hd

/-! ## Examples -/

/-- Sixteen, with a spelling. -/
def sixteen (r : String) : Tok := .lit (.int (S r) 16)

/-- `y = concat(x, normalize2(16), concat(16, 16)), { y }` -/
def sixteenDemo (r : String) : Toks :=
  [id' "y", eq', id' "concat", paren [id' "x", comma, id' "normalize2", paren [sixteen r], comma, id' "concat", paren [sixteen r, comma, sixteen r]], comma,
    brace [id' "y"]]

theorem sixteen_exchanged (i1 i2 i3 i4 i5 i6 i7 j1 j2 j3 j4 j5 j6 j7 : Nat) (raw1 raw2 raw3 raw1' raw2' raw3' : Option (Nat × Toks)) {i i' : IntLit}
    (h : SameNumber i i') :
    ExchangedDefs Rewritten
      [(S "y", .call i1 (S "concat") [.value i2 (.ident (S "x")), .call i3 (S "normalize2") [.value i4 (.litInt i)] raw1,
        .call i5 (S "concat") [.value i6 (.litInt i), .value i7 (.litInt i)] raw2] raw3)]
      [(S "y", .call j1 (S "concat") [.value j2 (.ident (S "x")), .call j3 (S "normalize2") [.value j4 (.litInt i')] raw1',
        .call j5 (S "concat") [.value j6 (.litInt i'), .value j7 (.litInt i')] raw2'] raw3')] :=
  .cons _ (.call _ _ _ _ _ (by decide) (by decide) (.cons (.value _ _ _) (.cons (.here (.normalized _ _ _ _ h _ _))
    (.cons (.here (.joined _ _ _ _ (.cons _ _ h (.cons _ _ h .nil)))) .nil)))) .nil

example : ExchangedDefs Rewritten (definitions (demoParse (sixteenDemo "16"))) (definitions (demoParse (sixteenDemo "0x10"))) :=
  sixteen_exchanged _ _ _ _ _ _ _ _ _ _ _ _ _ _ _ _ _ _ _ _ ⟨rfl, rfl⟩

example : Reads demoWorld (.compose (sixteenDemo "16")) (demoParse (sixteenDemo "16")) ∧ Reads demoWorld (.compose (sixteenDemo "0x10")) (demoParse (sixteenDemo "0x10")) ∧
    Scheduled demoWorld [] (.compose (sixteenDemo "16")) (demoLuck 2 1) ∧ Scheduled demoWorld [] (.compose (sixteenDemo "0x10")) (demoLuck 2 1) ∧
    SameSetting [] (.compose (sixteenDemo "16")) (demoLuck 2 1) (demoParse (sixteenDemo "16"))
      [] (.compose (sixteenDemo "0x10")) (demoLuck 2 1) (demoParse (sixteenDemo "0x10")) ∧
    (tree (demoParse (sixteenDemo "0x10"))).loops = (tree (demoParse (sixteenDemo "16"))).loops ∧
    (demoParse (sixteenDemo "0x10")).block = (demoParse (sixteenDemo "16")).block :=
  ⟨reads_of_parse (ids := fun k => k) (k := 0) rfl, reads_of_parse (ids := fun k => k) (k := 0) rfl, demo_scheduled _ _ (by decide +kernel),
    demo_scheduled _ _ (by decide +kernel), ⟨.inl rfl, rfl, .inl rfl⟩, rfl, rfl⟩

example : ∀ r ∈ ["16", "0x10", "1_6", "16u8"], output demoWorld [] (.compose (sixteenDemo r)) (demoLuck 2 1) = .tokens [id' "x_161616"] := by decide +kernel

/-- **C108** is false in general: a number joined with a name is taken as it is written, `concat(x, 0x10)` is `x0x10` and `concat(x, 16)` is `x16`; and an alias for
a number is written, and shown in strings, as the number was spelled. -/
theorem C108_false : ∀ r ∈ ["16", "0x10"],
    output demoWorld [] (.compose [id' "y", eq', id' "concat", paren [id' "x", comma, sixteen r], comma, brace [id' "y"]]) (demoLuck 2 1) = .tokens [.ident ('x' :: S r)] ∧
    output demoWorld [] (.compose [id' "y", eq', sixteen r, comma, brace [id' "y", .lit (.str (S "r") (S "%y%"))]]) (demoLuck 2 1) =
      .tokens [sixteen r, .lit (.str (Ext.demo.strRepr (S r)) (S r))] := by decide +kernel

end Verif.Props
