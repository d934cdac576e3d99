import Verif.Model.Chars
/-! # `format_string` (`src/substitution/format_string.rs:27-82`) -/

namespace Verif

/-- Loop state, `src/substitution/format_string.rs:29-34`. -/
structure FmtState where
  formatted : Str := []
  placeholder : Str := []
  text : Str := []
  inPh : Bool := false
  prev : Option Char := none
  deriving DecidableEq, Repr

/-- One iteration of the loop, lines 36-75. `look` is the lookup in `substitutions` followed by
`format_value`. -/
def fmtStep (C : CharClass) (look : Str → Option Str) (st : FmtState) (c : Char) : FmtState :=
  let st' : FmtState :=
    if c = '%' then
      if st.prev = some '%' then
        { st with formatted := st.formatted ++ ['%'], inPh := false, placeholder := [], text := [] }
      else if st.inPh then
        match look st.placeholder with
        | some v => { st with formatted := st.formatted ++ v, inPh := false, placeholder := [], text := [] }
        | none => { st with formatted := st.formatted ++ st.text ++ ['%'], inPh := false, placeholder := [], text := [] }
      else
        { st with inPh := true, text := st.text ++ ['%'] }
    else if st.inPh then
      if C.whitespace c then { st with text := st.text ++ [c] }
      else { st with text := st.text ++ [c], placeholder := st.placeholder ++ [c] }
    else
      { st with formatted := st.formatted ++ [c] }
  { st' with prev := some c }

/-- Lines 77-81: a placeholder left open is emitted verbatim. -/
def fmtFinish (st : FmtState) : Str :=
  if st.inPh then st.formatted ++ st.text else st.formatted

/-- `format_string`, `src/substitution/format_string.rs:28-82`. -/
def formatString (C : CharClass) (look : Str → Option Str) (s : Str) : Str :=
  fmtFinish (s.foldl (fmtStep C look) {})

end Verif
