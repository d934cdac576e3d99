import Verif.Model.Chars
/-! # `normalize` (`src/funcs.rs:44-82`) -/

namespace Verif

/-- Loop state of `normalize`: `result` and `inserted_underscore` (`src/funcs.rs:51-52`). -/
structure NormState where
  result : Str
  inserted : Bool
  deriving DecidableEq, Repr

/-- One iteration of the `for` loop, `src/funcs.rs:56-74`; `i` is the index, `n` is `num_chars`. -/
def normStep (C : CharClass) (n i : Nat) (st : NormState) (c : Char) : NormState :=
  let isFirst := st.result.isEmpty
  let isLast := i == n - 1
  let shouldStrip := isFirst || isLast
  if C.alnum c || c == '_' then
    if st.result.isEmpty && C.numeric c && !st.inserted then
      -- push '_' and then the character
      ⟨st.result ++ ['_'] ++ [c], false⟩
    else if c == '_' && shouldStrip then
      st
    else
      ⟨st.result ++ [c], false⟩
  else if !st.inserted && !shouldStrip then
    ⟨st.result ++ ['_'], true⟩
  else
    st

/-- The loop over `input.chars().enumerate()`, `src/funcs.rs:56`. -/
def normLoop (C : CharClass) (n : Nat) : Nat → NormState → Str → NormState
  | _, st, [] => st
  | i, st, c :: cs => normLoop C n (i + 1) (normStep C n i st c) cs

/-- Lines 75-80: drop a pending generated underscore, never return the empty string. -/
def normFinish (st : NormState) : Str :=
  let r := if st.inserted then st.result.dropLast else st.result
  if r.isEmpty then ['_'] else r

/-- `normalize`, `src/funcs.rs:50-82`. -/
def normalize (C : CharClass) (input : Str) : Str :=
  normFinish (normLoop C input.length 0 ⟨[], false⟩ input)

end Verif
