import Verif.Model.Chars
/-!
# Independent specifications for string functions

Nothing here refers to the functions of the model.
-/

namespace Verif.Spec
open Verif

/-- Lexically a Rust identifier: a start character or `_`, then continuation characters. -/
def ValidIdent (C : CharClass) (s : Str) : Prop :=
  ∃ c cs, s = c :: cs ∧ (c = '_' ∨ C.xidStart c = true) ∧ ∀ d ∈ cs, C.xidContinue d = true

/-- Characters `normalize` may keep. -/
def keepable (C : CharClass) (c : Char) : Bool := C.alnum c || c == '_'

/-- Every run of non-keepable characters that is followed by a keepable one becomes one `_`
(`pending` says that such a run has just been read); a final run disappears. -/
def squeeze (C : CharClass) : Bool → Str → Str
  | _, [] => []
  | pending, c :: cs =>
    if keepable C c then (if pending then ['_'] else []) ++ c :: squeeze C false cs
    else squeeze C true cs

/-- Remove the last character if it is not a letter or digit. -/
def trimLast (C : CharClass) : Str → Str
  | [] => []
  | [l] => if C.alnum l then [l] else []
  | c :: d :: cs => c :: trimLast C (d :: cs)

/-- What `normalize` computes: skip everything before the first letter or digit; `_` alone if there is
none; protect a leading digit with `_`; squeeze the rest, less one trailing non-alphanumeric. -/
def normalized (C : CharClass) (s : Str) : Str :=
  match s.dropWhile (fun c => !C.alnum c) with
  | [] => ['_']
  | c :: cs => (if C.numeric c then ['_'] else []) ++ c :: squeeze C false (trimLast C cs)

/-- Two adjacent underscores occur somewhere. -/
def HasDoubleUnderscore (s : Str) : Prop := ∃ a b, s = a ++ '_' :: '_' :: b

end Verif.Spec
