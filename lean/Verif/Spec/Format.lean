import Verif.Model.Value
/-! # Specification of string formatting, over percent-free pieces and runs of percents -/

namespace Verif.Spec
open Verif

/-- The text put in place of `%body%`: the alias value if `body` without its whitespace names an alias,
otherwise the placeholder itself. -/
def expandPlaceholder (C : CharClass) (look : Str → Option Str) (body : Str) : Str :=
  match look (body.filter (fun c => !C.whitespace c)) with
  | some v => v
  | none => '%' :: (body ++ ['%'])

/-- `Formats C look s o`: formatting the string `s` gives `o`. `pre` and `body` are percent-free,
`post` does not start with a percent (so the runs below are maximal). -/
inductive Formats (C : CharClass) (look : Str → Option Str) : Str → Str → Prop
  /-- no percent: unchanged -/
  | plain (s : Str) (h : '%' ∉ s) : Formats C look s s
  /-- a percent that is never closed: unchanged -/
  | unclosed (pre body : Str) (hp : '%' ∉ pre) (hb : '%' ∉ body) :
      Formats C look (pre ++ '%' :: body) (pre ++ '%' :: body)
  /-- a run of at least two percents loses one -/
  | run (pre post o : Str) (k : Nat) (hp : '%' ∉ pre) (hpost : post.head? ≠ some '%')
      (h : Formats C look post o) :
      Formats C look (pre ++ List.replicate (k + 2) '%' ++ post) (pre ++ List.replicate (k + 1) '%' ++ o)
  /-- a placeholder; further percents directly after it are kept as they are -/
  | placeholder (pre body post o : Str) (k : Nat) (hp : '%' ∉ pre) (hb : '%' ∉ body) (hne : body ≠ [])
      (hpost : post.head? ≠ some '%') (h : Formats C look post o) :
      Formats C look (pre ++ '%' :: body ++ '%' :: List.replicate k '%' ++ post)
        (pre ++ expandPlaceholder C look body ++ List.replicate k '%' ++ o)

/-- What an alias with a given value stands for in a string: an identifier for its name, a string for its contents, a path for the
names of its segments, and other code for itself, as text. -/
def stringForm (E : Ext) : VKind → Str
  | .ident s => s
  | .litStr _ v => v
  | .path ts => (c! "::").intercalate (E.pathSegs ts)
  | .litInt i => if i.neg then '-' :: i.repr else i.repr
  | .type ts | .expr ts | .tokens ts | .raw ts => E.render ts

/-- A path of names only. -/
inductive PlainPath : Toks → List Str → Prop
  | one (s : Str) (hs : s ∉ keywords) : PlainPath [.ident s] [s]
  | more (s : Str) {ts : Toks} {ss : List Str} (hs : s ∉ keywords) (h : PlainPath ts ss) :
      PlainPath (.ident s :: .punct ':' true :: .punct ':' false :: ts) (s :: ss)

/-- The documented escaping: every percent is doubled. -/
def escapePercent (s : Str) : Str := s.flatMap (fun c => if c = '%' then ['%', '%'] else [c])

/-- Two adjacent percents occur somewhere. -/
def HasDoublePercent (s : Str) : Prop := ∃ a b, s = a ++ '%' :: '%' :: b

end Verif.Spec
