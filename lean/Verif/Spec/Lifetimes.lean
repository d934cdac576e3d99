import Verif.Spec.Text
/-!
# Lifetimes and labels

In a token stream a lifetime or label `'a` is a quote and the name `a`.
-/

namespace Verif.Spec
open Verif

/-- The lifetimes and labels in code, at any depth, in order. -/
def lifetimes : Toks → List Str
  | [] => []
  | .group _ us :: ts => lifetimes us ++ lifetimes ts
  | .punct c _ :: .ident n :: ts => if c = '\'' then n :: lifetimes ts else lifetimes ts
  | _ :: ts => lifetimes ts

/-- The code does not end in the middle of a lifetime, as no code does that can be written. -/
def wholeLifetimes (ts : Toks) : Prop := ∀ j, ts.getLast? ≠ some (.punct '\'' j)

/-- The name that an alias stands for; every other name stands for itself. -/
def nameFor (look : Str → Option Toks) (n : Str) : Str :=
  match look n with
  | some [.ident m] => m
  | _ => n

end Verif.Spec
