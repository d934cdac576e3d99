import Verif.Model.Deprecation
/-!
# What attaching deprecation warnings should do
-/

namespace Verif.Spec
open Verif

/-- The attribute is `#[deprecated]`, `#[deprecated(…)]` or `#[deprecated = …]`. -/
def Deprecated (a : Attr) : Prop :=
  ∃ rest, a.body = .ident (S "deprecated") :: rest ∧ ∀ j r, rest ≠ .punct ':' j :: r

/-- No attribute of the list is a `deprecated` attribute. -/
def Fresh (as : List Attr) : Prop := ∀ a ∈ as, ¬ Deprecated a

mutual
/-- The attributes of the nodes that can be deprecated, in the order of the text (a node before those inside it). -/
def nodeAttrs1 : Cst → List (List Attr)
  | .toks _ => []
  | .group _ cs => nodeAttrs cs
  | .node attrs cs => attrs :: nodeAttrs cs
def nodeAttrs : List Cst → List (List Attr)
  | [] => []
  | c :: cs => nodeAttrs1 c ++ nodeAttrs cs
end

/-- `Inserts xs a b`: `b` is `a` with the token lists `xs` inserted, in this order, at some places at any depth. -/
inductive Inserts : List Toks → Toks → Toks → Prop
  | nil : Inserts [] [] []
  | keep {xs a b} (t : Tok) : Inserts xs a b → Inserts xs (t :: a) (t :: b)
  | group {xs ys us vs a b} (d : Delim) : Inserts xs us vs → Inserts ys a b → Inserts (xs ++ ys) (.group d us :: a) (.group d vs :: b)
  | insert {xs a b} (x : Toks) : Inserts xs a b → Inserts (x :: xs) a (x ++ b)

/-- The tokens of the attribute that reports a warning. -/
def warningToks (repr : Str → Str) (pre : Str) (w : Warning) : Toks :=
  [.punct '#' false, .group .bracket [.ident (S "deprecated"), .group .paren
    [.ident (S "since"), .punct '=' false, .lit (.str (repr w.since) w.since), .punct ',' false,
     .ident (S "note"), .punct '=' false, .lit (.str (repr (pre ++ w.note)) (pre ++ w.note)), .punct ',' false]]]

/-- The same, as an attribute. -/
def warningAttr (repr : Str → Str) (pre : Str) (w : Warning) : Attr :=
  ⟨false, [.ident (S "deprecated"), .group .paren
    [.ident (S "since"), .punct '=' false, .lit (.str (repr w.since) w.since), .punct ',' false,
     .ident (S "note"), .punct '=' false, .lit (.str (repr (pre ++ w.note)) (pre ++ w.note)), .punct ',' false]]⟩

/-- The number of nodes that are not deprecated yet. -/
noncomputable def freshCount : List (List Attr) → Nat
  | [] => 0
  | as :: rest => (open Classical in if Fresh as then 1 else 0) + freshCount rest

/-- The attributes after the given warnings have been handed out, one to each node not deprecated yet, in order. -/
noncomputable def handOut (repr : Str → Str) (pre : Str) : List (List Attr) → List Warning → List (List Attr)
  | [], _ => []
  | as :: rest, [] => as :: rest
  | as :: rest, w :: ws =>
    open Classical in
    if Fresh as then (as ++ [warningAttr repr pre w]) :: handOut repr pre rest ws else as :: handOut repr pre rest (w :: ws)

end Verif.Spec
