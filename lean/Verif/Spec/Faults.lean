import Verif.Model.Diagnose
import Verif.Spec.Run
/-!
# Mistakes in the syntax

`…Fault … w r`: the input can be read up to the place where `r` is left, and what is wrong there is `w`. The relations `Reads…` are
those of `Spec/Syntax`.
-/

namespace Verif.Spec

/-- What is wrong with a loop alias: there is no name, or the tuple cannot be read. -/
inductive AliasFault : Toks → Why → Toks → Prop
  | name {ts : Toks} (hp : ∀ c r, ¬ First ts (.group .paren c) r) (hn : ∀ n r, First ts (.ident n) r → n ∈ keywords) :
      AliasFault ts .name ts
  | tuple {ts c r : Toks} (hp : First ts (.group .paren c) r) (hn : ∀ as, ¬ CommaList (ReadsTup ReadsAlias) c as) :
      AliasFault ts .loopAlias ts

/-- A value in the list of a loop is followed by something else than a comma. -/
inductive ValuesFault (known : Str → Bool) (Y : Syn) : Toks → Toks → Prop
  | here {ts : Toks} {v : PLoopElem Expr} {t : Tok} {r : Toks} (hne : ts ≠ []) (h : ReadsElem (ReadsExpr known Y) ts v (t :: r))
      (ht : ∀ j, t ≠ .punct ',' j) : ValuesFault known Y ts (t :: r)
  | later {ts : Toks} {v : PLoopElem Expr} {j : Bool} {mid r : Toks} (hne : ts ≠ [])
      (h : ReadsElem (ReadsExpr known Y) ts v (.punct ',' j :: mid)) (hs : ValuesFault known Y mid r) : ValuesFault known Y ts r

/-- What is wrong with a loop, after the `for`. -/
inductive LoopFault (known : Str → Bool) (Y : Syn) : Toks → Why → Toks → Prop
  | alias {ts : Toks} {w : Why} {r : Toks} (h : AliasFault ts w r) : LoopFault known Y ts w r
  | kwIn {ts : Toks} {a : PLoopElem Alias} {r : Toks} (h : ReadsElem ReadsAlias ts a r) (hi : ∀ mid, r ≠ .ident (S "in") :: mid) :
      LoopFault known Y ts .kwIn r
  | brackets {ts : Toks} {a : PLoopElem Alias} {r : Toks} (h : ReadsElem ReadsAlias ts a (.ident (S "in") :: r))
      (hb : ∀ c r', ¬ First r (.group .bracket c) r') : LoopFault known Y ts .brackets r
  | values {ts : Toks} {a : PLoopElem Alias} {mid c r' r : Toks} (h : ReadsElem ReadsAlias ts a (.ident (S "in") :: mid))
      (hb : First mid (.group .bracket c) r') (hv : ValuesFault known Y c r) : LoopFault known Y ts .comma r

/-- One of the loops is wrong, the ones before it are not. -/
inductive LoopsFault (known : Str → Bool) (Y : Syn) : Toks → Why → Toks → Prop
  | here {ts : Toks} {w : Why} {r : Toks} (h : LoopFault known Y ts w r) : LoopsFault known Y (.ident (S "for") :: ts) w r
  | later {ts mid : Toks} {l : PLoop} {w : Why} {r : Toks} (h : ReadsLoop known Y ts l mid) (hs : LoopsFault known Y mid w r) :
      LoopsFault known Y ts w r

/-- What is wrong with a definition: there is no `=`, or something else than a separator follows. -/
inductive ItemFault (known : Str → Bool) (Y : Syn) : Toks → Why → Toks → Prop
  | equals {ts : Toks} {n : Str} {r : Toks} (ha : First ts (.ident n) r) (hn : n ∉ keywords) (he : ∀ j mid, r ≠ .punct '=' j :: mid) :
      ItemFault known Y ts .equals r
  | separator {ts : Toks} {n : Str} {j : Bool} {mid : Toks} {e : Expr} {t : Tok} {r : Toks} (ha : First ts (.ident n) (.punct '=' j :: mid))
      (hn : n ∉ keywords) (h : ReadsExpr known Y mid e (t :: r)) (ht : ∀ b, ¬ IsSep b t) : ItemFault known Y ts .separator (t :: r)

/-- One of the definitions is wrong, or followed by another separator than the ones before; `b` is the separator used so far. -/
inductive ItemsFault (known : Str → Bool) (Y : Syn) : Option Bool → Toks → Why → Toks → Prop
  | here {b : Option Bool} {ts : Toks} {w : Why} {r : Toks} (h : ItemFault known Y ts w r) : ItemsFault known Y b ts w r
  | mixed {ts : Toks} {i : PItem} {b c : Bool} {t : Tok} {r : Toks} (h : ReadsItem known Y ts i (t :: r)) (hs : IsSep c t) (hc : c ≠ b) :
      ItemsFault known Y (some b) ts .mixed r
  | later {b : Option Bool} {ts : Toks} {i : PItem} {c : Bool} {t : Tok} {mid : Toks} {n : Str} {r' : Toks} {w : Why} {r : Toks}
      (h : ReadsItem known Y ts i (t :: mid)) (hs : IsSep c t) (hb : b = none ∨ b = some c) (hm : First mid (.ident n) r') (hn : n ∉ keywords)
      (hr : ItemsFault known Y (some c) mid w r) : ItemsFault known Y b ts w r

/-- Something is wrong with the loops or the definitions. -/
inductive HeaderFault (known : Str → Bool) (Y : Syn) : Toks → Why → Toks → Prop
  | loops {ts : Toks} {w : Why} {r : Toks} (h : LoopsFault known Y ts w r) : HeaderFault known Y ts w r
  | items {ts : Toks} {ls : Option PLoops} {mid : Toks} {n : Str} {r' : Toks} {w : Why} {r : Toks} (hl : ReadsOptLoops Y known ts ls mid)
      (hm : First mid (.ident n) r') (hn : n ∉ keywords) (h : ItemsFault known Y none mid w r) : HeaderFault known Y ts w r

/-- What is wrong with the input of `compose!`. -/
inductive InputFault (known : Str → Bool) (Y : Syn) : Toks → Why → Toks → Prop
  | header {ts : Toks} {w : Why} {r : Toks} (h : HeaderFault known Y ts w r) : InputFault known Y ts w r
  | braces {ts : Toks} {h : Option PLoops × Option PSpec} {r : Toks} (hh : ReadsHeader known Y ts h r)
      (hb : ∀ b r', ¬ First r (.group .brace b) r') : InputFault known Y ts .braces r
  | block {ts mid : Toks} {h : Option PLoops × Option PSpec} {b r' : Toks} (hh : ReadsHeader known Y ts h mid)
      (hb : First mid (.group .brace b) r') (hp : Y.parseBlock b = none) : InputFault known Y ts .block b
  | mixed {ts mid : Toks} {ls : Option PLoops} {s : PSpec} {b : Toks} {block : List Stmt} {c : Bool} {t : Tok} {r : Toks}
      (hh : ReadsHeader known Y ts (ls, some s) mid) (hb : First mid (.group .brace b) (t :: r)) (hp : Y.parseBlock b = some block)
      (ht : IsSep c t) (hc : s.comma ≠ some c) : InputFault known Y ts .mixed r
  | leftOver {ts mid : Toks} {ls : Option PLoops} {s : Option PSpec} {b r' : Toks} {block : List Stmt} {t : Tok} {r : Toks}
      (hh : ReadsHeader known Y ts (ls, s) mid) (hb : First mid (.group .brace b) r') (hp : Y.parseBlock b = some block)
      (hr : (r' = t :: r ∧ ∀ c, ¬ IsSep c t) ∨
        ∃ c u, r' = u :: t :: r ∧ IsSep c u ∧ ∀ s', s = some s' → s'.comma = some c) : InputFault known Y ts .leftOver (t :: r)

/-- What is wrong with the attribute of `#[compose_item]`. -/
inductive AttrFault (known : Str → Bool) (Y : Syn) : Toks → Why → Toks → Prop
  | header {ts : Toks} {w : Why} {r : Toks} (h : HeaderFault known Y ts w r) : AttrFault known Y ts w r
  | loopsSep {ts : Toks} {ls : PLoops} {c : Bool} {t : Tok} {r : Toks} (hh : ReadsHeader known Y ts (some ls, none) (t :: r)) (ht : IsSep c t) :
      AttrFault known Y ts .loopsSep (t :: r)
  | leftOver {ts : Toks} {ls : Option PLoops} {s : Option PSpec} {t : Tok} {r : Toks} {r' : Toks} (hh : ReadsHeader known Y ts (ls, s) r')
      (hr : (r' = t :: r ∧ (∀ c, ¬ IsSep c t)) ∨ (r' = t :: r ∧ ls = none ∧ s = none) ∨ ∃ c u, r' = u :: t :: r ∧ IsSep c u ∧ s.isSome) :
      AttrFault known Y ts .leftOver (t :: r)

/-- What is wrong with an invocation. -/
inductive SyntaxFault (W : World) : Invocation → Why → Toks → Prop
  | compose {ts : Toks} {w : Why} {r : Toks} (h : InputFault isBuiltin W.Y ts w r) : SyntaxFault W (.compose ts) w r
  | composeIdents {ts : Toks} {w : Why} {r : Toks} (h : InputFault isBuiltin W.Y ts w r) : SyntaxFault W (.composeIdents ts) w r
  | attr {attr item : Toks} {w : Why} {r : Toks} (h : AttrFault isBuiltin W.Y attr w r) : SyntaxFault W (.composeItem attr item) w r
  | item {attr item : Toks} {a : PAst} (h : ReadsAttr isBuiltin W.Y attr a) (hp : W.Y.parseBlock item = none) :
      SyntaxFault W (.composeItem attr item) .block item

end Verif.Spec
