import Verif.Model.Subst
/-!
# What the substitution parses (`src/substitution/substitute_idents.rs`)

The model of `Model/Walker` and `Model/Subst` once more, with a record of every token stream handed to `syn::parse2::<N>`,
where `N` is the type of the node; the parsing of single literals as strings (line 61) is not recorded.
`Proofs/Parses` shows that, without the record, it is the same.
-/

namespace Verif

/-- A result together with the streams parsed on the way, in order (also when it is an error or a panic). The source has no
such record. -/
structure Logged (α : Type) where
  res : Res α
  parsed : List Toks

namespace Logged

def ok {α} (a : α) : Logged α := ⟨.ok a, []⟩
def panic {α} : Logged α := ⟨.panic, []⟩
def lift {α} (r : Res α) : Logged α := ⟨r, []⟩

/-- `?`, with the records one after the other. -/
def bind {α β} (x : Logged α) (f : α → Logged β) : Logged β :=
  match x with
  | ⟨.ok a, l⟩ => ⟨(f a).res, l ++ (f a).parsed⟩
  | ⟨.err e, l⟩ => ⟨.err e, l⟩
  | ⟨.panic, l⟩ => ⟨.panic, l⟩

instance : Monad Logged where
  pure := Logged.ok
  bind := Logged.bind

end Logged

open Ctx in
/-- One iteration of `StreamWalker::walk`, `src/substitution/stream_visitor.rs:44-200`, arm by arm, as in `walkStep`; the hook
`after_replace` is replaced by the given one, which says what it parses. -/
def walkStepP {σ : Type} (v : Visitor σ) (after : σ → Ctx → Logged σ) (s : σ) (c : Ctx) : Logged (StepOut σ) :=
  match c with
  -- lines 52-54: `unreachable!()`
  | [] => Logged.panic
  | ⟨i, ts⟩ :: parents =>
    if ts.length ≤ i then do
      let (s, act) ← Logged.lift (v.exitGroup s c ts)
      match parents with
      -- lines 56-79: all tokens have been processed
      | [] =>
        match act with
        | .cont => Logged.ok (.done ts)
        | .skip => Logged.ok (.done [])
        | .replace new => do
          let _ ← after s (replaceCurrentGroup new c)
          Logged.ok (.done new)
      -- lines 81-105: current group is exhausted
      | _ :: _ =>
        match act with
        | .cont => do
          let c ← Logged.lift (popFold c)
          Logged.ok (.next s (advance c))
        | .skip => do
          let c ← Logged.lift (popRemove c)
          Logged.ok (.next s c)
        | .replace new => do
          let c ← Logged.lift (popFold (replaceCurrentGroup new c))
          let c := advance c
          let s ← after s c
          Logged.ok (.next s c)
    else
      match ts[i]? with
      -- line 199: `unreachable!()`
      | none => Logged.panic
      -- lines 107-157: a new group
      | some (.group d us) => do
        let (s, act) ← Logged.lift (v.visitGroup s c d us)
        match act with
        | .cont => do
          let c := ⟨0, us⟩ :: c
          let (s, act) ← Logged.lift (v.enterGroup s c us)
          match act with
          | .cont => Logged.ok (.next s c)
          | .skip => do
            let c ← Logged.lift (popRemove c)
            Logged.ok (.next s c)
          | .replace new => do
            let c := replaceCurrentGroup new c
            let s ← after s c
            Logged.ok (.next s c)
        | .skip => Logged.ok (.next s (removeCurrentToken c))
        | .replace new => do
          let c := replaceCurrentToken new c
          let c := if new.isEmpty then c else advance c
          let s ← after s c
          Logged.ok (.next s c)
      -- lines 159-198: any other token
      | some t => do
        let (s, act) ← Logged.lift (v.visitLeaf s c t)
        match act with
        | .cont => Logged.ok (.next s (advance c))
        | .skip => Logged.ok (.next s (removeCurrentToken c))
        | .replace new => do
          let c := replaceCurrentToken new c
          let c := if new.isEmpty then c else advance c
          let s ← after s c
          Logged.ok (.next s c)

/-- The main loop, cut off after `n` iterations (`none`); the log is kept all the same. -/
def walkNP {σ : Type} (v : Visitor σ) (after : σ → Ctx → Logged σ) : Nat → σ → Ctx → Option (Res Toks) × List Toks
  | 0, _, _ => (none, [])
  | n + 1, s, c =>
    match walkStepP v after s c with
    | ⟨.ok (.done ts), l⟩ => (some (.ok ts), l)
    | ⟨.ok (.next s c), l⟩ => let r := walkNP v after n s c; (r.1, l ++ r.2)
    | ⟨.err e, l⟩ => (some (.err e), l)
    | ⟨.panic, l⟩ => (some .panic, l)

/-- `StreamWalker::walk`, `src/substitution/stream_visitor.rs:36-202`, as in `walk`. -/
def walkP {σ : Type} (v : Visitor σ) (after : σ → Ctx → Logged σ) (s : σ) (ts : Toks) : Logged Toks :=
  let r := walkNP v after (Tok.weightL ts + 1) s [⟨0, ts⟩]
  ⟨r.1.getD .panic, r.2⟩

/-- `after_replace` of `SubstituteIdentsVisitor`, `src/substitution/substitute_idents.rs:69-89`: the current stream is parsed
once (line 71). -/
def afterReplaceP (E : Ext) (valid : Toks → Bool) (subs : Subs) (s : SubstState) (c : Ctx) : Logged SubstState :=
  match Ctx.currentStream c with
  | .ok ts => ⟨(substVisitor E valid subs).afterReplace s c, [ts]⟩
  | _ => ⟨(substVisitor E valid subs).afterReplace s c, []⟩

/-- `substitute_idents`, `src/substitution/substitute_idents.rs:94-115`: the result is parsed once more at the end. -/
def substituteIdentsP (E : Ext) (valid : Toks → Bool) (subs : Subs) (node : Toks) : Logged Toks :=
  (walkP (substVisitor E valid subs) (afterReplaceP E valid subs) none node).bind
    (fun ts => ⟨if valid ts then .ok ts else .panic, [ts]⟩)

end Verif
