import Verif.Model.Basic
/-! # The token-level stream walker (`src/substitution/stream_visitor.rs`) -/

namespace Verif

/-- An element of the stack of `VisitorCtx` (lines 207-209): cursor and tokens of a group. -/
structure Frame where
  idx : Nat
  toks : Toks

/-- `VisitorCtx`, lines 207-213. The back of the `VecDeque` (the innermost group) is the head of the list. -/
abbrev Ctx := List Frame

/-- `StreamVisitorAction`, lines 342-352. -/
inductive Action where
  | cont
  | skip
  | replace (ts : Toks)

/-- `trait StreamVisitor`, lines 359-407, with the visitor state `σ` (`&mut self`) threaded through. -/
structure Visitor (σ : Type) where
  visitIdent : σ → Ctx → Str → Res (σ × Action)
  visitPunct : σ → Ctx → Char → Bool → Res (σ × Action)
  visitLiteral : σ → Ctx → Lit → Res (σ × Action)
  visitGroup : σ → Ctx → Delim → Toks → Res (σ × Action)
  enterGroup : σ → Ctx → Toks → Res (σ × Action)
  exitGroup : σ → Ctx → Toks → Res (σ × Action)
  afterReplace : σ → Ctx → Res σ

/-- The default methods of the trait: every hook continues. -/
def Visitor.default (σ : Type) : Visitor σ where
  visitIdent s _ _ := .ok (s, .cont)
  visitPunct s _ _ _ := .ok (s, .cont)
  visitLiteral s _ _ := .ok (s, .cont)
  visitGroup s _ _ _ := .ok (s, .cont)
  enterGroup s _ _ := .ok (s, .cont)
  exitGroup s _ _ := .ok (s, .cont)
  afterReplace s _ := .ok s

namespace Ctx

/-- `replace_current_token`, lines 239-246. (Only called when there is a current token, so `splice` is in range.) -/
def replaceCurrentToken (new : Toks) : Ctx → Ctx
  | ⟨i, ts⟩ :: st =>
    let ts' := ts.take i ++ new ++ ts.drop (i + 1)
    ⟨min ts'.length (i + (new.length - 1)), ts'⟩ :: st
  | [] => []

/-- `remove_current_token`, lines 248-254. -/
def removeCurrentToken : Ctx → Ctx
  | ⟨i, ts⟩ :: st => ⟨i, if i < ts.length then ts.take i ++ ts.drop (i + 1) else ts⟩ :: st
  | [] => []

/-- `fold_group`, lines 261-274: panics if `parent[i]` is out of range or not a group; keeps the delimiter. -/
def foldGroup (group parent : Toks) (i : Nat) : Res Toks :=
  match parent[i]? with
  | some (.group d _) => .ok (parent.set i (.group d group))
  | _ => .panic

/-- `pop_fold`, lines 281-288. -/
def popFold : Ctx → Res Ctx
  | ⟨_, ts⟩ :: ⟨j, us⟩ :: st => do
    let us' ← foldGroup ts us j
    .ok (⟨j, us'⟩ :: st)
  | [_] => .ok []
  | [] => .ok []

/-- `pop_remove`, lines 290-297; `Vec::remove` panics out of range. -/
def popRemove : Ctx → Res Ctx
  | _ :: ⟨j, us⟩ :: st => if j < us.length then .ok (⟨j, us.take j ++ us.drop (j + 1)⟩ :: st) else .panic
  | [_] => .ok []
  | [] => .ok []

/-- `advance_current_group`, lines 299-303. -/
def advance : Ctx → Ctx
  | ⟨i, ts⟩ :: st => ⟨min ts.length (i + 1), ts⟩ :: st
  | [] => []

/-- `replace_current_group`, lines 305-310 (the cursor is not touched). -/
def replaceCurrentGroup (new : Toks) : Ctx → Ctx
  | ⟨i, _⟩ :: st => ⟨i, new⟩ :: st
  | [] => []

/-- The fold of `current_stream`, lines 332-337: the accumulated inner group is folded into the enclosing ones. -/
def foldFrames : Toks → Ctx → Res Toks
  | acc, [] => .ok acc
  | acc, ⟨i, ts⟩ :: st => do
    let ts' ← foldGroup acc ts i
    foldFrames ts' st

/-- `current_stream`, lines 317-337. -/
def currentStream : Ctx → Res Toks
  | [] => .ok []
  | ⟨_, ts⟩ :: st => foldFrames ts st

end Ctx

/-- The hook for a token that is not a group, lines 160-167 (groups were handled before). -/
def Visitor.visitLeaf {σ : Type} (v : Visitor σ) (s : σ) (c : Ctx) : Tok → Res (σ × Action)
  | .ident n => v.visitIdent s c n
  | .punct ch j => v.visitPunct s c ch j
  | .lit l => v.visitLiteral s c l
  | .group _ _ => .panic

/-- Result of one iteration of the main loop: go on or return. -/
inductive StepOut (σ : Type) where
  | next (s : σ) (c : Ctx)
  | done (ts : Toks)

open Ctx in
/-- One iteration of `StreamWalker::walk`, lines 44-200, arm by arm. -/
def walkStep {σ : Type} (v : Visitor σ) (s : σ) (c : Ctx) : Res (StepOut σ) :=
  match c with
  -- lines 52-54: `unreachable!()`
  | [] => .panic
  | ⟨i, ts⟩ :: parents =>
    if ts.length ≤ i then do
      let (s, act) ← v.exitGroup s c ts
      match parents with
      -- lines 56-79: all tokens have been processed
      | [] =>
        match act with
        | .cont => .ok (.done ts)
        | .skip => .ok (.done [])
        | .replace new => do
          let _ ← v.afterReplace s (replaceCurrentGroup new c)
          .ok (.done new)
      -- lines 81-105: current group is exhausted
      | _ :: _ =>
        match act with
        | .cont => do
          let c ← popFold c
          .ok (.next s (advance c))
        | .skip => do
          let c ← popRemove c
          .ok (.next s c)
        | .replace new => do
          let c ← popFold (replaceCurrentGroup new c)
          let c := advance c
          let s ← v.afterReplace s c
          .ok (.next s c)
    else
      match ts[i]? with
      -- line 199: `unreachable!()`
      | none => .panic
      -- lines 107-157: a new group
      | some (.group d us) => do
        let (s, act) ← v.visitGroup s c d us
        match act with
        | .cont => do
          let c := ⟨0, us⟩ :: c
          let (s, act) ← v.enterGroup s c us
          match act with
          | .cont => .ok (.next s c)
          | .skip => do
            let c ← popRemove c
            .ok (.next s c)
          | .replace new => do
            let c := replaceCurrentGroup new c
            let s ← v.afterReplace s c
            .ok (.next s c)
        | .skip => .ok (.next s (removeCurrentToken c))
        | .replace new => do
          let c := replaceCurrentToken new c
          let c := if new.isEmpty then c else advance c
          let s ← v.afterReplace s c
          .ok (.next s c)
      -- lines 159-198: any other token
      | some t => do
        let (s, act) ← v.visitLeaf s c t
        match act with
        | .cont => .ok (.next s (advance c))
        | .skip => .ok (.next s (removeCurrentToken c))
        | .replace new => do
          let c := replaceCurrentToken new c
          let c := if new.isEmpty then c else advance c
          let s ← v.afterReplace s c
          .ok (.next s c)

/-- The main loop, cut off after `n` iterations (`none`). -/
def walkN {σ : Type} (v : Visitor σ) : Nat → σ → Ctx → Option (Res Toks)
  | 0, _, _ => none
  | n + 1, s, c =>
    match walkStep v s c with
    | .ok (.done ts) => some (.ok ts)
    | .ok (.next s c) => walkN v n s c
    | .err e => some (.err e)
    | .panic => some .panic

mutual
/-- Number of loop iterations a token needs when it is not replaced: one, or one on entering and one on
leaving a group plus those for its contents. -/
def Tok.weight : Tok → Nat
  | .group _ ts => 2 + Tok.weightL ts
  | _ => 1
def Tok.weightL : Toks → Nat
  | [] => 0
  | t :: ts => Tok.weight t + Tok.weightL ts
end

/-- `StreamWalker::walk`, lines 36-202. The loop is given `weight + 1` iterations; `C15_walk_terminates` shows that this is
always enough for visitors that do not rewrite a group on entry, so that the fallback (`panic`) is never used. -/
def walk {σ : Type} (v : Visitor σ) (s : σ) (ts : Toks) : Res Toks :=
  (walkN v (Tok.weightL ts + 1) s [⟨0, ts⟩]).getD .panic

end Verif
