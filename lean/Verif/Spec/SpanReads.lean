import Verif.Spec.Spans
import Verif.Spec.Syntax
/-!
# Where the nodes of the parsed input stand

The relations here take tokens with spans and the tree they are read as (`Spec/Syntax`), and say which spans the nodes of the tree have. They follow the tree:
whether the tokens are to be read as this tree is said by the relations of the same shape in `Spec/Syntax`.
-/

namespace Verif.Spec
open Verif

variable {σ : Type}

/-- `FirstS ts t rest`: the token `t` comes first and `rest` after it, when groups without delimiters are seen as their content. -/
inductive FirstS : SToks σ → STok σ → SToks σ → Prop
  | here {t : STok σ} {rest : SToks σ} (h : ∀ c sp, t ≠ .group .none c sp) : FirstS (t :: rest) t rest
  | inside {c : SToks σ} {t : STok σ} {sp : σ} {r rest : SToks σ} (h : FirstS c t r) : FirstS (.group .none c sp :: rest) t (r ++ rest)
  | skip {c : SToks σ} {t : STok σ} {sp : σ} {ts rest : SToks σ} (hc : Blank (STok.eraseL c)) (h : FirstS ts t rest) :
      FirstS (.group .none c sp :: ts) t rest

/-- The value `v` is what stands first; `rest` comes after it. -/
inductive StandsVal (Y : Syn) (P : SpanOps σ) : SToks σ → SVal σ → SToks σ → Prop
  | int {ts : SToks σ} {r : Str} {n : Nat} {sp : σ} {rest : SToks σ} (h : FirstS ts (.lit (.int r n) sp) rest) :
      StandsVal Y P ts (.litInt ⟨false, r, n⟩ sp) rest
  /-- the span of a negative number covers the sign and the number -/
  | negInt {ts ts' : SToks σ} {j : Bool} {sp : σ} {r : Str} {n : Nat} {sq : σ} {rest : SToks σ} (h : FirstS ts (.punct '-' j sp) ts')
      (h' : FirstS ts' (.lit (.int r n) sq) rest) : StandsVal Y P ts (.litInt ⟨true, r, n⟩ (P.join sp sq)) rest
  | str {ts : SToks σ} {r v : Str} {sp : σ} {rest : SToks σ} (h : FirstS ts (.lit (.str r v) sp) rest) : StandsVal Y P ts (.litStr r v sp) rest
  | ident {ts : SToks σ} {n : Str} {sp : σ} {rest : SToks σ} (h : FirstS ts (.ident n sp) rest) : StandsVal Y P ts (.ident n sp) rest
  | path (ts : SToks σ) (n : Nat) (h : Y.path (STok.eraseL ts) = some n) : StandsVal Y P ts (.path (ts.take n)) (ts.drop n)
  | type (ts : SToks σ) (n : Nat) (h : Y.type (STok.eraseL ts) = some n) : StandsVal Y P ts (.type (ts.take n)) (ts.drop n)
  | expr (ts : SToks σ) (n : Nat) (h : Y.expr (STok.eraseL ts) = some n) : StandsVal Y P ts (.expr (ts.take n)) (ts.drop n)
  | tokens (used rest : SToks σ) : StandsVal Y P (used ++ rest) (.tokens used) rest

/-- The pieces between commas; a final empty piece is dropped. -/
def piecesS : SToks σ → List (SToks σ)
  | [] => []
  | .punct ',' _ _ :: ts => [] :: piecesS ts
  | t :: ts =>
    match piecesS ts with
    | [] => [[t]]
    | p :: ps => (t :: p) :: ps

section
variable (Y : Syn) (P : SpanOps σ) (src : Source σ)

mutual
/-- `Stands Y P src ts e rest`: `src` says of the nodes of `e` what stands in `ts`, before `rest`. -/
inductive Stands : SToks σ → Expr → SToks σ → Prop
  /-- a value points to itself -/
  | value {ts : SToks σ} {v : SVal σ} {rest : SToks σ} {id : Nat} (h : StandsVal Y P ts v rest) (hv : src.vals id = v) :
      Stands ts (.value id v.erase) rest
  /-- a call points to the name of the function, and each argument to itself -/
  | call {ts ts' raw rest : SToks σ} {n : Str} {sp sq : σ} {id rid : Nat} {args : List Expr} (h : FirstS ts (.ident n sp) ts')
      (h' : FirstS ts' (.group .paren raw sq) rest) (hc : src.calls id = sp) (hr : src.vals rid = .raw raw) (ha : StandsL (piecesS raw) args) :
      Stands ts (.call id n args (some (rid, STok.eraseL raw))) rest
  /-- the arguments can be missing -/
  | dropped {ts ts' raw rest : SToks σ} {n : Str} {sp sq : σ} {id rid : Nat} (h : FirstS ts (.ident n sp) ts')
      (h' : FirstS ts' (.group .paren raw sq) rest) (hc : src.calls id = sp) (hr : src.vals rid = .raw raw) :
      Stands ts (.call id n [] (some (rid, STok.eraseL raw))) rest
/-- Each piece is one argument. -/
inductive StandsL : List (SToks σ) → List Expr → Prop
  | nil : StandsL [] []
  | cons {p : SToks σ} {ps : List (SToks σ)} {e : Expr} {es : List Expr} (h : Stands p e []) (hs : StandsL ps es) : StandsL (p :: ps) (e :: es)
end

end

/-- A list with commas between its elements, and perhaps one at the end; `R` says where an element stands. -/
inductive CommaListS {α : Type} (R : SToks σ → α → SToks σ → Prop) : SToks σ → List α → Prop
  | nil : CommaListS R [] []
  | last {ts : SToks σ} {a : α} (h : R ts a []) : CommaListS R ts [a]
  | cons {ts : SToks σ} {a : α} {as : List α} {j : Bool} {sp : σ} {rest : SToks σ} (h : R ts a (.punct ',' j sp :: rest))
      (hs : CommaListS R rest as) : CommaListS R ts (a :: as)

/-- An element of a tuple. -/
inductive StandsTup {α : Type} (R : SToks σ → α → SToks σ → Prop) : SToks σ → PTup α → SToks σ → Prop
  | val {ts : SToks σ} {a : α} {rest : SToks σ} (id : Nat) (h : R ts a rest) : StandsTup R ts (.val id a) rest
  | tup {ts c rest : SToks σ} {sp : σ} {as : List (PTup α)} (id tid : Nat) (hp : FirstS ts (.group .paren c sp) rest)
      (h : CommaListS (StandsTup R) c as) : StandsTup R ts (.tup id tid as) rest

/-- A loop alias or value. -/
inductive StandsElem {α : Type} (R : SToks σ → α → SToks σ → Prop) : SToks σ → PLoopElem α → SToks σ → Prop
  | tuple {ts c rest : SToks σ} {sp : σ} {as : List (PTup α)} (id : Nat) (hp : FirstS ts (.group .paren c sp) rest)
      (h : CommaListS (StandsTup R) c as) : StandsElem R ts (.tuple id as) rest
  | simple {ts : SToks σ} {a : α} {rest : SToks σ} (h : R ts a rest) : StandsElem R ts (.simple a) rest

/-- An alias. -/
inductive StandsAlias : SToks σ → Alias → SToks σ → Prop
  | mk {ts : SToks σ} {n : Str} {sp : σ} {rest : SToks σ} (id : Nat) (h : FirstS ts (.ident n sp) rest) : StandsAlias ts (id, n) rest

section
variable (Y : Syn) (P : SpanOps σ) (src : Source σ)

/-- `for alias in [values]`. -/
inductive StandsLoop : SToks σ → PLoop → SToks σ → Prop
  | mk {ts mid c rest : SToks σ} {sp sq sr : σ} {a : PLoopElem Alias} {vs : List (PLoopElem Expr)} (id lid : Nat)
      (ha : StandsElem StandsAlias ts a (.ident (S "in") sq :: mid)) (hb : FirstS mid (.group .bracket c sr) rest)
      (hv : CommaListS (StandsElem (Stands Y P src)) c vs) : StandsLoop (.ident (S "for") sp :: ts) ⟨id, a, lid, vs⟩ rest

/-- All loops. -/
inductive StandsLoops : SToks σ → List PLoop → SToks σ → Prop
  | nil {ts : SToks σ} : StandsLoops ts [] ts
  | cons {ts mid rest : SToks σ} {l : PLoop} {ls : List PLoop} (h : StandsLoop Y P src ts l mid) (hs : StandsLoops mid ls rest) :
      StandsLoops ts (l :: ls) rest

/-- `alias = value`. -/
inductive StandsItem : SToks σ → PItem → SToks σ → Prop
  | mk {n : Str} {j : Bool} {sp sq : σ} {ts ts' rest : SToks σ} {e : Expr} (id aid vid : Nat)
      (ha : FirstS ts (.ident n sp) (.punct '=' j sq :: ts')) (h : Stands Y P src ts' e rest) : StandsItem ts ⟨id, (aid, n), vid, e⟩ rest

/-- Definitions with separators after them; the last one may have none at the end of the tokens. -/
inductive StandsItems : SToks σ → List PItem → List Bool → SToks σ → Prop
  | last {ts : SToks σ} {i : PItem} (h : StandsItem Y P src ts i []) : StandsItems ts [i] [] []
  | lastSep {ts rest : SToks σ} {i : PItem} {b : Bool} {t : STok σ} (h : StandsItem Y P src ts i (t :: rest)) : StandsItems ts [i] [b] rest
  | cons {ts mid rest : SToks σ} {i : PItem} {b : Bool} {bs : List Bool} {t : STok σ} {is : List PItem}
      (h : StandsItem Y P src ts i (t :: mid)) (hr : StandsItems mid is bs rest) : StandsItems ts (i :: is) (b :: bs) rest

/-- The loops, if there are any. -/
inductive StandsOptLoops : SToks σ → Option PLoops → SToks σ → Prop
  | none {ts : SToks σ} : StandsOptLoops ts none ts
  | some {ts rest : SToks σ} {ls : List PLoop} (id : Nat) (h : StandsLoops Y P src ts ls rest) : StandsOptLoops ts (some ⟨id, ls⟩) rest

/-- The definitions, if there are any; `bs` are the separators. -/
inductive StandsOptSpec : SToks σ → Option PSpec → SToks σ → Prop
  | none {ts : SToks σ} : StandsOptSpec ts none ts
  | some {ts rest : SToks σ} {items : List PItem} {bs : List Bool} (id : Nat) (c : Option Bool) (h : StandsItems Y P src ts items bs rest) :
      StandsOptSpec ts (some ⟨id, items, c⟩) rest

/-- Loops and definitions. -/
inductive StandsHeader : SToks σ → Option PLoops × Option PSpec → SToks σ → Prop
  | mk {ts mid rest : SToks σ} {ls : Option PLoops} {s : Option PSpec} (hl : StandsOptLoops Y P src ts ls mid) (hs : StandsOptSpec Y P src mid s rest) :
      StandsHeader ts (ls, s) rest

/-- The loops and definitions of an invocation stand at the beginning of `ts`; what is behind them does not matter. -/
def StandsInput (ts : SToks σ) (a : PAst) : Prop := ∃ rest, StandsHeader Y P src ts (a.loops, a.spec) rest

end

mutual
/-- Two sources say the same about the nodes of an expression. -/
def SameAt (src src' : Source σ) : Expr → Prop
  | .value id _ => src.vals id = src'.vals id
  | .call id _ args raw => src.calls id = src'.calls id ∧ (∀ r, raw = some r → src.vals r.1 = src'.vals r.1) ∧ SameAtL src src' args
def SameAtL (src src' : Source σ) : List Expr → Prop
  | [] => True
  | e :: es => SameAt src src' e ∧ SameAtL src src' es
end

/-- The places that can be made from those in `ps`: the places themselves, the invocation, and what covers two places. -/
inductive Reach (P : SpanOps σ) (ps : List σ) : σ → Prop
  | mem {sp : σ} (h : sp ∈ ps) : Reach P ps sp
  | callSite : Reach P ps P.callSite
  | join {sp sq : σ} (h : Reach P ps sp) (h' : Reach P ps sq) : Reach P ps (P.join sp sq)

end Verif.Spec
