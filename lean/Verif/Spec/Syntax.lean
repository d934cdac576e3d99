import Verif.Model.Parse
import Verif.Spec.Typing
/-!
# The syntax, as relations between tokens and trees

These relations say which tokens stand for which tree, without saying how the parser finds out. They do not constrain
node ids.
-/

namespace Verif.Spec

/-- The tokens left are none, or begin with a comma. -/
inductive Ends : Toks → Prop
  | nil : Ends []
  | comma (j : Bool) (r : Toks) : Ends (.punct ',' j :: r)

/-- Nothing but groups without delimiters (and without content). -/
inductive Blank : Toks → Prop
  | nil : Blank []
  | cons {c ts : Toks} (hc : Blank c) (h : Blank ts) : Blank (.group .none c :: ts)

/-- `First ts t rest`: the token `t` comes first and `rest` after it, when groups without delimiters are seen as their content. -/
inductive First : Toks → Tok → Toks → Prop
  | here {t : Tok} {rest : Toks} (h : ∀ c, t ≠ .group .none c) : First (t :: rest) t rest
  | inside {c : Toks} {t : Tok} {r rest : Toks} (h : First c t r) : First (.group .none c :: rest) t (r ++ rest)
  | skip {c : Toks} {t : Tok} {ts rest : Toks} (hc : Blank c) (h : First ts t rest) : First (.group .none c :: ts) t rest

mutual
/-- All tokens of a tree, without the delimiters. -/
def flatTok : Tok → Toks
  | .group _ ts => flat ts
  | t => [t]
def flat : Toks → Toks
  | [] => []
  | t :: ts => flatTok t ++ flat ts
end

/-- `ReadsAs Y i ts v used rest`: the `i`-th kind of value accepts the tokens `used` at the beginning of `ts`, and leaves `rest`. -/
inductive ReadsAs (Y : Syn) : Nat → Toks → VKind → Toks → Toks → Prop
  | int {ts : Toks} {r : Str} {n : Nat} {rest : Toks} (h : First ts (.lit (.int r n)) rest) :
      ReadsAs Y 0 ts (.litInt ⟨false, r, n⟩) [.lit (.int r n)] rest
  | negInt {ts ts' : Toks} {j : Bool} {r : Str} {n : Nat} {rest : Toks} (h : First ts (.punct '-' j) ts') (h' : First ts' (.lit (.int r n)) rest) :
      ReadsAs Y 0 ts (.litInt ⟨true, r, n⟩) [.punct '-' j, .lit (.int r n)] rest
  | str {ts : Toks} {r v : Str} {rest : Toks} (h : First ts (.lit (.str r v)) rest) : ReadsAs Y 1 ts (.litStr r v) [.lit (.str r v)] rest
  | underscore {ts rest : Toks} (h : First ts (.ident (S "_")) rest) : ReadsAs Y 2 ts (.ident (S "_")) [.ident (S "_")] rest
  | ident {ts : Toks} {n : Str} {rest : Toks} (h : First ts (.ident n) rest) (hn : n ∉ keywords) : ReadsAs Y 3 ts (.ident n) [.ident n] rest
  | path (ts : Toks) (n : Nat) (h : Y.path ts = some n) : ReadsAs Y 4 ts (.path (ts.take n)) (ts.take n) (ts.drop n)
  | type (ts : Toks) (n : Nat) (h : Y.type ts = some n) : ReadsAs Y 5 ts (.type (ts.take n)) (ts.take n) (ts.drop n)
  | expr (ts : Toks) (n : Nat) (h : Y.expr ts = some n) : ReadsAs Y 6 ts (.expr (ts.take n)) (ts.take n) (ts.drop n)

/-- `ReadsValue Y ts v rest`: the longest reading that ends at a comma or at the end, the first kind among those of the same
length; if there is none, all tokens up to the comma. -/
inductive ReadsValue (Y : Syn) (ts : Toks) : VKind → Toks → Prop
  | longest (i : Nat) (v : VKind) (used rest : Toks) (h : ReadsAs Y i ts v used rest) (he : Ends rest)
      (hmax : ∀ j v' used' rest', ReadsAs Y j ts v' used' rest' → Ends rest' →
        (flat used').length < (flat used).length ∨ ((flat used').length = (flat used).length ∧ i ≤ j)) :
      ReadsValue Y ts v rest
  | tokens (used rest : Toks) (hnone : ∀ i v used rest, ReadsAs Y i ts v used rest → ¬ Ends rest)
      (h : ts = used ++ rest) (hc : ∀ j, .punct ',' j ∉ used) (he : Ends rest) : ReadsValue Y ts (.tokens used) rest

/-- The pieces between commas; a final empty piece is dropped. -/
def pieces : Toks → List Toks
  | [] => []
  | .punct ',' _ :: ts => [] :: pieces ts
  | t :: ts =>
    match pieces ts with
    | [] => [[t]]
    | p :: ps => (t :: p) :: ps

/-- `Joined ps ts`: the tokens `ts` are the pieces `ps` with commas between them and perhaps one at the end; the pieces have no
commas of their own. -/
inductive Joined : List Toks → Toks → Prop
  | nil : Joined [] []
  | last {p : Toks} (hc : ∀ j, .punct ',' j ∉ p) (hp : p ≠ []) : Joined [p] p
  | cons {p : Toks} {ps : List Toks} {ts : Toks} (j : Bool) (hc : ∀ j, .punct ',' j ∉ p) (h : Joined ps ts) :
      Joined (p :: ps) (p ++ .punct ',' j :: ts)

/-- `name ( raw ) rest`, the name being that of a function. -/
inductive CallAt (known : Str → Bool) : Toks → Str → Toks → Toks → Prop
  | mk {ts : Toks} {n : Str} {ts' raw rest : Toks} (h : First ts (.ident n) ts') (hk : known n = true) (hn : n ∉ keywords)
      (h' : First ts' (.group .paren raw) rest) : CallAt known ts n raw rest

mutual
/-- `ReadsExpr known Y ts e rest`: the beginning of `ts` is the expression `e`. -/
inductive ReadsExpr (known : Str → Bool) (Y : Syn) : Toks → Expr → Toks → Prop
  | call {ts : Toks} {n : Str} {raw rest : Toks} (id rid : Nat) {args : List Expr} (h : CallAt known ts n raw rest)
      (ha : ReadsPieces known Y (pieces raw) args) : ReadsExpr known Y ts (.call id n args (some (rid, raw))) rest
  | dropped {ts : Toks} {n : Str} {raw rest p : Toks} {e : Expr} {t : Tok} {left : Toks} (id rid : Nat) (h : CallAt known ts n raw rest)
      (hp : p ∈ pieces raw) (he : ReadsExpr known Y p e (t :: left)) : ReadsExpr known Y ts (.call id n [] (some (rid, raw))) rest
  | value {ts : Toks} {v : VKind} {rest : Toks} (id : Nat) (hn : ∀ n raw rest, ¬ CallAt known ts n raw rest)
      (h : ReadsValue Y ts v rest) : ReadsExpr known Y ts (.value id v) rest
/-- Each piece is one argument. -/
inductive ReadsPieces (known : Str → Bool) (Y : Syn) : List Toks → List Expr → Prop
  | nil : ReadsPieces known Y [] []
  | cons {p : Toks} {ps : List Toks} {e : Expr} {es : List Expr} (h : ReadsExpr known Y p e [])
      (hs : ReadsPieces known Y ps es) : ReadsPieces known Y (p :: ps) (e :: es)
end

/-- Something is left over when the tokens are read as an expression. -/
def Trailing (known : Str → Bool) (Y : Syn) (ts : Toks) : Prop := ∃ e t rest, ReadsExpr known Y ts e (t :: rest)

/-! ## Lists, tuples, loops -/

/-- A list with commas between its elements, and perhaps one at the end; `R` says what an element is. -/
inductive CommaList {α : Type} (R : Toks → α → Toks → Prop) : Toks → List α → Prop
  | nil : CommaList R [] []
  | last {ts : Toks} {a : α} (hne : ts ≠ []) (h : R ts a []) : CommaList R ts [a]
  | cons {ts : Toks} {a : α} {as : List α} {j : Bool} {rest : Toks} (hne : ts ≠ []) (h : R ts a (.punct ',' j :: rest))
      (hs : CommaList R rest as) : CommaList R ts (a :: as)

/-- An element of a tuple: a value, or a tuple again. -/
inductive ReadsTup {α : Type} (R : Toks → α → Toks → Prop) : Toks → PTup α → Toks → Prop
  | val {ts : Toks} {a : α} {rest : Toks} (id : Nat) (hp : ∀ c r, ¬ First ts (.group .paren c) r) (h : R ts a rest) :
      ReadsTup R ts (.val id a) rest
  | tup {ts c rest : Toks} {as : List (PTup α)} (id tid : Nat) (hp : First ts (.group .paren c) rest) (h : CommaList (ReadsTup R) c as) :
      ReadsTup R ts (.tup id tid as) rest

/-- A loop alias or value: a tuple if it can be read as one, otherwise something simple. -/
inductive ReadsElem {α : Type} (R : Toks → α → Toks → Prop) : Toks → PLoopElem α → Toks → Prop
  | tuple {ts c rest : Toks} {as : List (PTup α)} (id : Nat) (hp : First ts (.group .paren c) rest) (h : CommaList (ReadsTup R) c as) :
      ReadsElem R ts (.tuple id as) rest
  | simple {ts : Toks} {a : α} {rest : Toks} (hn : ∀ c r as, First ts (.group .paren c) r → ¬ CommaList (ReadsTup R) c as)
      (h : R ts a rest) : ReadsElem R ts (.simple a) rest

/-- An alias: an identifier. -/
inductive ReadsAlias : Toks → Alias → Toks → Prop
  | mk {ts : Toks} {n : Str} {rest : Toks} (id : Nat) (h : First ts (.ident n) rest) (hn : n ∉ keywords) : ReadsAlias ts (id, n) rest

/-- `for alias in [values]`. -/
inductive ReadsLoop (known : Str → Bool) (Y : Syn) : Toks → PLoop → Toks → Prop
  | mk {ts mid c rest : Toks} {a : PLoopElem Alias} {vs : List (PLoopElem Expr)} (id lid : Nat)
      (ha : ReadsElem ReadsAlias ts a (.ident (S "in") :: mid)) (hb : First mid (.group .bracket c) rest)
      (hv : CommaList (ReadsElem (ReadsExpr known Y)) c vs) :
      ReadsLoop known Y (.ident (S "for") :: ts) ⟨id, a, lid, vs⟩ rest

/-- As many loops as there are. -/
inductive ReadsLoops (known : Str → Bool) (Y : Syn) : Toks → List PLoop → Toks → Prop
  | nil {ts : Toks} (h : ∀ r, ts ≠ .ident (S "for") :: r) : ReadsLoops known Y ts [] ts
  | cons {ts mid rest : Toks} {l : PLoop} {ls : List PLoop} (h : ReadsLoop known Y ts l mid)
      (hs : ReadsLoops known Y mid ls rest) : ReadsLoops known Y ts (l :: ls) rest

/-! ## Definitions -/

/-- A separator of definitions: `true` for a comma. -/
inductive IsSep : Bool → Tok → Prop
  | comma (j : Bool) : IsSep true (.punct ',' j)
  | semi (j : Bool) : IsSep false (.punct ';' j)

/-- `alias = value`, followed by a separator or the end. -/
inductive ReadsItem (known : Str → Bool) (Y : Syn) : Toks → PItem → Toks → Prop
  | mk {n : Str} {j : Bool} {ts ts' rest : Toks} {e : Expr} (id aid vid : Nat) (ha : First ts (.ident n) (.punct '=' j :: ts'))
      (hn : n ∉ keywords) (h : ReadsExpr known Y ts' e rest)
      (he : rest = [] ∨ ∃ b t r, rest = t :: r ∧ IsSep b t) :
      ReadsItem known Y ts ⟨id, (aid, n), vid, e⟩ rest

/-- `ReadsItems known Y ts items seps rest`: definitions with the separators `seps` after them; the last one may have none at the
end of the tokens. -/
inductive ReadsItems (known : Str → Bool) (Y : Syn) : Toks → List PItem → List Bool → Toks → Prop
  | last {ts : Toks} {i : PItem} (h : ReadsItem known Y ts i []) : ReadsItems known Y ts [i] [] []
  | lastSep {ts rest : Toks} {i : PItem} {b : Bool} {t : Tok} (h : ReadsItem known Y ts i (t :: rest)) (hs : IsSep b t)
      (hn : ∀ n r, First rest (.ident n) r → n ∈ keywords) : ReadsItems known Y ts [i] [b] rest
  | cons {ts mid r rest : Toks} {i : PItem} {b : Bool} {bs : List Bool} {t : Tok} {n : Str} {is : List PItem}
      (h : ReadsItem known Y ts i (t :: mid)) (hs : IsSep b t) (hm : First mid (.ident n) r) (hn : n ∉ keywords)
      (hr : ReadsItems known Y mid is bs rest) : ReadsItems known Y ts (i :: is) (b :: bs) rest

/-- All definitions, with separators of one kind only. -/
inductive ReadsSpec (known : Str → Bool) (Y : Syn) : Toks → PSpec → Toks → Prop
  | mk {ts rest : Toks} {items : List PItem} {bs : List Bool} (id : Nat) (h : ReadsItems known Y ts items bs rest)
      (hb : ∀ b ∈ bs, ∀ c ∈ bs, b = c) : ReadsSpec known Y ts ⟨id, items, bs.head?⟩ rest

/-- Loops and definitions, both optional. -/
inductive ReadsHeader (known : Str → Bool) (Y : Syn) : Toks → Option PLoops × Option PSpec → Toks → Prop
  | mk {ts mid rest : Toks} {ls : Option PLoops} {s : Option PSpec}
      (hl : (ls = none ∧ mid = ts ∧ ∀ r, ts ≠ .ident (S "for") :: r) ∨
        ∃ id l, ls = some ⟨id, l⟩ ∧ l ≠ [] ∧ ReadsLoops known Y ts l mid)
      (hs : (s = none ∧ rest = mid ∧ ∀ n r, First mid (.ident n) r → n ∈ keywords) ∨
        ∃ s', s = some s' ∧ (∃ n r, First mid (.ident n) r ∧ n ∉ keywords) ∧ ReadsSpec known Y mid s' rest) :
      ReadsHeader known Y ts (ls, s) rest

/-- The loops, if there are any. -/
def ReadsOptLoops (Y : Syn) (known : Str → Bool) (ts : Toks) (ls : Option PLoops) (mid : Toks) : Prop :=
  (ls = none ∧ mid = ts ∧ ∀ r, ts ≠ .ident (S "for") :: r) ∨ ∃ id l, ls = some ⟨id, l⟩ ∧ l ≠ [] ∧ ReadsLoops known Y ts l mid

/-- The definitions, if there are any. -/
def ReadsOptSpec (Y : Syn) (known : Str → Bool) (mid : Toks) (s : Option PSpec) (rest : Toks) : Prop :=
  (s = none ∧ rest = mid ∧ ∀ n r, First mid (.ident n) r → n ∈ keywords) ∨
    ∃ s', s = some s' ∧ (∃ n r, First mid (.ident n) r ∧ n ∉ keywords) ∧ ReadsSpec known Y mid s' rest

/-- Loops and definitions, each definition followed by a separator. -/
inductive ReadsClosed (known : Str → Bool) (Y : Syn) : Toks → Option PLoops × Option PSpec → Toks → Prop
  | none {ts rest : Toks} {ls : Option PLoops} (hl : ReadsOptLoops Y known ts ls rest) (hn : ∀ n r, First rest (.ident n) r → n ∈ keywords) :
      ReadsClosed known Y ts (ls, none) rest
  | some {ts mid rest : Toks} {ls : Option PLoops} {items : List PItem} {bs : List Bool} (id : Nat) (hl : ReadsOptLoops Y known ts ls mid)
      (h : ReadsItems known Y mid items bs rest) (hb : ∀ b ∈ bs, ∀ c ∈ bs, b = c) (hall : bs.length = items.length) :
      ReadsClosed known Y ts (ls, some ⟨id, items, bs.head?⟩) rest

/-- The input of `compose!`: loops, definitions, block, and perhaps one more separator, which must be the one used between the
definitions. -/
inductive ReadsInput (known : Str → Bool) (Y : Syn) : Toks → PAst → Prop
  | mk {ts mid b tail : Toks} {ls : Option PLoops} {s : Option PSpec} {block : List Stmt} (id : Nat)
      (h : ReadsHeader known Y ts (ls, s) mid) (hm : First mid (.group .brace b) tail) (hb : Y.parseBlock b = some block)
      (ht : tail = [] ∨ ∃ c t, tail = [t] ∧ IsSep c t ∧ ∀ s', s = some s' → s'.comma = some c) :
      ReadsInput known Y ts ⟨id, ls, s, block⟩

/-- The input of `#[compose_item]`. -/
inductive ReadsAttr (known : Str → Bool) (Y : Syn) : Toks → PAst → Prop
  | mk {ts tail : Toks} {ls : Option PLoops} {s : Option PSpec} (id : Nat) (h : ReadsHeader known Y ts (ls, s) tail)
      (ht : tail = [] ∨ (s.isSome ∧ ∃ c t, tail = [t] ∧ IsSep c t)) : ReadsAttr known Y ts ⟨id, ls, s, []⟩

/-- `n₁ = v₁ sep … nₖ = vₖ sep tail`. -/
def defsToks (sep : Tok) : List (Str × Toks) → Toks → Toks
  | [], tail => tail
  | (n, v) :: l, tail => .ident n :: .punct '=' false :: (v ++ sep :: defsToks sep l tail)

/-- The last token tree is not a group without delimiters (the value of a macro variable). -/
def Solid (x : Toks) : Prop := ∀ u c, x ≠ u ++ [.group .none c]

/-! ## Assumptions on the grammar of Rust -/

/-- `syn`'s parsers never end with a separator, and stop before a separator in the same way whether a block follows or nothing. -/
def StopsAtSep (p : Toks → Option Nat) : Prop :=
  ∀ u t b, IsSep true t → p (u ++ [t, .group .brace b]) = p (u ++ [t]) ∧ ∀ n, p (u ++ [t]) = some n → n ≤ u.length

/-- `syn`'s parsers do not look beyond the block: a separator after it does not matter. -/
def StopsAtBlock (p : Toks → Option Nat) : Prop :=
  ∀ u t b c, IsSep c t → p (u ++ [.group .brace b, t]) = p (u ++ [.group .brace b])

/-! ## Node ids -/

mutual
/-- All node ids of an element of a tuple; `f` gives those of a value. -/
def tupIds {α : Type} (f : α → List Nat) : PTup α → List Nat
  | .val id a => id :: f a
  | .tup id tid ts => id :: tid :: tupIdsL f ts
def tupIdsL {α : Type} (f : α → List Nat) : List (PTup α) → List Nat
  | [] => []
  | t :: ts => tupIds f t ++ tupIdsL f ts
end

/-- All node ids of a loop alias or value. -/
def elemIds {α : Type} (f : α → List Nat) : PLoopElem α → List Nat
  | .simple a => f a
  | .tuple id ts => id :: tupIdsL f ts

/-- All node ids of a loop. -/
def loopIds (l : PLoop) : List Nat := l.id :: l.listId :: (elemIds (fun a => [a.1]) l.alias ++ l.values.flatMap (elemIds ids))

/-- All node ids of a definition. -/
def itemIds (i : PItem) : List Nat := i.id :: i.valueId :: i.alias.1 :: ids i.expr

/-- All node ids of a list of definitions. -/
def pspecIds (s : PSpec) : List Nat := s.id :: s.items.flatMap itemIds

/-- All node ids of all loops. -/
def loopsIds (l : PLoops) : List Nat := l.id :: l.loops.flatMap loopIds

/-- All node ids of loops and definitions. -/
def headerIds (h : Option PLoops × Option PSpec) : List Nat := h.1.toList.flatMap loopsIds ++ h.2.toList.flatMap pspecIds

/-- All node ids of a parsed input. -/
def astIds (a : PAst) : List Nat := a.id :: headerIds (a.loops, a.spec)

end Verif.Spec

namespace Verif
open Spec

/-! ## Forgetting node ids -/

mutual
/-- An expression with all ids forgotten. -/
def Expr.erase : Expr → Expr
  | .value _ v => .value 0 v
  | .call _ n args raw => .call 0 n (Expr.eraseL args) (raw.map fun r => (0, r.2))
def Expr.eraseL : List Expr → List Expr
  | [] => []
  | e :: es => e.erase :: Expr.eraseL es
end

/-- A loop alias or value without ids. -/
def elemErase {α τ : Type} (er : α → τ) (e : PLoopElem α) : LoopAlias τ := e.alias er

/-- A loop without ids. -/
def loopErase (l : PLoop) : LoopAlias Str × List (LoopAlias Expr) := (elemErase (·.2) l.alias, l.values.map (elemErase Expr.erase))

/-- A definition without ids. -/
def itemErase (i : PItem) : Str × Expr := (i.alias.2, i.expr.erase)

/-- Definitions without ids. -/
def specErase (s : PSpec) : List (Str × Expr) × Option Bool := (s.items.map itemErase, s.comma)

/-- Loops and definitions without ids. -/
def headerErase (h : Option PLoops × Option PSpec) : Option (List (LoopAlias Str × List (LoopAlias Expr))) × Option (List (Str × Expr) × Option Bool) :=
  (h.1.map fun l => l.loops.map loopErase, h.2.map specErase)

/-- A parsed input without ids. -/
def astErase (a : PAst) := (headerErase (a.loops, a.spec), a.block)

end Verif
