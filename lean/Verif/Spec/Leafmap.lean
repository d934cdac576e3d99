import Verif.Spec.Syntax
/-!
# Replacing names and strings in tokens and in trees
-/

namespace Verif.Spec

/-- New names for names, and new string literals for string literals. -/
structure Leafmap where
  name : Str → Str
  /-- how the literal is written, and what it stands for -/
  text : Str → Str → Str × Str

namespace Leafmap
variable (m : Leafmap)

mutual
/-- Names and string literals are replaced, in groups too; everything else stays. -/
def tok : Tok → Tok
  | .ident n => .ident (m.name n)
  | .lit (.str r v) => .lit (.str (m.text r v).1 (m.text r v).2)
  | .lit l => .lit l
  | .punct c j => .punct c j
  | .group d ts => .group d (toks ts)
def toks : Toks → Toks
  | [] => []
  | t :: ts => tok t :: toks ts
end

/-- The same in a value. -/
def kind : VKind → VKind
  | .ident n => .ident (m.name n)
  | .path ts => .path (m.toks ts)
  | .type ts => .type (m.toks ts)
  | .expr ts => .expr (m.toks ts)
  | .litStr r v => .litStr (m.text r v).1 (m.text r v).2
  | .litInt i => .litInt i
  | .tokens ts => .tokens (m.toks ts)
  | .raw ts => .raw (m.toks ts)

mutual
/-- The same in an expression. The names of functions stay. -/
def expr : Expr → Expr
  | .value id v => .value id (m.kind v)
  | .call id n args raw => .call id n (exprs args) (raw.map fun r => (r.1, m.toks r.2))
def exprs : List Expr → List Expr
  | [] => []
  | e :: es => expr e :: exprs es
end

mutual
/-- The same in an element of a tuple; `f` does it for values. -/
def tup {α : Type} (f : α → α) : PTup α → PTup α
  | .val id a => .val id (f a)
  | .tup id tid ts => .tup id tid (tups f ts)
def tups {α : Type} (f : α → α) : List (PTup α) → List (PTup α)
  | [] => []
  | t :: ts => tup f t :: tups f ts
end

/-- The same in a loop alias or loop value. -/
def elem {α : Type} (f : α → α) : PLoopElem α → PLoopElem α
  | .simple a => .simple (f a)
  | .tuple id ts => .tuple id (tups f ts)

/-- The same in an alias. -/
def alias (a : Alias) : Alias := (a.1, m.name a.2)

/-- The same in a loop. -/
def loop (l : PLoop) : PLoop := ⟨l.id, elem m.alias l.alias, l.listId, l.values.map (elem m.expr)⟩

/-- The same in a definition. -/
def item (i : PItem) : PItem := ⟨i.id, m.alias i.alias, i.valueId, m.expr i.expr⟩

/-- The same in the definitions. -/
def spec (s : PSpec) : PSpec := ⟨s.id, s.items.map m.item, s.comma⟩

/-- The same in the loops. -/
def loops (l : PLoops) : PLoops := ⟨l.id, l.loops.map m.loop⟩

/-- The names for which `special` holds stay, and no other name becomes one of them. -/
structure Keeps (special : Str → Prop) : Prop where
  same : ∀ n, special n → m.name n = n
  others : ∀ n, ¬ special n → ¬ special (m.name n)

end Leafmap
end Verif.Spec
