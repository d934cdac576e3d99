import Verif.Model.Items
/-!
# Deprecation warnings (`src/util/deprecation.rs`)

The visitor that attaches warnings to items, and the thread-local service that collects them.
-/

namespace Verif

/-! ## The code the visitor walks over -/

/-- A piece of the output block as `DeprecationWarningVisitor` sees it: tokens, delimited groups, and the syntax nodes at
which `process_deprecations` is called (deprecation.rs:78-141), with all their attributes and the rest of their tokens
(inner attributes are printed there; outer ones are not part of the rest). Nodes are nested in the order of the text;
simplification: `visit_mut` visits a where-clause before the arguments or fields that precede it in the text, which
matters only if both contain items (in the braces of constants), and attributes are taken not to contain items. -/
inductive Cst
  | toks (ts : Toks)
  | group (d : Delim) (cs : List Cst)
  | node (attrs : List Attr) (cs : List Cst)

/-- Where items can be found inside the parts of a block that the model does not take apart: for a node of the given
kind (`none`: a statement) its tokens, split up. An external function, as the grammar of Rust decides it. -/
abbrev Sites := Option NodeKind → Toks → List Cst

section
variable (sites : Sites)

def Field.cst (f : Field) : Cst :=
  .node f.attrs (sites (some .vis) f.vis ++ (match f.ident with | some i => [.toks (i ++ [.punct ':' false])] | none => []) ++
    sites (some .type) f.ty)

/-- A punctuated list, as `sepToks`. -/
def sepCst (c : Char) (trailing : Bool) : List Cst → List Cst
  | [] => []
  | [t] => t :: (if trailing then [.toks [.punct c false]] else [])
  | t :: ts => t :: .toks [.punct c false] :: sepCst c trailing ts

def Punctuated.cst {α} (f : α → Cst) (c : Char) (p : Punctuated α) : List Cst := sepCst c p.trailing (p.items.map f)

def Fields.cst (w semi : Toks) : Fields → List Cst
  | .named fs => [.toks w, .group .brace (fs.cst (Field.cst sites) ',')]
  | .unnamed fs => [.group .paren (fs.cst (Field.cst sites) ','), .toks (w ++ semi)]
  | .unit => [.toks (w ++ semi)]

def Variant.cst (v : Variant) : Cst :=
  .node v.attrs (.toks v.ident :: v.fields.cst sites [] [] ++
    (match v.discriminant with | some e => .toks [.punct '=' false] :: sites (some .expr) e | none => []))

mutual
/-- The default methods of `syn::visit_mut` for statements, items, trait items and impl items, as far as they lead to the
methods overridden in deprecation.rs:77-142. `ImplItem`s are not among those: a function of an impl is no node. -/
def Stmt.cst : Stmt → List Cst
  | .item i => i.cst
  | .other ts => sites none ts
def stmtsCst : List Stmt → List Cst
  | [] => []
  | s :: ss => s.cst ++ stmtsCst ss
def Item.cst : Item → List Cst
  | .fn attrs vis sig block => [.node attrs (sites (some .vis) vis ++ sites (some .sig) sig ++
      [.group .brace (.toks (innerToks attrs) :: stmtsCst block)])]
  | .struct h vis ident fields => [.node h.attrs (sites (some .vis) vis ++ [.toks (kw "struct" ++ ident)] ++
      sites (some .generics) h.generics ++ fields.cst sites h.whereClause [.punct ';' false])]
  | .enum h vis ident variants => [.node h.attrs (sites (some .vis) vis ++ [.toks (kw "enum" ++ ident)] ++
      sites (some .generics) h.generics ++ [.toks h.whereClause, .group .brace (variants.cst (Variant.cst sites) ',')])]
  | .union h vis ident fields => [.node h.attrs (sites (some .vis) vis ++ [.toks (kw "union" ++ ident)] ++
      sites (some .generics) h.generics ++ [.toks h.whereClause, .group .brace (fields.cst (Field.cst sites) ',')])]
  | .trait h vis u a ident supertraits items => [.node h.attrs (sites (some .vis) vis ++
      [.toks (kwIf u "unsafe" ++ kwIf a "auto" ++ kw "trait" ++ ident)] ++ sites (some .generics) h.generics ++
      [.toks (superToks supertraits ++ h.whereClause), .group .brace (.toks (innerToks h.attrs) :: traitItemsCst items)])]
  | .impl h d u trait_ selfTy items => [.node h.attrs ([.toks (kwIf d "default" ++ kwIf u "unsafe" ++ kw "impl")] ++
      sites (some .generics) h.generics ++ [.toks (implTraitToks trait_)] ++ sites (some .type) selfTy ++
      [.toks h.whereClause, .group .brace (.toks (innerToks h.attrs) :: implItemsCst items)])]
  | .mod attrs vis u ident content => [.node attrs (sites (some .vis) vis ++
      [.toks (kwIf u "unsafe" ++ kw "mod" ++ ident)] ++
      (match content with
       | some items => [.group .brace (.toks (innerToks attrs) :: itemsCst items)]
       | none => [.toks [.punct ';' false]]))]
  | .foreignMod attrs u abi items => [.node attrs [.toks (kwIf u "unsafe" ++ kw "extern" ++ abi.getD []),
      .group .brace (.toks (innerToks attrs) :: items.flatMap (sites (some .foreignItem)))]]
  | .other ts => sites (some .item) ts
def itemsCst : List Item → List Cst
  | [] => []
  | i :: is => i.cst ++ itemsCst is
def TraitItem.cst : TraitItem → List Cst
  | .fn attrs sig default => [.node attrs (sites (some .sig) sig ++
      (match default with
       | some block => [.group .brace (.toks (innerToks attrs) :: stmtsCst block)]
       | none => [.toks [.punct ';' false]]))]
  | .other ts => sites (some .traitItem) ts
def traitItemsCst : List TraitItem → List Cst
  | [] => []
  | i :: is => i.cst ++ traitItemsCst is
def ImplItem.cst : ImplItem → List Cst
  | .fn attrs vis d sig block => .toks (outerToks attrs) :: sites (some .vis) vis ++ [.toks (kwIf d "default")] ++
      sites (some .sig) sig ++ [.group .brace (.toks (innerToks attrs) :: stmtsCst block)]
  | .other ts => sites (some .implItem) ts
def implItemsCst : List ImplItem → List Cst
  | [] => []
  | i :: is => i.cst ++ implItemsCst is
end
end

mutual
/-- Printing (`ToTokens`), after the visit. -/
def Cst.print : Cst → Toks
  | .toks ts => ts
  | .group d cs => [.group d (cstsPrint cs)]
  | .node attrs cs => outerToks attrs ++ cstsPrint cs
def cstsPrint : List Cst → Toks
  | [] => []
  | c :: cs => c.print ++ cstsPrint cs
end

/-! ## The visitor -/

/-- `DeprecationWarning`, deprecation.rs:19-22. -/
structure Warning where
  note : Str
  since : Str
  deriving DecidableEq, Repr

/-- `with_prefix`, lines 29-35. -/
def Warning.withPrefix (pre : Str) (w : Warning) : Warning := { w with note := pre ++ w.note }

/-- `to_attribute`, lines 37-45: `#[deprecated(since = "…", note = "…",)]`; `repr` is the source form of a literal. -/
def Warning.toAttr (repr : Str → Str) (w : Warning) : Attr :=
  ⟨false, [.ident (S "deprecated"), .group .paren
    [.ident (S "since"), .punct '=' false, .lit (.str (repr w.since) w.since), .punct ',' false,
     .ident (S "note"), .punct '=' false, .lit (.str (repr w.note) w.note), .punct ',' false]]⟩

/-- `attr.path().is_ident("deprecated")`, line 67: the path of a `Meta` is the identifiers separated by `::` at its
beginning. -/
def Attr.isDeprecated (a : Attr) : Bool :=
  match a.body with
  | .ident _ :: .punct ':' _ :: _ => false
  | .ident s :: _ => s == S "deprecated"
  | _ => false

/-- `process_deprecations`, lines 62-74. The last element of `ws` is popped. -/
def processDeprecations (repr : Str → Str) (pre : Str) (attrs : List Attr) (ws : List Warning) : List Attr × List Warning :=
  if ws.isEmpty then (attrs, ws)
  else if attrs.any Attr.isDeprecated then (attrs, ws)
  else match ws.getLast? with
    | none => (attrs, ws)
    | some w => (attrs ++ [(w.withPrefix pre).toAttr repr], ws.dropLast)

mutual
/-- The visit of a node, lines 78-141: first its own attributes, then what is inside (`visit_mut::visit_…_mut`). The state is
the field `warnings`. -/
def Cst.visit (repr : Str → Str) (pre : Str) : Cst → List Warning → Cst × List Warning
  | .toks ts, ws => (.toks ts, ws)
  | .group d cs, ws => let r := cstsVisit repr pre cs ws; (.group d r.1, r.2)
  | .node attrs cs, ws =>
    let a := processDeprecations repr pre attrs ws
    let r := cstsVisit repr pre cs a.2
    (.node a.1 r.1, r.2)
def cstsVisit (repr : Str → Str) (pre : Str) : List Cst → List Warning → List Cst × List Warning
  | [], ws => ([], ws)
  | c :: cs, ws =>
    let r := c.visit repr pre ws
    let rs := cstsVisit repr pre cs r.2
    (r.1 :: rs.1, rs.2)
end

/-! ## The service -/

/-- `DeprecationService`, lines 164-168; the `BTreeSet` is a list in increasing order. -/
structure Service where
  warnings : List Warning
  borrowed : Nat
  pre : Str
  deriving DecidableEq, Repr

/-- The derived order of warnings, line 18: by note, then by since; Rust orders strings like the list of their
characters. -/
def Warning.lt (a b : Warning) : Bool := a.note < b.note || (a.note == b.note && a.since < b.since)

/-- `BTreeSet::insert`. -/
def insertWarning (w : Warning) : List Warning → List Warning
  | [] => [w]
  | v :: vs => if w.lt v then w :: v :: vs else if v.lt w then v :: insertWarning w vs else v :: vs

/-- `new`, lines 171-177. -/
def Service.new (pre : Str) : Service := ⟨[], 0, pre⟩

/-- `make_semicolon_separator_warning`, lines 187-192. -/
def semicolonWarning : Warning := ⟨S "Using semicolons as separators is deprecated, use commas instead", S "0.0.5"⟩

/-- `add_semicolon_separator_warning`, lines 183-185 and 194-196. -/
def Service.addSemicolonWarning (s : Service) : Service := { s with warnings := insertWarning semicolonWarning s.warnings }

/-- `emit`, lines 202-211; the visitor reverses the list of warnings, lines 55-59. -/
def Service.emit (repr : Str → Str) (s : Service) (block : List Cst) : List Cst :=
  if s.warnings.isEmpty then block else (cstsVisit repr s.pre block s.warnings.reverse).1

/-- `GLOBAL_DEPRECATION_SERVICE`, lines 12-14: the thread-local cell, which can be set once. -/
abbrev ThreadCell := Option Service

/-- `maybe_set_global`, lines 213-217. -/
def ThreadCell.maybeSet (c : ThreadCell) (s : Service) : ThreadCell :=
  match c with
  | some s0 => some s0
  | none => some s

/-- `scoped`, lines 223-228; `expect` panics. -/
def ThreadCell.scoped (c : ThreadCell) : Res ThreadCell :=
  match c with
  | some s => .ok (some { s with borrowed := s.borrowed + 1 })
  | none => .panic

/-- `DeprecationServiceScope::add_semicolon_separator_warning`, lines 234-238. -/
def ThreadCell.addSemicolonWarning (c : ThreadCell) : ThreadCell := c.map Service.addSemicolonWarning

/-- `DeprecationServiceScope::emit`, lines 240-244. -/
def ThreadCell.emit (repr : Str → Str) (c : ThreadCell) (block : List Cst) : List Cst :=
  match c with
  | some s => s.emit repr block
  | none => block

/-- `drop`, lines 247-257. The subtraction does not underflow after `scoped`. -/
def ThreadCell.dropScope (c : ThreadCell) : ThreadCell :=
  match c with
  | some s =>
    let s := { s with borrowed := s.borrowed - 1 }
    some (if s.borrowed = 0 then { s with warnings := [] } else s)
  | none => none

end Verif
