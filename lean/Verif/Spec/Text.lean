import Verif.Spec.Items
/-!
# The text of blocks and items

How the tokens of a block are divided into statements, and those of items into their parts, as in the grammar of items in the Rust
reference. This is stated without the printing functions of the model; `S` is the text of a string constant.
-/

namespace Verif.Spec
open Verif

mutual
/-- Tokens without the spacing of punctuation. -/
def unspacedTok : Tok → Tok
  | .punct c _ => .punct c false
  | .group d ts => .group d (unspaced ts)
  | .ident s => .ident s
  | .lit l => .lit l
def unspaced : Toks → Toks
  | [] => []
  | t :: ts => unspacedTok t :: unspaced ts
end

/-- `#[…] #[…] …` -/
inductive OuterText : Toks → List Attr → Prop
  | nil : OuterText [] []
  | cons {ts as} (body : Toks) : OuterText ts as → OuterText (.punct '#' false :: .group .bracket body :: ts) (⟨false, body⟩ :: as)

/-- `#![…] #![…] …` -/
inductive InnerText : Toks → List Attr → Prop
  | nil : InnerText [] []
  | cons {ts as} (body : Toks) : InnerText ts as →
      InnerText (.punct '#' false :: .punct '!' false :: .group .bracket body :: ts) (⟨true, body⟩ :: as)

/-- Elements separated by `c`; there may be one at the end. -/
inductive ListText {α : Type} (R : Toks → α → Prop) (c : Char) : Toks → Punctuated α → Prop
  | nil : ListText R c [] ⟨[], false⟩
  | last {ts x} : R ts x → ListText R c ts ⟨[x], false⟩
  | trailing {ts x} : R ts x → ListText R c (ts ++ [.punct c false]) ⟨[x], true⟩
  | cons {ts x us y ys tr} : R ts x → ListText R c us ⟨y :: ys, tr⟩ → ListText R c (ts ++ .punct c false :: us) ⟨x :: y :: ys, tr⟩

/-- A keyword that may be missing. -/
inductive MaybeWord (s : Str) : Toks → Bool → Prop
  | present : MaybeWord s [.ident s] true
  | absent : MaybeWord s [] false

/-- Visibilities: nothing, `pub`, `pub(…)`. -/
inductive VisText : Toks → Prop
  | inherited : VisText []
  | pub : VisText [.ident (S "pub")]
  | restricted (c : Toks) : VisText [.ident (S "pub"), .group .paren c]

/-- Generic parameters: nothing, or `<…>`. -/
inductive GenericsText : Toks → Prop
  | none : GenericsText []
  | some (ts : Toks) (i j : Bool) : GenericsText (.punct '<' i :: ts ++ [.punct '>' j])

/-- Nothing, or `where …`. -/
inductive WhereText : Toks → Prop
  | none : WhereText []
  | some (ts : Toks) : WhereText (.ident (S "where") :: ts)

/-- `#[…] pub name: Type` -/
inductive NamedFieldText : Toks → Field → Prop
  | mk {o as vis} (n : Str) (ty : Toks) : OuterText o as → VisText vis →
      NamedFieldText (o ++ vis ++ [.ident n, .punct ':' false] ++ ty) ⟨as, vis, some [.ident n], ty⟩

/-- `#[…] pub Type` -/
inductive TupleFieldText : Toks → Field → Prop
  | mk {o as vis} (ty : Toks) : OuterText o as → VisText vis → TupleFieldText (o ++ vis ++ ty) ⟨as, vis, none, ty⟩

/-- The fields of a struct, with the where-clause and the semicolon: `where … { … }`, `( … ) where … ;`, `where … ;`. -/
inductive StructText : Toks → Toks → Fields → Prop
  | named {w c fs} : WhereText w → ListText NamedFieldText ',' c fs → StructText (w ++ [.group .brace c]) w (.named fs)
  | tuple {w c fs} : WhereText w → ListText TupleFieldText ',' c fs →
      StructText ([.group .paren c] ++ w ++ [.punct ';' false]) w (.unnamed fs)
  | unit {w} : WhereText w → StructText (w ++ [.punct ';' false]) w .unit

/-- The fields of a variant: `{ … }`, `( … )` or nothing. -/
inductive VariantFieldsText : Toks → Fields → Prop
  | named {c fs} : ListText NamedFieldText ',' c fs → VariantFieldsText [.group .brace c] (.named fs)
  | tuple {c fs} : ListText TupleFieldText ',' c fs → VariantFieldsText [.group .paren c] (.unnamed fs)
  | unit : VariantFieldsText [] .unit

/-- The value of a variant: `= …`, or nothing. -/
inductive DiscriminantText : Toks → Option Toks → Prop
  | none : DiscriminantText [] none
  | some (e : Toks) : DiscriminantText (.punct '=' false :: e) (some e)

/-- `#[…] Name fields = value` -/
inductive VariantText : Toks → Variant → Prop
  | mk {o as f fs d v} (n : Str) : OuterText o as → VariantFieldsText f fs → DiscriminantText d v →
      VariantText (o ++ [.ident n] ++ f ++ d) ⟨as, [.ident n], fs, v⟩

/-- A bound: any tokens. -/
inductive BoundText : Toks → Toks → Prop
  | mk (ts : Toks) : BoundText ts ts

/-- `: A + B`, or nothing. (`trait T: {}` is also Rust; `syn` prints it without the colon, so it is left out here.) -/
inductive SuperText : Toks → Punctuated Toks → Prop
  | none : SuperText [] ⟨[], false⟩
  | some {ts x xs tr} : ListText BoundText '+' ts ⟨x :: xs, tr⟩ → SuperText (.punct ':' false :: ts) ⟨x :: xs, tr⟩

/-- `!Path for`, `Path for`, or nothing. -/
inductive OfTraitText : Toks → Option (Bool × Toks) → Prop
  | none : OfTraitText [] none
  | positive (path : Toks) : OfTraitText (path ++ [.ident (S "for")]) (some (false, path))
  | negative (path : Toks) : OfTraitText (.punct '!' false :: path ++ [.ident (S "for")]) (some (true, path))

/-- A string literal, or nothing. -/
inductive AbiText : Toks → Option Toks → Prop
  | none : AbiText [] none
  | some (r v : Str) : AbiText [.lit (.str r v)] (some [.lit (.str r v)])

/-- Signatures, with their where-clause: `const unsafe … fn name …`. -/
inductive SigText : Toks → Prop
  | mk (quals : Toks) (n : Str) (rest : Toks) : SigText (quals ++ .ident (S "fn") :: .ident n :: rest)

mutual
inductive StmtText : Toks → Stmt → Prop
  | item {ts i} : ItemText ts i → StmtText ts (.item i)
  | other (ts : Toks) : StmtText ts (.other ts)
/-- Statements, one after the other. -/
inductive BlockText : Toks → List Stmt → Prop
  | nil : BlockText [] []
  | cons {ts s us ss} : StmtText ts s → BlockText us ss → BlockText (ts ++ us) (s :: ss)
inductive ItemText : Toks → Item → Prop
  | fn {o as vis sig i bs c block} : OuterText o as → VisText vis → SigText sig → InnerText i bs → BlockText c block →
      ItemText (o ++ vis ++ sig ++ [.group .brace (i ++ c)]) (.fn (as ++ bs) vis sig block)
  | struct {o as vis g b w fields} (n : Str) : OuterText o as → VisText vis → GenericsText g → StructText b w fields →
      ItemText (o ++ vis ++ [.ident (S "struct"), .ident n] ++ g ++ b) (.struct ⟨as, g, w⟩ vis [.ident n] fields)
  | enum {o as vis g w c variants} (n : Str) : OuterText o as → VisText vis → GenericsText g → WhereText w →
      ListText VariantText ',' c variants →
      ItemText (o ++ vis ++ [.ident (S "enum"), .ident n] ++ g ++ w ++ [.group .brace c]) (.enum ⟨as, g, w⟩ vis [.ident n] variants)
  | union {o as vis g w c fields} (n : Str) : OuterText o as → VisText vis → GenericsText g → WhereText w →
      ListText NamedFieldText ',' c fields →
      ItemText (o ++ vis ++ [.ident (S "union"), .ident n] ++ g ++ w ++ [.group .brace c]) (.union ⟨as, g, w⟩ vis [.ident n] fields)
  | trait {o as vis us u au a g sp sups w i bs c items} (n : Str) : OuterText o as → VisText vis →
      MaybeWord (S "unsafe") us u → MaybeWord (S "auto") au a → GenericsText g → SuperText sp sups → WhereText w →
      InnerText i bs → TraitItemsText c items →
      ItemText (o ++ vis ++ us ++ au ++ [.ident (S "trait"), .ident n] ++ g ++ sp ++ w ++ [.group .brace (i ++ c)])
        (.trait ⟨as ++ bs, g, w⟩ vis u a [.ident n] sups items)
  | impl {o as ds d us u g tr trait_ w i bs c items} (ty : Toks) : OuterText o as → MaybeWord (S "default") ds d →
      MaybeWord (S "unsafe") us u → GenericsText g → OfTraitText tr trait_ → WhereText w → InnerText i bs →
      ImplItemsText c items →
      ItemText (o ++ ds ++ us ++ [.ident (S "impl")] ++ g ++ tr ++ ty ++ w ++ [.group .brace (i ++ c)])
        (.impl ⟨as ++ bs, g, w⟩ d u trait_ ty items)
  | modFile {o as vis us u} (n : Str) : OuterText o as → VisText vis → MaybeWord (S "unsafe") us u →
      ItemText (o ++ vis ++ us ++ [.ident (S "mod"), .ident n, .punct ';' false]) (.mod as vis u [.ident n] none)
  | mod {o as vis us u i bs c items} (n : Str) : OuterText o as → VisText vis → MaybeWord (S "unsafe") us u →
      InnerText i bs → ItemsText c items →
      ItemText (o ++ vis ++ us ++ [.ident (S "mod"), .ident n, .group .brace (i ++ c)]) (.mod (as ++ bs) vis u [.ident n] (some items))
  | foreignMod {o as us u ab abi i bs} (items : List Toks) : OuterText o as → MaybeWord (S "unsafe") us u → AbiText ab abi →
      InnerText i bs →
      ItemText (o ++ us ++ [.ident (S "extern")] ++ ab ++ [.group .brace (i ++ items.flatten)]) (.foreignMod (as ++ bs) u abi items)
  | other (ts : Toks) : ItemText ts (.other ts)
/-- Items, one after the other. -/
inductive ItemsText : Toks → List Item → Prop
  | nil : ItemsText [] []
  | cons {ts x us xs} : ItemText ts x → ItemsText us xs → ItemsText (ts ++ us) (x :: xs)
inductive TraitItemText : Toks → TraitItem → Prop
  | required {o as sig} : OuterText o as → SigText sig → TraitItemText (o ++ sig ++ [.punct ';' false]) (.fn as sig none)
  | provided {o as sig i bs c block} : OuterText o as → SigText sig → InnerText i bs → BlockText c block →
      TraitItemText (o ++ sig ++ [.group .brace (i ++ c)]) (.fn (as ++ bs) sig (some block))
  | other (ts : Toks) : TraitItemText ts (.other ts)
inductive TraitItemsText : Toks → List TraitItem → Prop
  | nil : TraitItemsText [] []
  | cons {ts x us xs} : TraitItemText ts x → TraitItemsText us xs → TraitItemsText (ts ++ us) (x :: xs)
inductive ImplItemText : Toks → ImplItem → Prop
  | fn {o as vis ds d sig i bs c block} : OuterText o as → VisText vis → MaybeWord (S "default") ds d → SigText sig →
      InnerText i bs → BlockText c block →
      ImplItemText (o ++ vis ++ ds ++ sig ++ [.group .brace (i ++ c)]) (.fn (as ++ bs) vis d sig block)
  | other (ts : Toks) : ImplItemText ts (.other ts)
inductive ImplItemsText : Toks → List ImplItem → Prop
  | nil : ImplItemsText [] []
  | cons {ts x us xs} : ImplItemText ts x → ImplItemsText us xs → ImplItemsText (ts ++ us) (x :: xs)
end

end Verif.Spec
