import Verif.Proofs.Visitor
import Verif.Props.Subst
/-!
# Properties C17, C18 and C57: substitution in a whole block

`G` is `syn`'s grammar, `stmtsParts` the pieces of a block in the order of the text (`Spec/Items`).
-/

namespace Verif.Props
open Verif Spec

variable {E : Ext} {G : Grammar} {subs : Subs}

/-- The statements that are not taken apart can be parsed in braces (they come from a parsed block). -/
def StatementsParse (G : Grammar) (b : List Stmt) : Prop := ∀ ts, (PartKind.block, ts) ∈ stmtsParts b → G.validBlock ts = true

theorem StatementsParse.parts {b : List Stmt} (h : StatementsParse G b) :
    ∀ p ∈ stmtsParts b, p.1 = .block → validPart G p.1 p.2 = true := by
  rintro ⟨k, ts⟩ hp rfl; exact h ts hp

/-! ## C17 -/

/-- **C17**, exact: if the substitution in a block succeeds, then the result is the token-level substitution in the
whole block *without the where-clauses of its structs, enums, unions, traits and impls*: nothing else is skipped or
lost. (No alias may have the name of a keyword of items; of those only `union`, `auto` and `default` could. If `syn` prints
what it has parsed only up to some `q`, the spacing for instance, then so does the macro; `q` may be the identity.) -/
theorem C17_all_but_where {q : Toks → Toks} (hq : Coarse q) {fmt : Str → Str} (hf : FormatsAll E subs fmt)
    (hk : ∀ s ∈ itemKeywords, List.lookup s subs = none) (hG : ∀ c ss, G.parseBlock c = some ss → q (stmtsToks ss) = q c)
    {b b' : List Stmt} (hb : StatementsParse G b) (h : visitBlock E G subs b = .ok b') :
    q (stmtsToks b') = q (substAll (valueToks subs) (litWith E fmt) (stmtsToks (stmtsNoWhere b))) := by
  have hs := visitBlock_spec q (E := E) (subs := subs) b hb.parts
  rw [litWith_eq hf, valueToks_eq]
  cases hr : runParts E G subs (stmtsParts b) with
  | ok a =>
    rw [hr] at hs
    obtain ⟨b2, h1, h2⟩ := hs
    rw [h] at h1
    cases h1
    exact h2 ⟨fun s hs => by simp [lookToks, get_eq_lookup, hk s hs], hG, hq⟩
  | err e => rw [hr] at hs; rw [h] at hs; cases hs
  | panic => rw [hr] at hs; rw [h] at hs; cases hs

/-- **C17** (partial: blocks without where-clauses on structs, enums, unions, traits and impls, see `C17_false`): the
result is the token-level substitution in the whole block. -/
theorem C17_whole_block_partial {q : Toks → Toks} (hq : Coarse q) {fmt : Str → Str} (hf : FormatsAll E subs fmt)
    (hk : ∀ s ∈ itemKeywords, List.lookup s subs = none) (hG : ∀ c ss, G.parseBlock c = some ss → q (stmtsToks ss) = q c)
    {b b' : List Stmt} (hb : StatementsParse G b) (hw : stmtsNoWhere b = b) (h : visitBlock E G subs b = .ok b') :
    q (stmtsToks b') = q (substAll (valueToks subs) (litWith E fmt) (stmtsToks b)) := by
  have := C17_all_but_where hq hf hk hG hb h
  rwa [hw] at this

theorem runParts_ok {ps : Parts} (h : ∀ p ∈ ps, ∃ out, substituteIdents E (validPart G p.1) subs p.2 = .ok out) :
    runParts E G subs ps = .ok () := by
  induction ps with
  | nil => rfl
  | cons p ps ih =>
    obtain ⟨out, ho⟩ := h p (by simp)
    simp [runParts, ho, ih (fun q hq => h q (by simp [hq]))]

/-- **C17**: the substitution in a block succeeds if (and only if) it succeeds in each of its pieces. -/
theorem C17_succeeds {b : List Stmt} (hb : StatementsParse G b) :
    (∃ b', visitBlock E G subs b = .ok b') ↔
      ∀ p ∈ stmtsParts b, ∃ out, substituteIdents E (validPart G p.1) subs p.2 = .ok out := by
  have hs := visitBlock_spec id (E := E) (subs := subs) b hb.parts
  constructor
  · rintro ⟨b', h⟩
    cases hr : runParts E G subs (stmtsParts b) with
    | ok a =>
      clear hs h hb
      generalize stmtsParts b = ps at hr
      induction ps with
      | nil => simp
      | cons p ps ih =>
        simp only [runParts] at hr
        obtain ⟨out, h1, h2⟩ := Res.bind_eq_ok.1 hr
        intro q hq
        rcases List.mem_cons.1 hq with rfl | hq
        · exact ⟨out, h1⟩
        · exact ih h2 q hq
    | err e => rw [hr] at hs; rw [h] at hs; cases hs
    | panic => rw [hr] at hs; rw [h] at hs; cases hs
  · intro h
    rw [runParts_ok h] at hs
    obtain ⟨b', h1, -⟩ := hs
    exact ⟨b', h1⟩

/-- A grammar for examples: everything is well formed, and the code in braces is one statement. -/
def Grammar.demo : Grammar where
  valid _ _ := true
  validMeta _ := true
  parseBlock ts := some [.other ts]

/-- `#[doc = "% a %"] struct a<T> where T: a { x: a } ; fn f() { a }` -/
def demoBlock (w : Toks) : List Stmt :=
  [.item (.struct ⟨[⟨false, [.ident (S "doc"), .punct '=' false, .lit (.str (S "\"% a %\"") (S "% a %"))]⟩],
      [.punct '<' false, .ident (S "T"), .punct '>' false], w⟩ [] [.ident (S "a")]
      (.named ⟨[⟨[], [], some [.ident (S "x")], [.ident (S "a")]⟩], false⟩)),
   .item (.fn [] [.ident (S "pub")] [.ident (S "fn"), .ident (S "f"), .group .paren []] [.other [.ident (S "a")]])]

def demoWhere : Toks := [.ident (S "where"), .ident (S "T"), .punct ':' false, .ident (S "a")]

/-- C17 is false as stated: the where-clause of a struct (enum, union, trait, impl) disappears. -/
theorem C17_false : ∃ b b' : List Stmt, visitBlock Ext.demo Grammar.demo demoSubs b = .ok b' ∧
    stmtsToks b' ≠ substAll (valueToks demoSubs) (litWith Ext.demo (fmtStr Ext.demo demoSubs)) (stmtsToks b) :=
  ⟨demoBlock demoWhere, _, rfl, by decide⟩

/-- C17 is also false for an alias with the name of a contextual keyword: `union` is replaced in ordinary code but not
as the keyword of an item. -/
theorem C17_contextual_keyword_false : ∃ (subs : Subs) (b b' : List Stmt), stmtsNoWhere b = b ∧
    visitBlock Ext.demo Grammar.demo subs b = .ok b' ∧
    stmtsToks b' ≠ substAll (valueToks subs) (litWith Ext.demo (fmtStr Ext.demo subs)) (stmtsToks b) :=
  ⟨[(S "union", .ident (S "x"))], [.item (.union ⟨[], [], []⟩ [] [.ident (S "union")] ⟨[], false⟩)], _, rfl, rfl, by decide⟩

example : stmtsToks (demoBlock []) = [.punct '#' false,
    .group .bracket [.ident (S "doc"), .punct '=' false, .lit (.str (S "\"% a %\"") (S "% a %"))],
    .ident (S "struct"), .ident (S "a"), .punct '<' false, .ident (S "T"), .punct '>' false,
    .group .brace [.ident (S "x"), .punct ':' false, .ident (S "a")],
    .ident (S "pub"), .ident (S "fn"), .ident (S "f"), .group .paren [], .group .brace [.ident (S "a")]] := by decide
example : (visitBlock Ext.demo Grammar.demo demoSubs (demoBlock [])).map stmtsToks = .ok [.punct '#' false,
    .group .bracket [.ident (S "doc"), .punct '=' false, .lit (.str (S "\"Foo\"") (S "Foo"))],
    .ident (S "struct"), .ident (S "Foo"), .punct '<' false, .ident (S "T"), .punct '>' false,
    .group .brace [.ident (S "x"), .punct ':' false, .ident (S "Foo")],
    .ident (S "pub"), .ident (S "fn"), .ident (S "f"), .group .paren [], .group .brace [.ident (S "Foo")]] := by decide
example : (∀ s ∈ itemKeywords, List.lookup s demoSubs = none) ∧ stmtsNoWhere (demoBlock []) = demoBlock [] ∧
    (∀ c ss, Grammar.demo.parseBlock c = some ss → stmtsToks ss = c) ∧ StatementsParse Grammar.demo (demoBlock []) := by
  refine ⟨by decide, rfl, ?_, ?_⟩
  · intro c ss h; cases h; simp [stmtsToks, Stmt.toks]
  · intro ts h
    simp [demoBlock, stmtsParts, stmtParts, itemParts, headParts, attrParts, fieldsParts, fieldParts, optPart] at h
    subst h; rfl

/-! ## C18 -/

/-- Two trees that differ only in their string literals (of which there may be any). -/
def SameButStrings (a b : Toks) : Prop := strip a = strip b
where
  strip : Toks → Toks
    | [] => []
    | .lit (.str _ _) :: ts => .lit (.str [] []) :: strip ts
    | .group d us :: ts => .group d (strip us) :: strip ts
    | t :: ts => t :: strip ts

open SameButStrings (strip)

theorem strip_append (a b : Toks) : strip (a ++ b) = strip a ++ strip b := by
  induction a with
  | nil => simp [strip]
  | cons t ts ih =>
    cases t with
    | lit l => cases l <;> simp [strip, ih]
    | ident s => simp [strip, ih]
    | punct c j => simp [strip, ih]
    | group d us => simp [strip, ih]

mutual
theorem strip_substFirstTok (look : Str → Option Toks) (str : Str → Lit) (hs : ∀ v, ∃ r w, str v = .str r w) (t : Tok) (k : Nat)
    (h : ∀ u ∈ (occTok look t).take k, aliasOf u = none) : strip (substFirstTok look str k t) = strip [t] := by
  match t with
  | .ident n =>
    simp only [substFirstTok]
    split
    · rfl
    · rename_i hk
      cases hl : look n with
      | none => rfl
      | some v =>
        simp only [occTok, hl, Option.isSome_some, if_true] at h
        have := h (.ident n) (by cases k <;> simp at hk ⊢)
        cases this
  | .lit (.str r v) =>
    obtain ⟨r', w, hw⟩ := hs v
    simp only [substFirstTok]
    split
    · rfl
    · simp [strip, hw]
  | .lit (.int _ _) => simp [substFirstTok]
  | .lit (.other _) => simp [substFirstTok]
  | .punct _ _ => simp [substFirstTok]
  | .group d us =>
    simp only [substFirstTok, strip, List.cons.injEq, Tok.group.injEq, true_and, and_true]
    exact strip_substFirst look str hs us k (by simpa [occTok] using h)
theorem strip_substFirst (look : Str → Option Toks) (str : Str → Lit) (hs : ∀ v, ∃ r w, str v = .str r w) (ts : Toks) (k : Nat)
    (h : ∀ u ∈ (occAll look ts).take k, aliasOf u = none) : strip (substFirst look str k ts) = strip ts := by
  match ts with
  | [] => rfl
  | t :: ts =>
    simp only [substFirst, strip_append]
    simp only [occAll, List.take_append, List.mem_append] at h
    rw [strip_substFirstTok look str hs t k (fun u hu => h u (.inl hu)),
      strip_substFirst look str hs ts _ (fun u hu => h u (.inr hu)), ← strip_append]
    rfl
end

/-- A grammar that does not look into string literals. -/
def StringBlind (valid : Toks → Bool) : Prop := ∀ a b, SameButStrings a b → valid a = valid b

/-- Substitution in a piece of well-formed code does not panic, if the grammar does not look into string literals. -/
theorem C18_piece {valid : Toks → Bool} (hv : StringBlind valid) {node : Toks} (h0 : valid node = true) :
    substituteIdents E valid subs node ≠ .panic := by
  rcases substituteIdents_spec (E := E) (valid := valid) (subs := subs) node h0 with ⟨-, h⟩ | ⟨k, -, -, hbad, -, h⟩
  · rw [h]; simp
  · cases hl : lastAlias (lookToks subs) node k with
    | some n =>
      rw [h, hl, blame]
      cases lookToks subs n <;> simp
    | none =>
      have hn : ∀ u ∈ (occAll (lookToks subs) node).take k, aliasOf u = none := by
        unfold lastAlias at hl
        rw [List.getLast?_eq_none_iff, List.filterMap_eq_nil_iff] at hl
        exact hl
      have := hv (substFirst (lookToks subs) (strLit E subs) k node) node
        (strip_substFirst _ _ (fun v => ⟨_, _, rfl⟩) node k hn)
      rw [hbad, h0] at this
      cases this

/-- **C18** (partial: the items have no inner attributes — these are not valid as outer ones, which is what
`validPart … .attrs` asks for). If the pieces of a block are well formed, and well-formedness does not depend on the
contents of string literals, the substitution in the block does not panic. -/
theorem C18_no_panic_partial (hv : ∀ k, StringBlind (validPart G k)) {b : List Stmt}
    (hb : ∀ p ∈ stmtsParts b, validPart G p.1 p.2 = true) : visitBlock E G subs b ≠ .panic := by
  have hs := visitBlock_spec id (E := E) (subs := subs) b (fun p hp _ => hb p hp)
  have hn : runParts E G subs (stmtsParts b) ≠ .panic := by
    clear hs
    generalize stmtsParts b = ps at hb
    induction ps with
    | nil => simp [runParts]
    | cons p ps ih =>
      intro h
      simp only [runParts] at h
      rcases Res.bind_eq_panic.1 h with h | ⟨-, -, h⟩
      · exact C18_piece (hv p.1) (hb p (by simp)) h
      · exact ih (fun q hq => hb q (by simp [hq])) h
  cases hr : runParts E G subs (stmtsParts b) with
  | ok a => rw [hr] at hs; obtain ⟨b', h, -⟩ := hs; rw [h]; simp
  | err e => rw [hr] at hs; rw [hs]; simp
  | panic => exact absurd hr hn

/-- C18 is false as stated: an inner attribute that mentions no alias, for instance `#![inline]` in the body of a
function, makes the macro panic, whatever the rest of the code. -/
theorem C18_false (E : Ext) (G : Grammar) (vis sig : Toks) (block rest : List Stmt) :
    visitBlock E G [] (.item (.fn [⟨true, [.ident (S "inline")]⟩] vis sig block) :: rest) = .panic := rfl

theorem Grammar.demo_blind (k : PartKind) : StringBlind (validPart Grammar.demo k) := by
  intro a b h
  cases k with
  | node k => rfl
  | attrs =>
    simp only [validPart]
    suffices ∀ a : Toks, (Attr.parseOuter Grammar.demo.validMeta a).isSome =
        (Attr.parseOuter Grammar.demo.validMeta (strip a)).isSome by
      rw [this a, this b, show strip a = strip b from h]
    intro a
    fun_induction Attr.parseOuter Grammar.demo.validMeta a with
    | case1 => simp [strip, Attr.parseOuter]
    | case2 j body ts hok ih => simpa [strip, Attr.parseOuter, Grammar.demo] using ih
    | case3 j body ts hok => simp [Grammar.demo] at hok
    | case4 ts h1 h2 =>
      match ts with
      | [] => exact absurd rfl h1
      | .ident _ :: _ => simp [strip, Attr.parseOuter]
      | .lit (.str _ _) :: _ => simp [strip, Attr.parseOuter]
      | .lit (.int _ _) :: _ => simp [strip, Attr.parseOuter]
      | .lit (.other _) :: _ => simp [strip, Attr.parseOuter]
      | .group _ _ :: _ => simp [strip, Attr.parseOuter]
      | [.punct c j] => simp [strip, Attr.parseOuter]
      | .punct c j :: .ident _ :: _ => simp [strip, Attr.parseOuter]
      | .punct c j :: .punct _ _ :: _ => simp [strip, Attr.parseOuter]
      | .punct c j :: .lit (.str _ _) :: _ => simp [strip, Attr.parseOuter]
      | .punct c j :: .lit (.int _ _) :: _ => simp [strip, Attr.parseOuter]
      | .punct c j :: .lit (.other _) :: _ => simp [strip, Attr.parseOuter]
      | .punct c j :: .group d us :: ts =>
        simp only [strip]
        unfold Attr.parseOuter
        split
        · rename_i heq; cases heq
        · rename_i heq
          simp only [List.cons.injEq, Tok.punct.injEq, Tok.group.injEq] at heq
          obtain ⟨⟨rfl, -⟩, ⟨rfl, -⟩, -⟩ := heq
          exact absurd rfl (h2 _ _ _)
        · rfl
  | block =>
    have key : ∀ a : Toks, validPart Grammar.demo .block a = validPart Grammar.demo .block (strip a) := by
      intro a
      simp only [validPart, Grammar.validBlock, Grammar.demo, Option.isSome_some]
      match a with
      | [] => simp [strip]
      | [.ident _] | [.punct _ _] | [.lit (.str _ _)] | [.lit (.int _ _)] | [.lit (.other _)] => simp [strip]
      | [.group d _] => cases d <;> simp [strip]
      | .ident _ :: _ :: _ => simp [strip]
      | .punct _ _ :: _ :: _ => simp [strip]
      | .lit (.str _ _) :: _ :: _ => simp [strip]
      | .lit (.int _ _) :: _ :: _ => simp [strip]
      | .lit (.other _) :: _ :: _ => simp [strip]
      | .group d _ :: t :: ts =>
        have : strip (t :: ts) ≠ [] := by
          cases t with
          | lit l => cases l <;> simp [strip]
          | _ => simp [strip]
        cases h : strip (t :: ts) with
        | nil => exact absurd h this
        | cons u us => cases d <;> simp [strip, h]
    rw [key a, key b, show strip a = strip b from h]

example : (∀ k, StringBlind (validPart Grammar.demo k)) ∧
    ∀ p ∈ stmtsParts (demoBlock demoWhere), validPart Grammar.demo p.1 p.2 = true := ⟨Grammar.demo_blind, by decide⟩

/-! ## C57 -/

/-- **C57**: the first piece that fails decides: if the pieces before it succeed, its error is the error of the
block, whatever the pieces after it are — even if those would panic. -/
theorem C57_first_error {b : List Stmt} (hb : StatementsParse G b) {pre post : Parts} {p : PartKind × Toks} {e : Err}
    (hp : stmtsParts b = pre ++ p :: post)
    (hpre : ∀ q ∈ pre, ∃ out, substituteIdents E (validPart G q.1) subs q.2 = .ok out)
    (he : substituteIdents E (validPart G p.1) subs p.2 = .err e) : visitBlock E G subs b = .err e := by
  have hs := visitBlock_spec id (E := E) (subs := subs) b hb.parts
  rw [hp, runParts_append, runParts_ok hpre] at hs
  simpa [runParts, he] using hs

/-- **C57**: every error comes from the first piece that does not succeed. -/
theorem C57_error_is_first {b : List Stmt} (hb : StatementsParse G b) {e : Err} (h : visitBlock E G subs b = .err e) :
    ∃ pre p post, stmtsParts b = pre ++ p :: post ∧
      (∀ q ∈ pre, ∃ out, substituteIdents E (validPart G q.1) subs q.2 = .ok out) ∧
      substituteIdents E (validPart G p.1) subs p.2 = .err e := by
  have hs := visitBlock_spec id (E := E) (subs := subs) b hb.parts
  cases hr : runParts E G subs (stmtsParts b) with
  | ok a => rw [hr] at hs; obtain ⟨b', h1, -⟩ := hs; rw [h] at h1; cases h1
  | panic => rw [hr] at hs; rw [h] at hs; cases hs
  | err e' =>
    rw [hr, h] at hs
    cases hs
    clear h hb
    generalize stmtsParts b = ps at hr
    induction ps with
    | nil => cases hr
    | cons p ps ih =>
      simp only [runParts] at hr
      rcases Res.bind_eq_err.1 hr with h1 | ⟨out, h1, h2⟩
      · exact ⟨[], p, ps, rfl, by simp, h1⟩
      · obtain ⟨pre, q, post, rfl, h3, h4⟩ := ih h2
        refine ⟨p :: pre, q, post, rfl, ?_, h4⟩
        intro r hr
        rcases List.mem_cons.1 hr with rfl | hr
        · exact ⟨out, h1⟩
        · exact h3 r hr

/-- **C17**: attributes are printed once each, those written as `#![…]` inside the item and the others in front of it. -/
theorem C17_attributes_once (as : List Attr) : (outerToks as ++ innerToks as).Perm (as.flatMap Attr.toks) ∧
    (∀ a ∈ as, a.inner = false → a.toks.Sublist (outerToks as)) ∧ (∀ a ∈ as, a.inner = true → a.toks.Sublist (innerToks as)) := by
  refine ⟨?_, fun a ha hi => ?_, fun a ha hi => ?_⟩
  · unfold outerToks innerToks
    rw [← List.flatMap_append]
    refine List.Perm.flatMap_right _ ?_
    refine List.perm_append_comm.trans ?_
    exact List.filter_append_perm (fun a => a.inner) as
  · obtain ⟨p, q, h⟩ := List.append_of_mem (List.mem_filter.2 ⟨ha, by simp [hi]⟩ : a ∈ as.filter (fun a => !a.inner))
    rw [outerToks, h, List.flatMap_append, List.flatMap_cons]
    exact (List.sublist_append_left _ _).trans (List.sublist_append_right _ _)
  · obtain ⟨p, q, h⟩ := List.append_of_mem (List.mem_filter.2 ⟨ha, hi⟩ : a ∈ as.filter (fun a => a.inner))
    rw [innerToks, h, List.flatMap_append, List.flatMap_cons]
    exact (List.sublist_append_left _ _).trans (List.sublist_append_right _ _)

/-- `#[a] fn f() { #![b] }` -/
example : (Item.fn [⟨true, [.ident (S "b")]⟩, ⟨false, [.ident (S "a")]⟩] [] [.ident (S "fn"), .ident (S "f"), .group .paren []] []).toks =
    [.punct '#' false, .group .bracket [.ident (S "a")], .ident (S "fn"), .ident (S "f"), .group .paren [],
      .group .brace [.punct '#' false, .punct '!' false, .group .bracket [.ident (S "b")]]] := rfl

/-- A grammar in which names must be identifiers. -/
def Grammar.demoIdent : Grammar :=
  { Grammar.demo with valid := fun k ts => k != .ident || (parseIdent ts).isSome }

/-- The name `b` of the struct becomes `a + b`, which is not an identifier; the function after it has an inner
attribute, which would panic. -/
example : visitBlock Ext.demo Grammar.demoIdent demoSubs
    [.item (.struct ⟨[], [], []⟩ [] [.ident (S "b")] .unit), .item (.fn [⟨true, [.ident (S "inline")]⟩] [] [] [])] =
    .err (.substitution (S "b") (S "a + b")) := rfl

end Verif.Props
