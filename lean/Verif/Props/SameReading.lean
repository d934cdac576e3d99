import Verif.Proofs.Leafmap
import Verif.Props.Commas
import Verif.Props.WhenCode
/-!
# Names and strings do not matter for how the input is read (C92)
-/

set_option linter.unusedSectionVars false

namespace Verif.Props
open Spec

/-- The grammar of Rust is blind to names that are not special and to the contents of strings. -/
structure BlindSyn (special : Str → Prop) (Y : Syn) : Prop where
  path : ∀ a b, SameShape special a b → Y.path a = Y.path b
  type : ∀ a b, SameShape special a b → Y.type a = Y.type b
  expr : ∀ a b, SameShape special a b → Y.expr a = Y.expr b
  block : ∀ a b, SameShape special a b → (Y.parseBlock a).isSome = (Y.parseBlock b).isSome

/-- The replacement made in all tokens of an invocation. -/
def replacedIn (m : Leafmap) : Invocation → Invocation
  | .compose ts => .compose (m.toks ts)
  | .composeIdents ts => .composeIdents (m.toks ts)
  | .composeItem attr item => .composeItem (m.toks attr) (m.toks item)

/-- The code in the input: what is between the braces, or the item. -/
inductive CodeIn (W : World) : Invocation → List Stmt → Toks → Prop
  | block {ts mid b tail : Toks} {h : Option PLoops × Option PSpec} {ss : List Stmt} (hh : ReadsHeader isBuiltin W.Y ts h mid)
      (hm : First mid (.group .brace b) tail) (hb : W.Y.parseBlock b = some ss) : CodeIn W (.compose ts) ss b
  | blockIdents {ts : Toks} {ss : List Stmt} {b : Toks} (h : CodeIn W (.compose ts) ss b) : CodeIn W (.composeIdents ts) ss b
  | item {attr item : Toks} {ss : List Stmt} (hb : W.Y.parseBlock item = some ss) : CodeIn W (.composeItem attr item) ss item

section
variable {special : Str → Prop} {m : Leafmap} (hm : m.Keeps special)
include hm

mutual
theorem sameShape_tok : ∀ t : Tok, SameShape special [t] [m.tok t]
  | .ident n => by
    by_cases h : special n
    · rw [Leafmap.tok, hm.same n h]; exact .refl _
    · exact .name h (hm.others n h) .nil
  | .lit (.str _ _) => .str _ _ _ _ .nil
  | .lit (.int _ _) => .refl _
  | .lit (.other _) => .refl _
  | .punct _ _ => .refl _
  | .group d ts => .group d (sameShape_toks ts) .nil
theorem sameShape_toks : ∀ ts : Toks, SameShape special ts (m.toks ts)
  | [] => .nil
  | t :: ts => (sameShape_tok t).append (sameShape_toks ts)
end

theorem keeps_of {p : Str → Prop} (hp : ∀ n, p n → special n) : m.Keeps p where
  same n h := hm.same n (hp n h)
  others n h h' := by
    by_cases hs : special n
    · rw [hm.same n hs] at h'; exact h h'
    · exact hm.others n hs (hp _ h')

variable {W : World} (hk : ∀ n ∈ keywords, special n) (hf : ∀ n, isBuiltin n = true → special n) (hY : BlindSyn special W.Y)
include hk hf hY

theorem blind_of : m.Blind isBuiltin W.Y where
  kw := keeps_of hm hk
  fn := keeps_of hm hf
  path ts := (hY.path _ _ (sameShape_toks hm ts)).symm
  type ts := (hY.type _ _ (sameShape_toks hm ts)).symm
  expr ts := (hY.expr _ _ (sameShape_toks hm ts)).symm

theorem block_to {ts : Toks} {b : List Stmt} (h : W.Y.parseBlock ts = some b) : ∃ b', W.Y.parseBlock (m.toks ts) = some b' := by
  have := hY.block _ _ (sameShape_toks hm ts)
  rw [h] at this
  exact Option.isSome_iff_exists.1 this.symm

theorem block_of {ts : Toks} {b : List Stmt} (h : W.Y.parseBlock (m.toks ts) = some b) : ∃ b', W.Y.parseBlock ts = some b' := by
  have := hY.block _ _ (sameShape_toks hm ts)
  rw [h] at this
  exact Option.isSome_iff_exists.1 this

omit hk hf hY in
theorem spec_comma {s : Option PSpec} {c : Bool} : (∀ s', s.map m.spec = some s' → s'.comma = some c) ↔ ∀ s', s = some s' → s'.comma = some c := by
  cases s with
  | none => simp
  | some s => simp [Leafmap.spec]

theorem input_to {ts : Toks} {a : PAst} (h : ReadsInput isBuiltin W.Y ts a) : ∃ b' c,
    ReadsInput isBuiltin W.Y (m.toks ts) ⟨a.id, a.loops.map m.loops, a.spec.map m.spec, b'⟩ ∧
      CodeIn W (.compose ts) a.block c ∧ CodeIn W (.compose (m.toks ts)) b' (m.toks c) := by
  have B := blind_of hm hk hf hY
  cases h with
  | @mk mid b tail ls s block id h hmid hb ht =>
    obtain ⟨b', h'⟩ := block_to hm hk hf hY hb
    have h1 := (Leafmap.readsHeader_same B).to _ _ _ h
    refine ⟨b', b, .mk id h1 (Leafmap.first_to hmid) h' ?_, .block h hmid hb, .block h1 (Leafmap.first_to hmid) h'⟩
    rcases ht with rfl | ⟨c, t, rfl, h2, h3⟩
    · exact .inl rfl
    · exact .inr ⟨c, m.tok t, rfl, Leafmap.tok_sep.2 h2, (spec_comma hm).2 h3⟩

theorem input_of {ts : Toks} {a' : PAst} (h : ReadsInput isBuiltin W.Y (m.toks ts) a') : ∃ a c, ReadsInput isBuiltin W.Y ts a ∧
    a' = ⟨a.id, a.loops.map m.loops, a.spec.map m.spec, a'.block⟩ ∧ CodeIn W (.compose ts) a.block c ∧
      CodeIn W (.compose (m.toks ts)) a'.block (m.toks c) := by
  have B := blind_of hm hk hf hY
  cases h with
  | @mk mid b tail ls s block id h hmid hb ht =>
    obtain ⟨⟨ls', s'⟩, mid', h1, h2, rfl⟩ := (Leafmap.readsHeader_same B).of _ _ _ h
    cases h2
    obtain ⟨c, t', h3, rfl, rfl⟩ := Leafmap.first_group_of hmid
    obtain ⟨b', h'⟩ := block_of hm hk hf hY hb
    refine ⟨⟨id, ls', s', b'⟩, c, .mk id h1 h3 h' ?_, rfl, .block h1 h3 h', .block h hmid hb⟩
    rcases ht with h4 | ⟨d, t, h4, h5, h6⟩
    · exact .inl (Leafmap.toks_eq_nil.1 h4)
    · obtain ⟨t2, r2, rfl, rfl, h8⟩ := Leafmap.toks_eq_cons h4
      rw [Leafmap.toks_eq_nil] at h8
      subst h8
      exact .inr ⟨d, t2, rfl, Leafmap.tok_sep.1 h5, (spec_comma hm).1 h6⟩

/-- **C92**: if names which are not special (keywords and functions are) are replaced by such names everywhere in the input, and string literals by string
literals, then it is read as the same tree with the same replacements, the code being the replaced code. -/
theorem C92_read {inv : Invocation} {a : PAst} (h : Reads W inv a) : ∃ b' c,
    Reads W (replacedIn m inv) ⟨a.id, a.loops.map m.loops, a.spec.map m.spec, b'⟩ ∧ CodeIn W inv a.block c ∧ CodeIn W (replacedIn m inv) b' (m.toks c) := by
  cases inv with
  | compose ts => exact input_to hm hk hf hY h
  | composeIdents ts =>
    obtain ⟨b', c, h1, h2, h3⟩ := input_to hm hk hf hY h
    exact ⟨b', c, h1, .blockIdents h2, .blockIdents h3⟩
  | composeItem attr item =>
    obtain ⟨h, hb⟩ := h
    have B := blind_of hm hk hf hY
    obtain ⟨b', h'⟩ := block_to hm hk hf hY hb
    refine ⟨b', item, ⟨?_, h'⟩, .item hb, .item h'⟩
    obtain ⟨id, ls, s, bl⟩ := a
    generalize e : ({ (⟨id, ls, s, bl⟩ : PAst) with block := [] } : PAst) = a0 at h
    cases h with
    | mk id h ht =>
      cases e
      refine .mk id ((Leafmap.readsHeader_same B).to _ _ _ h) ?_
      rcases ht with rfl | ⟨h1, c, t, rfl, h2⟩
      · exact .inl rfl
      · exact .inr ⟨by simpa using h1, c, m.tok t, rfl, Leafmap.tok_sep.2 h2⟩

/-- **C92**, the other way: what can be read after the replacement could be read before, as a tree from which the replacement gives the one read. So nothing
becomes readable, or unreadable, by it. -/
theorem C92_only {inv : Invocation} {a' : PAst} (h : Reads W (replacedIn m inv) a') : ∃ a c, Reads W inv a ∧
    a' = ⟨a.id, a.loops.map m.loops, a.spec.map m.spec, a'.block⟩ ∧ CodeIn W inv a.block c ∧ CodeIn W (replacedIn m inv) a'.block (m.toks c) := by
  cases inv with
  | compose ts => exact input_of hm hk hf hY h
  | composeIdents ts =>
    obtain ⟨a, c, h1, h2, h3, h4⟩ := input_of hm hk hf hY h
    exact ⟨a, c, h1, h2, .blockIdents h3, .blockIdents h4⟩
  | composeItem attr item =>
    obtain ⟨h, hb⟩ := h
    have B := blind_of hm hk hf hY
    obtain ⟨b', h'⟩ := block_of hm hk hf hY hb
    obtain ⟨id, ls, s, bl⟩ := a'
    generalize e : ({ (⟨id, ls, s, bl⟩ : PAst) with block := [] } : PAst) = a0 at h
    cases h with
    | mk id h ht =>
      cases e
      obtain ⟨⟨ls', s'⟩, mid', h1, h2, rfl⟩ := (Leafmap.readsHeader_same B).of _ _ _ h
      cases h2
      refine ⟨⟨id, ls', s', b'⟩, item, ⟨.mk id h1 ?_, h'⟩, rfl, .item h', .item hb⟩
      rcases ht with h4 | ⟨h3, d, t, h4, h5⟩
      · exact .inl (Leafmap.toks_eq_nil.1 h4)
      · obtain ⟨t2, r2, rfl, rfl, h8⟩ := Leafmap.toks_eq_cons h4
        rw [Leafmap.toks_eq_nil] at h8
        subst h8
        exact .inr ⟨by cases s' <;> simp_all, d, t2, rfl, Leafmap.tok_sep.1 h5⟩

/-- **C92**: the code in the tree is the code of the input with the replacement, as far as `q` tells (see `GoodSyntax`). -/
theorem C92_code {q : Toks → Toks} (hW : GoodSyntax q W) {inv : Invocation} {a : PAst} (h : Reads W inv a) : ∃ a' c, Reads W (replacedIn m inv) a' ∧
    a'.loops = a.loops.map m.loops ∧ a'.spec = a.spec.map m.spec ∧ q (stmtsToks a.block) = q c ∧ q (stmtsToks a'.block) = q (m.toks c) := by
  have code : ∀ {inv : Invocation} {ss : List Stmt} {c : Toks}, CodeIn W inv ss c → q (stmtsToks ss) = q c := by
    intro inv ss c h
    induction h with
    | block _ _ hb => exact hW.lossless _ _ hb
    | blockIdents _ ih => exact ih
    | item hb => exact hW.lossless _ _ hb
  obtain ⟨b', c, h1, h2, h3⟩ := C92_read hm hk hf hY h
  exact ⟨_, c, h1, rfl, rfl, code h2, code h3⟩
end

/-! ## Examples -/

theorem SameShape.mono {p q : Str → Prop} (hpq : ∀ n, p n → q n) {a b : Toks} (h : SameShape q a b) : SameShape p a b := by
  induction h with
  | nil => exact .nil
  | same t _ ih => exact .same t ih
  | name ha hb _ ih => exact .name (fun h => ha (hpq _ h)) (fun h => hb (hpq _ h)) ih
  | str r v r' v' _ ih => exact .str r v r' v' ih
  | group d _ _ ih1 ih2 => exact .group d ih1 ih2

/-- Keywords and functions. -/
def taken (n : Str) : Prop := n ∈ keywords ∨ isBuiltin n = true

instance (n : Str) : Decidable (taken n) := inferInstanceAs (Decidable (_ ∨ _))

theorem demoPath_blind {a b : Toks} (h : SameShape (· ∈ keywords) a b) : demoPathLen a = demoPathLen b := by
  have short : ∀ {s : Str} {ts us : Toks}, SameShape (· ∈ keywords) ts us → (∀ r, ts ≠ .punct ':' true :: .punct ':' false :: r) →
      demoPathLen (.ident s :: us) = if keywords.contains s then none else some 1 := by
    intro s ts us h hn
    unfold demoPathLen
    split
    · next he =>
      cases he
      exfalso
      cases h with
      | same t h =>
        cases h with
        | same t h => exact hn _ rfl
    · next he => cases he; rfl
    · next h1 h2 => exact absurd rfl (h2 _ _)
  fun_induction demoPathLen a generalizing b with
  | case1 s ts hs =>
    cases h with
    | same _ h => cases h with | same _ h => cases h with | same _ h => rw [demoPathLen, if_pos hs]
    | name ha _ h => exact absurd (by simpa using hs) ha
  | case2 s ts hs ih =>
    cases h with
    | same _ h => cases h with | same _ h => cases h with | same _ h => rw [demoPathLen, if_neg hs, ih h]
    | name _ hb h => cases h with | same _ h => cases h with | same _ h => rw [demoPathLen, if_neg (by simpa using hb), ih h]
  | case3 s ts hn hs =>
    cases h with
    | same _ h => rw [short h hn, if_pos hs]
    | name ha _ h => exact absurd (by simpa using hs) ha
  | case4 s ts hn hs =>
    cases h with
    | same _ h => rw [short h hn, if_neg hs]
    | name _ hb h => rw [short h hn, if_neg (by simpa using hb)]
  | case5 ts h1 h2 =>
    cases h with
    | nil => rfl
    | same t h =>
      cases t with
      | ident n => exact absurd rfl (h2 n _)
      | _ => rfl
    | name _ _ h => exact absurd rfl (h2 _ _)
    | str => rfl
    | group => rfl

theorem sameShape_drop {p : Str → Prop} {a b : Toks} (h : SameShape p a b) (n : Nat) : SameShape p (a.drop n) (b.drop n) := by
  induction h generalizing n with
  | nil => simpa using SameShape.nil
  | same t h ih => cases n with | zero => exact .same t h | succ n => exact ih n
  | name ha hb h ih => cases n with | zero => exact .name ha hb h | succ n => exact ih n
  | str r v r' v' h ih => cases n with | zero => exact .str r v r' v' h | succ n => exact ih n
  | group d hin h _ ih => cases n with | zero => exact .group d hin h | succ n => exact ih n

theorem demoExpr_blind {a b : Toks} (h : SameShape (· ∈ keywords) a b) : demoExprLen a = demoExprLen b := by
  have hp : ∀ n, demoParen (a.drop n) = demoParen (b.drop n) := fun n => by
    have := sameShape_drop h n
    generalize a.drop n = x at this
    generalize b.drop n = y at this
    cases this with
    | nil => rfl
    | same t h => cases t <;> first | rfl | (rename_i d _; cases d <;> rfl)
    | name => rfl
    | str => rfl
    | group d _ _ => cases d <;> rfl
  have key : ∀ x : Toks, (∀ l r, x ≠ .lit l :: r) → demoExprLen x = (demoPathLen x).map fun n => if demoParen (x.drop n) then n + 1 else n := by
    intro x hx
    unfold demoExprLen
    split
    · exact absurd rfl (hx _ _)
    · rfl
  by_cases hl : ∃ l r, a = .lit l :: r
  · obtain ⟨l, r, rfl⟩ := hl
    cases h <;> rfl
  · rw [key a fun l r e => hl ⟨l, r, e⟩, key b, demoPath_blind h]
    · simp only [hp]
    · rintro l r rfl
      cases h with
      | same => exact hl ⟨_, _, rfl⟩
      | str => exact hl ⟨_, _, rfl⟩

theorem demo_blindSyn : BlindSyn taken demoWorld.Y where
  path _ _ h := demoPath_blind (h.mono fun _ => .inl)
  type _ _ h := demoPath_blind (h.mono fun _ => .inl)
  expr _ _ h := demoExpr_blind (h.mono fun _ => .inl)
  block _ _ _ := rfl

/-- `y` for `x`, `c` for `b`, and `"s"` for all strings. -/
def demoLeaves : Leafmap := ⟨fun n => if n = S "x" then S "y" else if n = S "b" then S "c" else n, fun _ _ => (S "\"s\"", S "s")⟩

theorem demoLeaves_keeps : demoLeaves.Keeps taken := by
  have h1 : ¬ taken (S "x") ∧ ¬ taken (S "b") ∧ ¬ taken (S "y") ∧ ¬ taken (S "c") := by decide +kernel
  constructor
  · intro n hn
    simp only [demoLeaves]
    rw [if_neg (by rintro rfl; exact h1.1 hn), if_neg (by rintro rfl; exact h1.2.1 hn)]
  · intro n hn
    simp only [demoLeaves]
    split
    · exact h1.2.2.1
    · split
      · exact h1.2.2.2
      · exact hn

example : demoLeaves.Keeps taken ∧ BlindSyn taken demoWorld.Y ∧ GoodSyntax id demoWorld ∧
    Reads demoWorld (.compose demoLoop) (demoParse demoLoop) ∧
    demoLeaves.toks demoLoop = [id' "for", id' "y", id' "in", .group .bracket [id' "a", comma, id' "c"], id' "y", eq', id' "concat", paren [id' "y", comma,
      .lit (.int (S "1") 1)], comma, brace [id' "struct", id' "y", brace []]] ∧
    Reads demoWorld (replacedIn demoLeaves (.compose demoLoop)) (demoParse (demoLeaves.toks demoLoop)) ∧
    (demoParse (demoLeaves.toks demoLoop)).spec = (demoParse demoLoop).spec.map demoLeaves.spec ∧
    (demoParse (demoLeaves.toks demoLoop)).loops = (demoParse demoLoop).loops.map demoLeaves.loops :=
  ⟨demoLeaves_keeps, demo_blindSyn, demo_good, reads_of_parse (ids := fun k => k) (k := 0) rfl, rfl,
    reads_of_parse (ids := fun k => k) (k := 0) rfl, rfl, rfl⟩

end Verif.Props
