import Verif.Lite.Local
import Verif.Spec.Syntax
import Verif.Spec.Commas
import Verif.Spec.WriteOut
import Verif.Spec.Format
/-!
# The assumptions on external code hold for the grammar, the lexer and the printer of `Verif/Lite`

Several theorems assume something of `syn` and `proc_macro2`. Here the same is proved of the executable stand-ins with which the examples of the
repository are run, so that the assumptions are not only consistent but hold for a realistic part of Rust.
-/

namespace Verif.Lite
open Verif Spec

theorem tail_of_sep {c : Bool} {t : Tok} (h : IsSep c t) (r : Toks) : Tail (t :: r) := by
  cases h <;> exact .sep rfl r

theorem isSep_of {c : Bool} {t : Tok} (h : IsSep c t) : isSep t = true := by cases h <;> rfl

/-- How much is read. -/
theorem count_some {p : Par} [hp : GoodP p] {ts : Toks} {n : Nat} (h : count p ts = some n) :
    n ≤ ts.length ∧ p ts = some (ts.drop n) ∧ EndOk (ts.take n) := by
  unfold count at h
  cases hr : p ts with
  | none => rw [hr] at h; cases h
  | some r =>
    rw [hr] at h
    simp only [Option.map_some, Option.some.injEq] at h
    obtain ⟨c, rfl, hc⟩ := hp.sfx _ _ hr
    have : n = c.length := by simp only [List.length_append] at h; omega
    subst this
    simp [hc]

theorem count_of {p : Par} {u r : Toks} (h : p (u ++ r) = some r) : count p (u ++ r) = some u.length := by
  simp [count, h]

/-- Reading on this side of a separator. -/
theorem count_tail {p : Par} [hp : GoodP p] {u τ : Toks} (ht : Tail τ) {n : Nat} (hn : n ≤ u.length) :
    count p (u ++ τ) = some n ↔ count p u = some n := by
  constructor
  · intro h
    obtain ⟨-, h2, -⟩ := count_some h
    rw [List.drop_append_of_le_length hn] at h2
    have := hp.bwd u τ _ ht h2
    simp only [count, this, Option.map_some, List.length_drop, Option.some.injEq]
    omega
  · intro h
    obtain ⟨-, h2, -⟩ := count_some h
    have := hp.fwd u τ _ ht h2
    simp only [count, this, Option.map_some, List.length_append, List.length_drop, Option.some.injEq]
    omega

theorem not_sep_last {u : Toks} {t : Tok} (h : EndOk (u ++ [t])) : isSep t = false := by
  unfold EndOk at h
  simp [endOkRev] at h
  exact h.1

theorem stopsBeforeComma {p : Par} [GoodP p] : StopsBeforeComma (count p) := by
  intro u j r n
  exact ⟨fun h => ⟨(count_some h).1, (count_tail (.sep rfl r) (count_some h).1).2 h⟩, fun h hn => (count_tail (.sep rfl r) hn).1 h⟩

theorem option_ext {a b : Option Nat} (h : ∀ n, a = some n ↔ b = some n) : a = b := by
  cases a with
  | none => cases b with
    | none => rfl
    | some y => exact ((h y).2 rfl)
  | some x => exact ((h x).1 rfl).symm

/-- At the very end a separator is not read. -/
theorem count_sep {p : Par} [GoodP p] {u : Toks} {t : Tok} (ht : isSep t = true) : count p (u ++ [t]) = count p u := by
  refine option_ext fun n => ⟨fun h => ?_, fun h => (count_tail (.sep ht []) (count_some h).1).2 h⟩
  by_cases hn : n ≤ u.length
  · exact (count_tail (.sep ht []) hn).1 h
  · obtain ⟨h1, -, h3⟩ := count_some h
    rw [List.take_of_length_le (by simp; omega)] at h3
    rw [not_sep_last h3] at ht
    cases ht

theorem ignoresComma {p : Par} [GoodP p] : IgnoresComma (count p) := fun _ _ => ⟨count_sep rfl, fun _ h => (count_some h).1⟩

theorem stopsAtBlock {p : Par} [GoodP p] : StopsAtBlock (count p) := by
  intro u t b c ht
  have := count_sep (p := p) (u := u ++ [.group .brace b]) (isSep_of ht)
  simpa using this

theorem stopsAtSep {p : Par} [GoodP p] : StopsAtSep (count p) := by
  intro u t b ht
  have ht := isSep_of ht
  constructor
  · rw [count_sep ht]
    refine option_ext fun n => ⟨fun h => ?_, fun h => (count_tail (.sep ht _) (count_some h).1).2 h⟩
    by_cases hn : n ≤ u.length
    · exact (count_tail (.sep ht _) hn).1 h
    · obtain ⟨h1, -, h3⟩ := count_some h
      simp only [List.length_append, List.length_cons, List.length_nil] at h1
      by_cases h4 : n = u.length + 1
      · have : (u ++ [t, .group .brace b]).take n = u ++ [t] := by
          rw [h4, List.take_append]
          simp [List.take_of_length_le]
        rw [this] at h3
        rw [not_sep_last h3] at ht
        cases ht
      · have : (u ++ [t, .group .brace b]).take n = u ++ [t, .group .brace b] := List.take_of_length_le (by simp; omega)
        rw [this] at h3
        unfold EndOk at h3
        simp [endOkRev, isBrace, ht] at h3
  · intro n h
    rw [count_sep ht] at h
    exact (count_some h).1

instance : GoodP (rust .path) := rust_good _ (by simp) (by simp)
instance : GoodP (rust .type) := rust_good _ (by simp) (by simp)
instance : GoodP (rust .expr) := rust_good _ (by simp) (by simp)

/-- Separators between definitions and before or after the block. -/
theorem syn_separators : (StopsAtSep syn.path ∧ StopsAtSep syn.type ∧ StopsAtSep syn.expr) ∧
    (StopsAtBlock syn.path ∧ StopsAtBlock syn.type ∧ StopsAtBlock syn.expr) ∧
    (IgnoresComma syn.path ∧ IgnoresComma syn.type ∧ IgnoresComma syn.expr) ∧
    (StopsBeforeComma syn.path ∧ StopsBeforeComma syn.type ∧ StopsBeforeComma syn.expr) :=
  ⟨⟨stopsAtSep, stopsAtSep, stopsAtSep⟩, ⟨stopsAtBlock, stopsAtBlock, stopsAtBlock⟩, ⟨ignoresComma, ignoresComma, ignoresComma⟩,
    ⟨stopsBeforeComma, stopsBeforeComma, stopsBeforeComma⟩⟩

/-! ## Names -/

theorem spanC_all {p : Char → Bool} : ∀ {s : Str}, s.all p = true → spanC p s = (s, [])
  | [], _ => rfl
  | c :: s, h => by
    simp only [List.all_cons, Bool.and_eq_true] at h
    simp [spanC, h.1, spanC_all h.2]

theorem cont_not {c : Char} (h : isCont c = true) : c ≠ '"' ∧ c ≠ '#' := by
  constructor <;> (rintro rfl; exact absurd h (by decide))

theorem start_not {c : Char} (h : isStart c = true) :
    c.isWhitespace = false ∧ (c == ')' || c == '}' || c == ']' || c == '⟧') = false ∧ delimOf c = none ∧ (c == '"') = false ∧ (c == '/') = false := by
  refine ⟨?_, ?_, ?_, ?_, ?_⟩
  · cases hw : c.isWhitespace with
    | false => rfl
    | true =>
      simp only [Char.isWhitespace, Bool.or_eq_true] at hw
      have : c = ' ' ∨ c = '\t' ∨ c = '\r' ∨ c = '\n' := by simpa [or_assoc] using hw
      rcases this with rfl | rfl | rfl | rfl <;> exact absurd h (by decide)
  · have : c ≠ ')' ∧ c ≠ '}' ∧ c ≠ ']' ∧ c ≠ '⟧' := by
      refine ⟨?_, ?_, ?_, ?_⟩ <;> (rintro rfl; exact absurd h (by decide))
    simp [this]
  · unfold delimOf
    split <;> first | rfl | (exact absurd h (by decide))
  · have : c ≠ '"' := by rintro rfl; exact absurd h (by decide)
    simp [this]
  · have : c ≠ '/' := by rintro rfl; exact absurd h (by decide)
    simp [this]

/-- Valid identifiers are read as such. -/
theorem lex_name {s : Str} (h : ext.lexIdent s = true) : lex s = some [.ident s] := by
  match s, h with
  | c :: cs, h =>
    simp only [CharClass.lexIdent, Bool.and_eq_true] at h
    obtain ⟨hc, hcs⟩ := h
    have hs : isStart c = true := by
      simp only [ext, CharClass.ascii, Bool.or_eq_true, beq_iff_eq] at hc
      simp only [isStart, Bool.or_eq_true, beq_iff_eq]
      exact hc.symm
    have hcs : cs.all isCont = true := hcs
    obtain ⟨h1, h2, h3, h4, h5⟩ := start_not hs
    have hr : (c == 'r' && cs.head? == some '"') = false ∧ (c == 'r' && cs.take 2 == c! "#\"") = false ∧ (c == 'r' && cs.head? == some '#') = false := by
      cases cs with
      | nil => simp
      | cons d ds =>
        simp only [List.all_cons, Bool.and_eq_true] at hcs
        obtain ⟨hd1, hd2⟩ := cont_not hcs.1
        simp [hd1, hd2]
    unfold lex
    have : lexToks (2 * (c :: cs).length + 1) (c :: cs) = some ([.ident (c :: cs)], []) := by
      simp only [List.length_cons]
      rw [show 2 * (cs.length + 1) + 1 = (2 * cs.length + 1) + 1 + 1 from by omega, lexToks.eq_def]
      simp [h1, h2, h3, h4, h5, hr.1, hr.2.1, hr.2.2, hs, spanC_all hcs, lexToks]
    rw [this]

theorem plainNames : PlainNames ext where
  render _ := rfl
  lex h := lex_name h

theorem colons_colons (ts : Toks) : colons (.punct ':' true :: .punct ':' false :: ts) = some ts := rfl

/-- The segments of a plain path. -/
theorem segsOf_plain {ts : Toks} {ss : List Str} (h : PlainPath ts ss) : ∀ n, ts.length ≤ n → segsOf n ts = ss := by
  induction h with
  | one s hs =>
    intro n hn
    cases n with
    | zero => simp at hn
    | succ n => rfl
  | @more s ts ss hs h ih =>
    intro n hn
    cases n with
    | zero => simp at hn
    | succ n =>
      have h1 : genericsP rust (.punct ':' true :: .punct ':' false :: ts) = none := rfl
      have h2 : seq colons (genericsP rust) (.punct ':' true :: .punct ':' false :: ts) = none := by
        cases h <;> rfl
      rw [segsOf]
      simp only [seq, oneOf, List.findSome?_cons, h1] at h2 ⊢
      rw [h2]
      simp only [Option.bind_some, colons_colons, List.cons.injEq, true_and]
      exact ih n (by simp only [List.length_cons] at hn; omega)

theorem pathSegs_plain {ts : Toks} {ss : List Str} (h : PlainPath ts ss) : ext.pathSegs ts = ss := by
  have : (colons ts).getD ts = ts := by cases h <;> rfl
  show segsOf ((colons ts).getD ts).length ((colons ts).getD ts) = ss
  rw [this]
  exact segsOf_plain h _ (Nat.le_refl _)

theorem kwP_other {s k : Str} (hs : s ∉ keywords) (hk : k ∈ keywords) (ts : Toks) : kwP k (.ident s :: ts) = none := by
  have : s ≠ k := fun e => hs (e ▸ hk)
  simp [kwP, this]

theorem identP_name {s : Str} (hs : s ∉ keywords) (ts : Toks) : identP (.ident s :: ts) = some ts := by
  simp [identP, hs]

/-- A name is a path, a type and an expression. -/
theorem name_path (rec : Cat → Par) (a b : Bool) {s : Str} (hs : s ∉ keywords) : pathWith rec a b [.ident s] = some [] := by
  have h1 : segIdent [.ident s] = some [] := by simp [segIdent, oneOf, identP_name hs]
  have h2 : segment rec a b [.ident s] = some [] := by
    unfold segment seq
    rw [h1]
    cases a <;> cases b <;> rfl
  unfold pathWith
  rw [seqs_cons, seqs_cons, seqs_cons, seqs_nil]
  have h3 : opt colons [.ident s] = some [.ident s] := rfl
  simp only [seq, h3, h2, Option.bind_some]
  rfl

theorem has_kw {s k : Str} (hs : s ∉ keywords) (hk : k ∈ keywords) (ts : Toks) : has (kwP k) (.ident s :: ts) = false := by
  simp [has, kwP_other hs hk]

theorem branch_skip {g : Toks → Bool} {p : Par} {bs : List ((Toks → Bool) × Par)} {ts : Toks} (h : g ts = false) :
    branch ((g, p) :: bs) ts = branch bs ts := by simp [branch, h]

theorem branch_take {g : Toks → Bool} {p : Par} {bs : List ((Toks → Bool) × Par)} {ts : Toks} (h : g ts = true) :
    branch ((g, p) :: bs) ts = p ts := by simp [branch, h]

theorem has_orElse {p q : Par} {ts : Toks} (h : p ts = none) (h' : q ts = none) : has (orElse p q) ts = false := by simp [has, orElse, h, h']

theorem name_typeNoPlus (n : Nat) {s : Str} (hs : s ∉ keywords) : typeNoPlusP (parse (n + 1)) [.ident s] = some [] := by
  unfold typeNoPlusP
  iterate 6 rw [branch_skip (by rfl)]
  rw [branch_skip (has_kw hs (by decide) _)]
  rw [branch_skip (by simp only [has, oneOf, List.findSome?_cons, List.findSome?_nil, kwP_other hs (by decide : c! "for" ∈ keywords), kwP_other hs (by decide : c! "unsafe" ∈ keywords),
    kwP_other hs (by decide : c! "extern" ∈ keywords), kwP_other hs (by decide : c! "fn" ∈ keywords), Option.isSome_none])]
  rw [branch_skip (has_orElse (kwP_other hs (by decide) _) (kwP_other hs (by decide) _))]
  rw [branch_skip (by rfl), branch_take (by rfl)]
  unfold seq
  rw [show parse (n + 1) .path = pathWith (parse n) true false from rfl, name_path _ _ _ hs]
  rfl

theorem name_type {s : Str} (hs : s ∉ keywords) : rust .type [.ident s] = some [] := by
  show typeP (parse 39) [.ident s] = some []
  have h1 : segIdent [.ident s] = some [] := by simp [segIdent, oneOf, identP_name hs]
  have h3 : opt colons [.ident s] = some [.ident s] := rfl
  unfold typeP
  rw [branch_take (by simp [has, seq, h3, h1])]
  unfold seq
  rw [name_typeNoPlus 38 hs]
  rfl

theorem name_atom (n : Nat) {s : Str} (hs : s ∉ keywords) : atom (parse (n + 1)) true [.ident s] = some [] := by
  unfold atom
  iterate 2 rw [branch_skip (by rfl)]
  rw [branch_skip (has_orElse (kwP_other hs (by decide) _) (kwP_other hs (by decide) _))]
  iterate 2 rw [branch_skip (by rfl)]
  have hl : label [.ident s] = some [.ident s] := rfl
  have ha : opt (kwP c! "async") [.ident s] = some [.ident s] := by simp [opt, kwP_other hs (by decide : c! "async" ∈ keywords)]
  have hm : opt (kwP c! "move") [.ident s] = some [.ident s] := by simp [opt, kwP_other hs (by decide : c! "move" ∈ keywords)]
  rw [branch_skip (by
    simp only [has, startsBlock, oneOf, List.findSome?_cons, List.findSome?_nil, kwP_other hs (by decide : c! "if" ∈ keywords),
      kwP_other hs (by decide : c! "match" ∈ keywords), seq, hl, Option.bind_some, kwP_other hs (by decide : c! "loop" ∈ keywords),
      kwP_other hs (by decide : c! "while" ∈ keywords), kwP_other hs (by decide : c! "for" ∈ keywords), groupAny, groupP,
      kwP_other hs (by decide : c! "unsafe" ∈ keywords), seqs_cons, kwP_other hs (by decide : c! "async" ∈ keywords), Option.bind_none,
      kwP_other hs (by decide : c! "const" ∈ keywords), Option.isSome_none])]
  rw [branch_skip (by simp only [has, seqs_cons, seq, ha, hm, Option.bind_some, pc, Option.bind_none, Option.isSome_none])]
  iterate 5 rw [branch_skip (has_kw hs (by decide) _)]
  rw [branch_skip (by rfl), branch_take (by rfl)]
  unfold seq
  rw [show parse (n + 1) .exprPath = pathWith (parse n) false false from rfl, name_path _ _ _ hs]
  rfl

theorem name_expr {s : Str} (hs : s ∉ keywords) : rust .expr [.ident s] = some [] := by
  show exprWith (parse 39) true [.ident s] = some []
  unfold exprWith
  rw [branch_skip (by rfl), branch_take (by rfl)]
  have h1 : operandP (parse 39) true [.ident s] = some [] := by
    unfold operandP
    iterate 4 rw [branch_skip (by rfl)]
    rw [branch_take (by rfl)]
    unfold seq
    rw [name_atom 38 hs]
    rfl
  unfold seq
  rw [h1]
  rfl

/-- Every name is a type and an expression. -/
theorem plainIdents {s : Str} (hs : s ∉ keywords) : ext.isType [.ident s] = true ∧ ext.isExpr [.ident s] = true := by
  constructor
  · show full (rust .type) [.ident s] = true
    simp [full, name_type hs]
  · show full (rust .expr) [.ident s] = true
    simp [full, name_expr hs]

end Verif.Lite
