import Verif.Proofs.SpanBlocks
import Verif.Props.SpanInput
import Verif.Props.Visitor
/-!
# Property C85, continued: whole blocks
-/

namespace Verif.Props
open Verif Spec

variable {σ : Type} {E : Ext} {P : SpanOps σ} {G : GrammarS σ} {subs : SubsS σ}

/-- The block has been parsed: its statements can be. -/
def StatementsParseS (P : SpanOps σ) (G : GrammarS σ) (b : List (SStmt σ)) : Prop :=
  ∀ ts, (PartKind.block, ts) ∈ stmtsPartsS P b → G.validBlock (STok.eraseL ts) = true

theorem StatementsParseS.parts {b : List (SStmt σ)} (h : StatementsParseS P G b) :
    ∀ p ∈ stmtsPartsS P b, p.1 = .block → validPart G.toGrammar p.1 (STok.eraseL p.2) = true := by
  rintro ⟨k, ts⟩ hp rfl; exact h ts hp

/-- **C85**: the substitution in a block with spans is the substitution in the block: without the spans it has the same outcome. -/
theorem C85_same_block (hG : SameTrees G) (b : List (SStmt σ)) :
    (visitBlockS E P G subs b).forget.map SStmt.eraseL = visitBlock E G.toGrammar subs.erase (SStmt.eraseL b) :=
  visitBlockS_erase hG b

/-- **C85**: in a whole block, an alias is replaced by tokens that point to where its value does, a string literal by one that points to the same place, and
everything else, keywords, punctuation and braces too, points to where it did. (As in `C17_all_but_where`, the where-clauses of structs, enums, unions, traits
and impls are lost, and no alias may have the name of a keyword of items.) -/
theorem C85_block {q : SToks σ → SToks σ} (hq : CoarseS q) {fmt : Str → Str} (hf : FormatsAll E subs.erase fmt)
    (hk : ∀ s ∈ itemKeywords, List.lookup s subs = none) (hG : SameTrees G)
    (hl : ∀ c ss, G.parseBlockS c = some ss → q (stmtsToksS ss) = q c) {b b' : List (SStmt σ)} (hb : StatementsParseS P G b)
    (h : visitBlockS E P G subs b = .ok b') :
    q (stmtsToksS b') = q (substAllS (tokensOf subs) (litWith E fmt) (stmtsToksS (stmtsNoWhereS b))) := by
  have hs := visitBlock_specS (E := E) (P := P) (subs := subs) hG.blocks q b hb.parts
  rw [litWith_eq hf, tokensOf_eq]
  cases hr : runPartsS E G subs (stmtsPartsS P b) with
  | ok a =>
    rw [hr] at hs
    obtain ⟨b2, h1, h2⟩ := hs
    rw [h] at h1
    cases h1
    exact h2 ⟨fun s hs => by simp [lookS, getS_eq_lookup, hk s hs], hl, hq⟩
  | err e sp => rw [hr] at hs; rw [h] at hs; cases hs
  | panic => rw [hr] at hs; rw [h] at hs; cases hs

/-- **C85**: every place the generated block points to is one the block pointed to before or one the value of an alias points to. -/
theorem C85_block_nowhere_else {q : SToks σ → SToks σ} (hq : CoarseS q) (hqs : ∀ ts, spans (q ts) = spans ts)
    (hk : ∀ s ∈ itemKeywords, List.lookup s subs = none) (hG : SameTrees G)
    (hl : ∀ c ss, G.parseBlockS c = some ss → q (stmtsToksS ss) = q c) {b b' : List (SStmt σ)} (hb : StatementsParseS P G b)
    (h : visitBlockS E P G subs b = .ok b') {sp : σ} (hs : sp ∈ spans (stmtsToksS b')) :
    sp ∈ spans (stmtsToksS (stmtsNoWhereS b)) ∨ ∃ n v, List.lookup n subs = some v ∧ sp ∈ spans v.toTokens := by
  have := C85_block hq formatsAll_fmtStr hk hG hl hb h
  rw [← hqs, this, hqs, tokensOf_eq] at hs
  simpa only [getS_eq_lookup] using mem_spans_subst _ hs

/-- **C85**: all that the code generated from an invocation can point to: the block, the invocation, what stands in it, and what covers such places. -/
theorem C85_whole_block {W : World} {src : Source σ} {a : PAst} {inp : SToks σ} (h : StandsInput W.Y P src inp a) (hN : (astIds a).Nodup)
    {brs : List (BlockRewrite Alias Expr (List Stmt))} (hx : expand a.forget = .ok brs) {br : BlockRewrite Alias Expr (List Stmt)} (hbr : br ∈ brs)
    {seed : Nat} {order : List (Alias × SVal σ) → List (Alias × SVal σ)} (ho : ∀ l, (order l).Perm l)
    (hm : makeSubstitutionsS W.E P src (Env.builtin seed) order br.spec.items = .ok subs)
    {q : SToks σ → SToks σ} (hq : CoarseS q) (hqs : ∀ ts, spans (q ts) = spans ts)
    (hk : ∀ s ∈ itemKeywords, List.lookup s subs = none) (hG : SameTrees G)
    (hl : ∀ c ss, G.parseBlockS c = some ss → q (stmtsToksS ss) = q c) {b b' : List (SStmt σ)} (hb : StatementsParseS P G b)
    (hv : visitBlockS W.E P G subs b = .ok b') {sp : σ} (hs : sp ∈ spans (stmtsToksS b')) :
    Reach P (spans inp ++ spans (stmtsToksS (stmtsNoWhereS b))) sp := by
  rcases C85_block_nowhere_else hq hqs hk hG hl hb hv hs with h1 | ⟨n, v, hn, h1⟩
  · exact .mem (List.mem_append_right _ h1)
  · exact (((C85_whole h hN hx hbr ho).2 hm).2 _ (mem_of_lookup hn) sp h1).mono fun sp h => List.mem_append_left _ h

/-- **C85**: an error of a block comes from the first piece of it that fails, and points to an alias in this piece; it is about this alias. -/
theorem C85_block_error (hG : SameTrees G) {b : List (SStmt σ)} (hb : StatementsParseS P G b) {e : Err} {sp : σ}
    (h : visitBlockS E P G subs b = .err e sp) :
    ∃ pre p post, stmtsPartsS P b = pre ++ p :: post ∧
      (∀ q ∈ pre, ∃ out, substituteIdentsS E (validPart G.toGrammar q.1) subs q.2 = .ok out) ∧
      substituteIdentsS E (validPart G.toGrammar p.1) subs p.2 = .err e sp ∧
      ∃ n v, .ident n sp ∈ occAllS (tokensOf subs) p.2 ∧ List.lookup n subs = some v ∧ e = .substitution n (E.render (STok.eraseL v.toTokens)) := by
  have hs := visitBlock_specS (E := E) (P := P) (subs := subs) hG.blocks id b hb.parts
  rw [tokensOf_eq]
  cases hr : runPartsS E G subs (stmtsPartsS P b) with
  | ok a => rw [hr] at hs; obtain ⟨b', h1, -⟩ := hs; rw [h] at h1; cases h1
  | panic => rw [hr] at hs; rw [h] at hs; cases hs
  | err e' sp' =>
    rw [hr, h] at hs
    cases hs
    clear h hb
    generalize stmtsPartsS P b = ps at hr
    induction ps with
    | nil => cases hr
    | cons p ps ih =>
      simp only [runPartsS] at hr
      cases h1 : substituteIdentsS E (validPart G.toGrammar p.1) subs p.2 with
      | err e' sp' =>
        rw [h1] at hr
        cases hr
        exact ⟨[], p, ps, rfl, by simp, h1, by simpa only [getS_eq_lookup] using substituteIdentsS_err h1⟩
      | panic => rw [h1] at hr; cases hr
      | ok out =>
        rw [h1] at hr
        obtain ⟨pre, q, post, rfl, h3, h4⟩ := ih hr
        refine ⟨p :: pre, q, post, rfl, ?_, h4⟩
        intro r hr
        rcases List.mem_cons.1 hr with rfl | hr
        · exact ⟨out, h1⟩
        · exact h3 r hr

/-- **C85**: and the first piece that fails decides, with the span of its error. -/
theorem C85_block_first (hG : SameTrees G) {b : List (SStmt σ)} (hb : StatementsParseS P G b) {pre post : PartsS σ} {p : PartKind × SToks σ}
    {e : Err} {sp : σ} (hp : stmtsPartsS P b = pre ++ p :: post)
    (hpre : ∀ q ∈ pre, ∃ out, substituteIdentsS E (validPart G.toGrammar q.1) subs q.2 = .ok out)
    (he : substituteIdentsS E (validPart G.toGrammar p.1) subs p.2 = .err e sp) : visitBlockS E P G subs b = .err e sp := by
  have hs := visitBlock_specS (E := E) (P := P) (subs := subs) hG.blocks id b hb.parts
  rw [hp, runParts_appendS, runPartsS_ok hpre] at hs
  simpa [runPartsS, he] using hs

/-- `Grammar.demo` with spans. -/
def Grammar.demoS : GrammarS Nat := { Grammar.demo with parseBlockS := fun ts => some [.other ts] }

/-- The value of `a` points to 1, that of `b` to 2, 3 and 4. -/
def demoSubsS : SubsS Nat :=
  [(c! "a", .ident c! "Foo" 1), (c! "b", .tokens [.ident c! "a" 2, .punct '+' false 3, .ident c! "b" 4])]

/-- `#[doc = "% a %"] struct a<T> { x: a } pub fn f() { a }`, spans from 10 on. -/
def demoBlockS : List (SStmt Nat) :=
  [.item (.struct (fun i => 20 + i) ⟨[⟨false, 10, 10, 11, [.ident c! "doc" 12, .punct '=' false 13, .lit (.str c! "\"% a %\"" c! "% a %") 14]⟩],
      [.punct '<' false 15, .ident c! "T" 16, .punct '>' false 17], []⟩ [] [.ident c! "a" 18]
      (.named ⟨[⟨[], [], some [.ident c! "x" 30], 31, [.ident c! "a" 32]⟩], false, fun i => 40 + i⟩ 33)),
   .item (.fn (fun i => 50 + i) [] [.ident c! "pub" 60] [.ident c! "fn" 61, .ident c! "f" 62, .group .paren [] 63] [.other [.ident c! "a" 64]])]

example : SameTrees Grammar.demoS ∧ (∀ c ss, Grammar.demoS.parseBlockS c = some ss → stmtsToksS ss = c) ∧
    (∀ s ∈ itemKeywords, List.lookup s demoSubsS = none) ∧ StatementsParseS demoSpans Grammar.demoS demoBlockS ∧
    SStmt.eraseL demoBlockS = demoBlock [] := by
  refine ⟨fun ts => by simp [Grammar.demoS, Grammar.demo, SStmt.eraseL, SStmt.erase], ?_, by decide +kernel, ?_, ?_⟩
  · intro c ss h; cases h; simp [stmtsToksS, SStmt.toks]
  · intro ts h
    simp [demoBlockS, stmtsPartsS, stmtPartsS, itemPartsS, headPartsS, attrPartsS, fieldsPartsS, fieldPartsS, optPartS] at h
    subst h; rfl
  · rfl

/-- The name of the struct points to the value of `a`, the keyword and the braces to themselves. -/
example : (match visitBlockS Ext.demo demoSpans Grammar.demoS demoSubsS demoBlockS with
    | .ok b => stmtsToksS b
    | _ => []) =
    [.punct '#' false 10, .group .bracket [.ident c! "doc" 12, .punct '=' false 13, .lit (.str c! "\"Foo\"" c! "Foo") 14] 11,
      .ident c! "struct" 20, .ident c! "Foo" 1, .punct '<' false 15, .ident c! "T" 16, .punct '>' false 17,
      .group .brace [.ident c! "x" 30, .punct ':' false 31, .ident c! "Foo" 1] 33,
      .ident c! "pub" 60, .ident c! "fn" 61, .ident c! "f" 62, .group .paren [] 63, .group .brace [.ident c! "Foo" 1] 50] := by rfl

/-- The name `b` of the second field becomes `a + b`, which is not an identifier: the error points to the name. -/
example : visitBlockS Ext.demo demoSpans { Grammar.demoS with toGrammar := Grammar.demoIdent } demoSubsS
    [.item (.struct (fun i => 20 + i) ⟨[], [], []⟩ [] [.ident c! "a" 18]
      (.named ⟨[⟨[], [], some [.ident c! "a" 30], 31, [.ident c! "a" 32]⟩, ⟨[], [], some [.ident c! "b" 34], 35, [.ident c! "a" 36]⟩], false,
        fun i => 40 + i⟩ 33))] =
    .err (.substitution c! "b" c! "a + b") 34 := by rfl

end Verif.Props
