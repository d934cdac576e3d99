import Verif.Proofs.AnySpans
import Verif.Props.SpanBlock
/-!
# Property C85, continued: the model with spans leaves no spans out

Blocks with spans can have any spans: each token of a block has one of its own.
-/

namespace Verif.Props
open Verif Spec

variable {σ : Type} [Inhabited σ]

/-- **C85**: whatever spans the tokens of a block have, there is a block with these spans that prints these very tokens. -/
theorem C85_any_spans (b : List Stmt) {ts : SToks σ} (h : STok.eraseL ts = stmtsToks b) :
    ∃ bS : List (SStmt σ), SStmt.eraseL bS = b ∧ stmtsToksS bS = ts :=
  stmts_spans default b ts h

/-- **C85**: and so a parser of blocks that loses no tokens is, with spans, one that loses no tokens and no spans either: the assumptions of `C85_block`
and the theorems after it are those of `C17`. -/
theorem C85_any_parser {G : Grammar} (hG : ∀ c ss, G.parseBlock c = some ss → stmtsToks ss = c) :
    ∃ GS : GrammarS σ, GS.toGrammar = G ∧ SameTrees GS ∧ ∀ c ss, GS.parseBlockS c = some ss → stmtsToksS ss = c := by
  have ex : ∀ c : SToks σ, ∃ r : Option (List (SStmt σ)), r.map SStmt.eraseL = G.parseBlock (STok.eraseL c) ∧ ∀ ss, r = some ss → stmtsToksS ss = c := by
    intro c
    cases h : G.parseBlock (STok.eraseL c) with
    | none => exact ⟨none, rfl, by simp⟩
    | some b =>
      obtain ⟨bS, h1, h2⟩ := C85_any_spans b (hG _ _ h).symm
      exact ⟨some bS, by simp [h1], by rintro _ ⟨rfl⟩; exact h2⟩
  refine ⟨{ G with parseBlockS := fun c => (ex c).choose }, rfl, fun c => (ex c).choose_spec.1, fun c => (ex c).choose_spec.2⟩

/-- The tokens of a block, numbered one after the other. -/
example : ∃ ts : SToks Nat, STok.eraseL ts = stmtsToks
      [.item (.mod [] [] false [.ident c! "m"] none),
        .item (.enum ⟨[⟨false, [.ident c! "x"]⟩], [], []⟩ [] [.ident c! "E"] ⟨[⟨[], [.ident c! "A"], .unit, none⟩, ⟨[], [.ident c! "B"], .unit, none⟩], true⟩)] ∧
    spans ts = [1, 2, 3, 4, 5, 6, 7, 8, 9, 10, 11, 12, 13] :=
  ⟨[.ident c! "mod" 1, .ident c! "m" 2, .punct ';' false 3, .punct '#' false 4, .group .bracket [.ident c! "x" 6] 5, .ident c! "enum" 7, .ident c! "E" 8,
    .group .brace [.ident c! "A" 10, .punct ',' false 11, .ident c! "B" 12, .punct ',' false 13] 9], by rfl, by rfl⟩

example : ∀ c ss, Grammar.demo.parseBlock c = some ss → stmtsToks ss = c := by
  intro c ss h
  simp only [Grammar.demo, Option.some.injEq] at h
  subst h
  simp [stmtsToks, Stmt.toks]

end Verif.Props
