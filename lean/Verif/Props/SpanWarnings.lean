import Verif.Proofs.SpanDeprecation
import Verif.Props.Deprecation
import Verif.Props.SpanBlock
/-!
# Property C85, continued: printing and deprecation warnings
-/

namespace Verif.Props
open Verif Spec

variable {σ : Type} {P : SpanOps σ} {repr : Str → Str} {sites : SitesS σ} {sites' : Sites}

/-- **C85**: the code printed with spans is the code: without the spans it is what the block without spans prints. -/
theorem C85_same_print (b : List (SStmt σ)) : STok.eraseL (stmtsToksS b) = stmtsToks (SStmt.eraseL b) := stmts_toks_erase b

/-- **C85**: and so it is after the warnings have been attached. -/
theorem C85_same_warnings (hs : SameSites sites sites') (s : Service) (b : List (SStmt σ)) :
    STok.eraseL (cstsPrintS (s.emitS repr P (stmtsCstS sites b))) =
      cstsPrint (s.emit repr (stmtsCst sites' (SStmt.eraseL b))) := by
  rw [csts_print_erase, ← stmts_cst_erase hs]
  congr 1
  unfold Service.emitS Service.emit
  split
  · rfl
  · rw [visits_erase repr P.callSite]

/-- **C85**: warnings leave everything else where it points to. They are inserted in the block, in their order, as many as there are nodes not deprecated yet,
and all of their tokens point to the invocation. -/
theorem C85_warnings (hl : ∀ k ts, cstsPrintS (sites k ts) = ts) (hs : SameSites sites sites') (s : Service) (b : List (SStmt σ)) :
    InsertsS ((s.warnings.take (freshCount (nodeAttrs (stmtsCst sites' (SStmt.eraseL b))))).map
        fun w => Tok.atL P.callSite (warningToks repr s.pre w))
      (stmtsToksS b) (cstsPrintS (s.emitS repr P (stmtsCstS sites b))) := by
  rw [← stmts_cstS hl b, ← stmts_cst_erase hs]
  unfold Service.emitS
  split
  · next h =>
    rw [List.isEmpty_iff.1 h]
    simpa using InsertsS.refl _
  · exact (visits_specS repr P.callSite s.pre (stmtsCstS sites b) s.warnings).2

/-- **C85**: all that the output of an invocation can point to, warnings included: the block, the invocation, what stands in it, and what covers such
places. -/
theorem C85_output {W : World} {src : Source σ} {a : PAst} {inp : SToks σ} (h : StandsInput W.Y P src inp a) (hN : (astIds a).Nodup)
    {brs : List (BlockRewrite Alias Expr (List Stmt))} (hx : expand a.forget = .ok brs) {br : BlockRewrite Alias Expr (List Stmt)} (hbr : br ∈ brs)
    {seed : Nat} {order : List (Alias × SVal σ) → List (Alias × SVal σ)} (ho : ∀ l, (order l).Perm l) {subs : SubsS σ}
    (hm : makeSubstitutionsS W.E P src (Env.builtin seed) order br.spec.items = .ok subs) {G : GrammarS σ}
    {q : SToks σ → SToks σ} (hq : CoarseS q) (hqs : ∀ ts, spans (q ts) = spans ts)
    (hk : ∀ s ∈ itemKeywords, List.lookup s subs = none) (hG : SameTrees G)
    (hp : ∀ c ss, G.parseBlockS c = some ss → q (stmtsToksS ss) = q c) {b b' : List (SStmt σ)} (hb : StatementsParseS P G b)
    (hv : visitBlockS W.E P G subs b = .ok b')
    (hl : ∀ k ts, cstsPrintS (sites k ts) = ts) (hs : SameSites sites sites') (s : Service) {sp : σ}
    (hsp : sp ∈ spans (cstsPrintS (s.emitS repr P (stmtsCstS sites b')))) :
    Reach P (spans inp ++ spans (stmtsToksS (stmtsNoWhereS b))) sp := by
  rcases (C85_warnings hl hs s b').spans hsp with h1 | ⟨x, hx, h1⟩
  · exact C85_whole_block h hN hx hbr ho hm hq hqs hk hG hp hb hv h1
  · obtain ⟨w, -, rfl⟩ := List.mem_map.1 hx
    rw [spans_at _ _ h1]
    exact .callSite

/-- Opaque parts without items inside. -/
def noSitesS : SitesS Nat := fun _ ts => [.toks ts]

example : (∀ k ts, cstsPrintS (noSitesS k ts) = ts) ∧ SameSites noSitesS noSites := by
  refine ⟨fun k ts => by simp [noSitesS, cstsPrintS, SCst.print], fun k ts => by simp [noSitesS, noSites, SCst.eraseL, SCst.erase]⟩

/-- The struct of `demoBlockS` gets the warning, after its own attribute; everything else stays where it was. -/
example : cstsPrintS ((⟨[semicolonWarning], 1, c! "compose!: "⟩ : Service).emitS Ext.demo.strRepr demoSpans (stmtsCstS noSitesS demoBlockS)) =
    [.punct '#' false 10, .group .bracket [.ident c! "doc" 12, .punct '=' false 13, .lit (.str c! "\"% a %\"" c! "% a %") 14] 11] ++
      Tok.atL demoSpans.callSite (warningToks Ext.demo.strRepr c! "compose!: " semicolonWarning) ++
    [.ident c! "struct" 20, .ident c! "a" 18, .punct '<' false 15, .ident c! "T" 16, .punct '>' false 17,
      .group .brace [.ident c! "x" 30, .punct ':' false 31, .ident c! "a" 32] 33,
      .ident c! "pub" 60, .ident c! "fn" 61, .ident c! "f" 62, .group .paren [] 63, .group .brace [.ident c! "a" 64] 50] := by rfl

end Verif.Props
