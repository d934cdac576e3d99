import Verif.Lite.Ascii
import Verif.Lite.Blind
import Verif.Props.Context
import Verif.Props.Funcs
import Verif.Props.Message
import Verif.Props.Positions
import Verif.Props.Run
import Verif.Props.SameReading
import Verif.Props.Types
/-!
# The properties for a part of Rust

Theorems which assume something of external code, without these assumptions: for the grammar, the lexer, the printer and the case conversions of
`Verif/Lite`. So the assumptions can be met, all at once, by code that does what `syn` and `proc_macro2` do for a large part of Rust.
-/

namespace Verif.Lite
open Verif Spec Verif.Props

open SameButStrings (strip) in
/-- Strings are a part of what does not matter. -/
theorem same_of_strings : ∀ {a b : Toks}, SameButStrings a b → Same a b
  | [], [], _ => .nil
  | [], t :: ts, h => by cases t with
    | lit l => cases l <;> simp [SameButStrings, strip] at h
    | _ => simp [SameButStrings, strip] at h
  | t :: ts, [], h => by cases t with
    | lit l => cases l <;> simp [SameButStrings, strip] at h
    | _ => simp [SameButStrings, strip] at h
  | t :: ts, u :: us, h => by
    have ih := fun h' => @same_of_strings ts us h'
    cases t with
    | group d vs =>
      cases u with
      | group e ws =>
        have ih' := fun h' => @same_of_strings vs ws h'
        simp only [SameButStrings, strip, List.cons.injEq, Tok.group.injEq] at h ih ih'
        obtain ⟨⟨rfl, h1⟩, h2⟩ := h
        exact .group _ (ih' h1) (ih h2)
      | lit l => cases l <;> simp [SameButStrings, strip] at h
      | _ => simp [SameButStrings, strip] at h
    | lit l =>
      cases l with
      | str r s =>
        cases u with
        | lit m => cases m with
          | str r' s' =>
            simp only [SameButStrings, strip, List.cons.injEq, true_and] at h ih
            exact .str _ _ _ _ (ih h)
          | _ => simp [SameButStrings, strip] at h
        | _ => simp [SameButStrings, strip] at h
      | _ =>
        cases u with
        | lit m => cases m <;> first
          | (simp [SameButStrings, strip] at h; done)
          | (simp only [SameButStrings, strip, List.cons.injEq] at h ih
             rw [h.1]; exact .same _ (ih h.2))
        | _ => simp [SameButStrings, strip] at h
    | _ =>
      cases u with
      | lit m => cases m <;> simp [SameButStrings, strip] at h
      | group => simp [SameButStrings, strip] at h
      | _ => first
        | (simp [SameButStrings, strip] at h; done)
        | (simp only [SameButStrings, strip, List.cons.injEq] at h ih
           rw [h.1]; exact .same _ (ih h.2))

theorem lite_stringBlind (k : PartKind) : StringBlind (validPart syn.toGrammar k) :=
  fun _ _ h => lite_blind.part k _ _ (same_of_strings h)

/-- What the theorems assume of external code. -/
theorem lite_fits : AsciiExt world.E ∧ PlainIdents world.E ∧ FindsSegments world.E ∧ PrintsLeaves world.E ∧ PlainNames world.E ∧
    DigitsContinue world.E.toCharClass ∧ world.sites.Lawful ∧
    (∀ k, StringBlind (validPart world.Y.toGrammar k)) ∧ BlindGrammar Special world.Y.toGrammar ∧
    (∀ p ∈ [world.Y.path, world.Y.type, world.Y.expr], StopsAtSep p ∧ StopsAtBlock p ∧ IgnoresComma p ∧ StopsBeforeComma p) := by
  refine ⟨lite_ascii, fun _ => plainIdents, fun _ _ => pathSegs_plain, ⟨fun _ => rfl, fun _ _ => rfl, fun _ _ => rfl⟩, Lite.plainNames, ascii_digitsContinue,
    fun _ _ => ?_, lite_stringBlind, lite_blind, ?_⟩
  · simp [world, cstsPrint, Cst.print]
  · obtain ⟨⟨a1, a2, a3⟩, ⟨b1, b2, b3⟩, ⟨c1, c2, c3⟩, d1, d2, d3⟩ := syn_separators
    intro p hp
    simp only [List.mem_cons, List.not_mem_nil, or_false] at hp
    rcases hp with rfl | rfl | rfl
    · exact ⟨a1, b1, c1, d1⟩
    · exact ⟨a2, b2, c2, d2⟩
    · exact ⟨a3, b3, c3, d3⟩

/-! ## Some of the properties -/

/-- **C18** here: the substitution does not crash in a block whose pieces are well formed. -/
theorem lite_no_panic {E : Ext} {subs : Subs} {b : List Stmt} (hb : ∀ p ∈ stmtsParts b, validPart syn.toGrammar p.1 p.2 = true) :
    visitBlock E syn.toGrammar subs b ≠ .panic := C18_no_panic_partial lite_stringBlind hb

/-- **C20** here: an accepted coercion of a value other than a keyword succeeds and changes nothing. -/
theorem lite_coercions (v : VKind) (to : Ty) (hk : NotKeyword v) (h : CoercesToV v.ty to) :
    ∃ w, tryCast ext v to = .ok w ∧ w.ty = to ∧ w.toTokens = v.toTokens := C20_coercions_succeed_partial (fun _ => plainIdents) v to hk h

/-- **C46** here: what `compose!` reads, `compose_item` reads as the same tree. -/
theorem lite_same_tree {known : Str → Bool} {ids : Nat → Nat} {x b : Toks} (hx : Solid x) (k k' : Nat) (sv : Service) (hb : 1 ≤ sv.borrowed) {a : PAst}
    (ha : (parseRawAst syn known ids (x ++ [.group .brace b]) k (some sv)).1 = .ok a) :
    ∃ a', (parseAttr syn known ids x k' (some sv)).1 = .ok a' ∧ syn.parseBlock b = some a.block ∧ astErase ⟨a'.id, a'.loops, a'.spec, a.block⟩ = astErase a :=
  C46_same_tree syn known ids syn_separators.1.1 syn_separators.1.2.1 syn_separators.1.2.2 hx k k' sv hb ha

/-- **C86** here: what is read before a comma is read in the same way alone. -/
theorem lite_alone {known : Str → Bool} {v : Toks} {j : Bool} {r : Toks} {e : Expr}
    (h : ReadsExpr known syn (v ++ .punct ',' j :: r) e (.punct ',' j :: r)) : ReadsExpr known syn v e [] :=
  C86_alone syn_separators.2.2.2.1 syn_separators.2.2.2.2.1 syn_separators.2.2.2.2.2 h

/-- **C82** here: with plain names and without the case functions there is no crash. -/
theorem lite_plain {hist : List (Invocation × Luck)} {inv : Invocation} {l : Luck} (hs : Scheduled world hist inv l) {a : PAst} (ha : Reads world inv a)
    (hm : ∀ e ∈ exprsIn (tree a), Modest e) (hb : PiecesValid syn.toGrammar a.block) {J : Char → Prop} (hJ : ∀ c, J c → PlainChar c)
    (hv : ∀ e ∈ exprsIn (tree a), ∀ k ∈ leaves e, ValueFine (PlainName CharClass.ascii) J k)
    (hc : ∀ e ∈ exprsIn (tree a), ∀ n ∈ calls e, n ≠ S "snake_case" ∧ n ≠ S "camel_case" ∧ n ≠ S "pascal_case" ∧ (n = S "to_int" → ¬ J '-')) :
    output world hist inv l ≠ .panicked := C82_plain lite_ascii lite_stringBlind hs ha hm hb hJ hv hc

/-- **C88** here: with names for aliases and values, none of them special, there is always code. -/
theorem lite_names {hist : List (Invocation × Luck)} {inv : Invocation} {l : Luck} (hs : Scheduled world hist inv l) {a : PAst} (ha : Reads world inv a)
    (hv : ∀ p ∈ stmtsParts a.block, validPart syn.toGrammar p.1 p.2 = true) {its : List (List (Str × Expr))} (hi : InForce a its)
    (hd : ∀ defs ∈ its, ∃ vs, outcome ext (Env.builtin (l.ids 0)) defs = .ok vs ∧ ∀ n v, (n, v) ∈ vs → ¬ Special n ∧ ∃ m, v = .ident m ∧ ¬ Special m) :
    ∃ ts, output world hist inv l = .tokens ts := C88_names lite_blind hs ha hv hi hd

/-- Keywords, contextual keywords and functions. -/
def Reserved (n : Str) : Prop := Special n ∨ isBuiltin n = true

theorem count_blind {p : Par} [hp : BlindP p] {a b : Toks} (h : Same a b) : count p a = count p b := by
  unfold count
  rw [same_length h]
  rcases hp.blind h with ⟨h1, h2⟩ | ⟨x, y, h1, h2, h'⟩ <;> rw [h1, h2]
  simp [same_length h']

theorem lite_blindSyn : BlindSyn Reserved world.Y where
  path _ _ h := count_blind (p := rust .path) (h.mono fun _ => .inl)
  type _ _ h := count_blind (p := rust .type) (h.mono fun _ => .inl)
  expr _ _ h := count_blind (p := rust .expr) (h.mono fun _ => .inl)
  block a b h := by
    have := lite_blind.block [.group .brace a] [.group .brace b] (.group .brace (h.mono fun _ => .inl) .nil)
    simp only [Grammar.validBlock] at this
    exact this

/-- **C92** here: other names and other strings make no difference to how the input is read. -/
theorem lite_same_reading {m : Leafmap} (hm : m.Keeps Reserved) {inv : Invocation} {a : PAst} (h : Reads world inv a) : ∃ b' c,
    Reads world (replacedIn m inv) ⟨a.id, a.loops.map m.loops, a.spec.map m.spec, b'⟩ ∧ CodeIn world inv a.block c ∧
      CodeIn world (replacedIn m inv) b' (m.toks c) :=
  C92_read hm (fun n hn => .inl (by simp [Special, hn])) (fun _ => .inr) lite_blindSyn h

end Verif.Lite
