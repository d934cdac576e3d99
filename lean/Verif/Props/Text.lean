import Verif.Proofs.Text
import Verif.Props.Rename
/-!
# Property C66: the text of the code

The tokens in the output are those of the code: keywords, separators, attributes and all the rest come out as they went in.
-/

namespace Verif.Props
open Verif Spec

/-- **C66**: a block prints as its text, with all keywords and separators. -/
theorem C66_printed {ts : Toks} {ss : List Stmt} (h : BlockText ts ss) : stmtsToks ss = ts := block_printed h

/-- **C66**: so does the block as the warnings are attached to it. -/
theorem C66_printed_by_warnings {sites : Sites} (hl : ∀ k ts, cstsPrint (sites k ts) = ts) {ts : Toks} {ss : List Stmt}
    (h : BlockText ts ss) : cstsPrint (stmtsCst sites ss) = ts := by
  rw [stmts_cst hl, block_printed h]

/-- Assumptions on `syn`: what is parsed as a block is, up to spacing, its text; each of its statements is a block when put in braces; the
parts in which items can be found print as they are. -/
structure TextSyntax (W : World) : Prop where
  text : ∀ c ss, W.Y.parseBlock c = some ss → ∃ c', unspaced c' = unspaced c ∧ BlockText c' ss
  statements : ∀ c ss, W.Y.parseBlock c = some ss → StatementsParse W.Y.toGrammar ss
  sites : ∀ k ts, cstsPrint (W.sites k ts) = ts

theorem TextSyntax.good {W : World} (h : TextSyntax W) : GoodSyntax unspaced W where
  coarse := unspaced_coarse
  lossless := by
    intro c ss hc
    obtain ⟨c', h1, h2⟩ := h.text c ss hc
    rw [block_printed h2, h1]
  statements := h.statements
  sites := h.sites

theorem isSep_not_group {c : Bool} {d : Delim} {us : Toks} (h : IsSep c (.group d us)) : False := by cases h

theorem last_two {pre pre' : Toks} {x x' t t' : Tok} (h : pre ++ [x, t] = pre' ++ [x', t']) : x = x' ∧ t = t' := by
  have h1 := congrArg List.reverse h
  simp only [List.reverse_append, List.reverse_cons, List.reverse_nil, List.nil_append, List.cons_append, List.cons.injEq] at h1
  exact ⟨h1.2.1, h1.1⟩

theorem last_one {pre pre' : Toks} {t t' : Tok} (h : pre ++ [t] = pre' ++ [t']) : t = t' := by
  have h1 := congrArg List.reverse h
  simp only [List.reverse_append, List.reverse_cons, List.reverse_nil, List.nil_append, List.cons_append, List.cons.injEq] at h1
  exact h1.1

theorem code_unique {inv : Invocation} {b b' : Toks} (h : Code inv b) (h' : Code inv b') : b = b' := by
  have two : ∀ {pre pre' : Toks} {x t t' : Tok}, pre ++ [x, t] = pre' ++ [t'] → t = t' := by
    intro pre pre' x t t' h
    exact last_one (pre := pre ++ [x]) (by simpa using h)
  cases h with
  | compose pre body h1 =>
    cases h' with
    | compose pre' body' h2 => cases last_one (h1.symm.trans h2); rfl
    | composeSep pre' body' c t ht h2 => cases two (h2.symm.trans h1); cases ht
  | composeSep pre body c t ht h1 =>
    cases h' with
    | compose pre' body' h2 => cases two (h1.symm.trans h2); cases ht
    | composeSep pre' body' c t ht h2 => cases (last_two (h1.symm.trans h2)).1; rfl
  | idents pre body h1 =>
    cases h' with
    | idents pre' body' h2 => cases last_one (h1.symm.trans h2); rfl
    | identsSep pre' body' c t ht h2 => cases two (h2.symm.trans h1); cases ht
  | identsSep pre body c t ht h1 =>
    cases h' with
    | idents pre' body' h2 => cases two (h1.symm.trans h2); cases ht
    | identsSep pre' body' c t ht h2 => cases (last_two (h1.symm.trans h2)).1; rfl
  | item attr body => cases h'; rfl

/-- **C66**: the output of an invocation which succeeds is, for each iteration in order, the text of its code in which every alias in force is
replaced by its value and the placeholders in string literals by the texts of the values, up to spacing. (No where-clauses on structs, enums,
unions, traits and impls: those are lost, `C17_false`. No semicolons, so that there are no warnings.) -/
theorem C66_text {W : World} (hW : TextSyntax W) {hist : List (Invocation × Luck)} {inv : Invocation} {l : Luck}
    (hs : Scheduled W hist inv l) {a : PAst} (ha : Reads W inv a) (hn : withSemicolons a.spec = false)
    (hw : stmtsNoWhere a.block = a.block) {body : Toks} (hc : Code inv body) {ts : Toks}
    (hk : ∀ its, InForce a its → ∀ defs ∈ its, ∀ s ∈ itemKeywords, s ∉ defs.map (·.1)) (h : output W hist inv l = .tokens ts) :
    ∃ (its : List (List (Str × Expr))) (cs : List Toks), InForce a its ∧ ts = cs.flatten ∧ cs.length = its.length ∧
      ∀ (i : Nat) (defs : List (Str × Expr)), its[i]? = some defs →
        ∃ vs, outcome W.E (Env.builtin (l.ids 0)) defs = .ok vs ∧ ∀ fmt, FormatsAll W.E vs fmt →
          ∃ c, cs[i]? = some c ∧ unspaced c = unspaced (substAll (valueToks vs) (litWith W.E fmt) body) := by
  obtain ⟨its, cs, h1, h2, h3, h4⟩ := C59_meaning hW.good hs ha hn hk h
  refine ⟨its, cs, h1, h2, h3, fun i defs hd => ?_⟩
  obtain ⟨vs, h5, h6⟩ := h4 i defs hd
  refine ⟨vs, h5, fun fmt hf => ?_⟩
  obtain ⟨c, h7, h8⟩ := h6 fmt hf
  refine ⟨c, h7, ?_⟩
  obtain ⟨body', hc', hb⟩ := C59_code ha
  obtain rfl := code_unique hc hc'
  obtain ⟨c', h9, h10⟩ := hW.text _ _ hb
  rw [h8, hw, block_printed h10, ← unspaced_substAll, h9, unspaced_substAll]

/-- **C66** with semicolons: in addition, each copy gets at most one attribute with the warning. -/
theorem C66_warned {W : World} (hW : TextSyntax W) {hist : List (Invocation × Luck)} {inv : Invocation} {l : Luck}
    (hs : Scheduled W hist inv l) {a : PAst} (ha : Reads W inv a) (hw : stmtsNoWhere a.block = a.block) {body : Toks} (hc : Code inv body) {ts : Toks}
    (hk : ∀ its, InForce a its → ∀ defs ∈ its, ∀ s ∈ itemKeywords, s ∉ defs.map (·.1)) (h : output W hist inv l = .tokens ts) :
    ∃ (its : List (List (Str × Expr))) (cs : List Toks), InForce a its ∧ ts = cs.flatten ∧ cs.length = its.length ∧
      ∀ (i : Nat) (defs : List (Str × Expr)), its[i]? = some defs →
        ∃ vs, outcome W.E (Env.builtin (l.ids 0)) defs = .ok vs ∧ ∀ fmt, FormatsAll W.E vs fmt →
          ∃ c ws b, cs[i]? = some c ∧ unspaced b = unspaced (substAll (valueToks vs) (litWith W.E fmt) body) ∧ Inserts ws b c ∧
            (ws = [] ∨ ws = [warningToks W.E.strRepr (macroPrefix (firstOn hist inv))
              ⟨S "Using semicolons as separators is deprecated, use commas instead", S "0.0.5"⟩]) := by
  obtain ⟨its, cs, h1, h2, h3, h4⟩ := C59_warned hW.good hs ha hk h
  refine ⟨its, cs, h1, h2, h3, fun i defs hd => ?_⟩
  obtain ⟨vs, h5, h6⟩ := h4 i defs hd
  refine ⟨vs, h5, fun fmt hf => ?_⟩
  obtain ⟨c, ws, b, h7, h8, h11, h12⟩ := h6 fmt hf
  refine ⟨c, ws, b, h7, ?_, h11, h12⟩
  obtain ⟨body', hc', hb⟩ := C59_code ha
  obtain rfl := code_unique hc hc'
  obtain ⟨c', h9, h10⟩ := hW.text _ _ hb
  rw [h8, hw, block_printed h10, ← unspaced_substAll, h9, unspaced_substAll]

mutual
theorem sameButSpellingTok_unspaced (t u : Tok) (h : sameButSpellingTok t u) : sameButSpellingTok (unspacedTok t) (unspacedTok u) := by
  match t, u with
  | .group d ts, .group e us =>
    simp only [sameButSpellingTok, unspacedTok] at h ⊢
    exact ⟨h.1, sameButSpelling_unspaced ts us h.2⟩
  | .lit l, .lit m => simpa [unspacedTok] using h
  | .lit l, .group d us => cases l <;> simp [sameButSpellingTok] at h
  | .lit l, .ident s => cases l <;> simp [sameButSpellingTok] at h
  | .lit l, .punct c j => cases l <;> simp [sameButSpellingTok] at h
  | .ident s, u => cases u <;> simp_all [sameButSpellingTok, unspacedTok]
  | .punct c j, u => cases u <;> simp_all [sameButSpellingTok, unspacedTok]
  | .group d ts, .lit l => simp [sameButSpellingTok] at h
  | .group d ts, .ident l => simp [sameButSpellingTok] at h
  | .group d ts, .punct l j => simp [sameButSpellingTok] at h
theorem sameButSpelling_unspaced (ts us : Toks) (h : sameButSpelling ts us) : sameButSpelling (unspaced ts) (unspaced us) := by
  match ts, us with
  | [], [] => simp [unspaced, sameButSpelling]
  | t :: ts, u :: us =>
    simp only [sameButSpelling, unspaced] at h ⊢
    exact ⟨sameButSpellingTok_unspaced t u h.1, sameButSpelling_unspaced ts us h.2⟩
  | [], _ :: _ => simp [sameButSpelling] at h
  | _ :: _, [] => simp [sameButSpelling] at h
end

/-- **C66**: code that mentions no alias and has no `%` in its string literals comes out as it went in, once for each iteration, up to
spacing and the spelling of string literals. -/
theorem C66_unchanged {W : World} (hW : TextSyntax W) {hist : List (Invocation × Luck)} {inv : Invocation} {l : Luck}
    (hs : Scheduled W hist inv l) {a : PAst} (ha : Reads W inv a) (hn : withSemicolons a.spec = false)
    (hw : stmtsNoWhere a.block = a.block) {body : Toks} (hc : Code inv body) {ts : Toks}
    (hk : ∀ its, InForce a its → ∀ defs ∈ its, ∀ s ∈ itemKeywords, s ∉ defs.map (·.1))
    (hm : ∀ its, InForce a its → ∀ defs ∈ its, ∀ s ∈ defs.map (·.1), ¬ mentions s body) (hp : strLits (fun _ v => '%' ∉ v) body)
    (h : output W hist inv l = .tokens ts) :
    ∃ (its : List (List (Str × Expr))) (cs : List Toks), InForce a its ∧ ts = cs.flatten ∧ cs.length = its.length ∧
      ∀ c ∈ cs, sameButSpelling (unspaced body) (unspaced c) := by
  obtain ⟨its, cs, h1, h2, h3, h4⟩ := C66_text hW hs ha hn hw hc hk h
  refine ⟨its, cs, h1, h2, h3, fun c hcs => ?_⟩
  obtain ⟨i, hi, rfl⟩ := List.mem_iff_getElem.1 hcs
  have hi' : i < its.length := h3 ▸ hi
  obtain ⟨vs, h5, h6⟩ := h4 i _ (List.getElem?_eq_getElem hi')
  obtain ⟨fmt, hf⟩ := formatting_exists W.E vs
  obtain ⟨c, h7, h8⟩ := h6 fmt hf
  rw [List.getElem?_eq_getElem hi] at h7
  cases h7
  rw [h8]
  apply sameButSpelling_unspaced
  apply substAll_respell
  · intro n hnn
    refine hm its h1 _ (List.getElem_mem hi') n ?_
    rw [← (denote_names (outcome_ok.1 h5).2).1]
    simp only [valueToks, codeOf_eq, Option.isSome_map] at hnn
    exact Classical.byContradiction fun hno => by rw [lookup_not_mem hno] at hnn; cases hnn
  · refine strLits_imp (fun r v hv => ⟨W.E.strRepr v, ?_⟩) body hp
    simp only [litWith, ← formats_sound (hf v), formatString_plain v hv]

/-- **C66**: and the expansion does succeed, if the definitions have values and the pieces of the code are well-formed (with the string
literals spelled as they are printed). -/
theorem C66_succeeds {W : World} {hist : List (Invocation × Luck)} {inv : Invocation} {l : Luck}
    (hs : Scheduled W hist inv l) {a : PAst} (ha : Reads W inv a) (hb : StatementsParse W.Y.toGrammar a.block)
    {its : List (List (Str × Expr))} (hi : InForce a its) (hv : ∀ defs ∈ its, ∃ vs, outcome W.E (Env.builtin (l.ids 0)) defs = .ok vs)
    (hp : ∀ p ∈ stmtsParts a.block, validPart W.Y.toGrammar p.1 p.2 = true ∧ (∀ defs ∈ its, ∀ s ∈ defs.map (·.1), ¬ mentions s p.2) ∧
      strLits (fun r v => '%' ∉ v ∧ r = W.E.strRepr v) p.2) : ∃ ts, output W hist inv l = .tokens ts := by
  rw [output_reads hs ha]
  unfold expansion
  rw [iterations_of_inForce hi]
  simp only
  suffices ∃ cs : List Toks, its.map (copyOf W (Env.builtin (l.ids 0))
      (serviceFor (macroPrefix (firstOn hist inv)) (withSemicolons a.spec)) a.block) = cs.map .ok by
    obtain ⟨cs, h⟩ := this
    refine ⟨cs.flatten, ?_⟩
    have hb : (tree a).block = a.block := rfl
    rw [hb, h, joinAll_map_ok]
    rfl
  clear hi
  induction its with
  | nil => exact ⟨[], rfl⟩
  | cons d its ih =>
    obtain ⟨cs, hcs⟩ := ih (fun d hd => hv d (by simp [hd])) (fun p h => ⟨(hp p h).1, fun d hd => (hp p h).2.1 d (by simp [hd]), (hp p h).2.2⟩)
    obtain ⟨vs, h1⟩ := hv d (by simp)
    have h2 := (C17_succeeds (E := W.E) (subs := vs) hb).2 (fun p h => by
      obtain ⟨h3, h4, h5⟩ := hp p h
      refine ⟨_, C12_untouched_plain_partial h3 (fun n hn => h4 d (by simp) n ?_) h5⟩
      rw [← (denote_names (outcome_ok.1 h1).2).1]
      exact Classical.byContradiction fun hno => by rw [lookup_not_mem hno] at hn; cases hn)
    obtain ⟨b', h2⟩ := h2
    exact ⟨_ :: cs, by rw [List.map_cons, List.map_cons, hcs, copyOf_ok.2 ⟨vs, b', h1, h2, rfl⟩]⟩

/-! ## Examples -/

theorem demo_text : TextSyntax demoWorld where
  text := by
    intro c ss h
    have h : some (demoStmts c) = some ss := h
    cases h
    refine ⟨c, rfl, ?_⟩
    have other : BlockText c [.other c] := by
      have := BlockText.cons (StmtText.other c) .nil
      simpa using this
    unfold demoStmts
    split
    · split
      · rename_i h
        subst h
        exact .cons (.item (.struct _ .nil .inherited .none (.named .none .nil))) .nil
      · exact other
    · exact other
  statements := demo_good.statements
  sites := demo_good.sites

def hash' : Tok := .punct '#' false
def bracket (ts : Toks) : Tok := .group .bracket ts

/-- Every kind of item, with every part an item can have:
```
#[a] pub struct A<T>(#[b] pub(crate) T, T,) where T: B;
enum C { #[c] D { x: T }, E(T) = 1, }
union U { x: T, y: T }
#[d] unsafe auto trait V: A + B where T: B { #![e] fn f(); #[g] fn h() { i; } const J: K; }
default unsafe impl<T> !V for A { pub default fn f() { } type B = C; }
mod m; pub mod n { #![o] union P {} use q; }
unsafe extern "C" { fn f(); }
fn g() { #![r] s; }
```
-/
def demoItems : Toks :=
  [hash', bracket [id' "a"], id' "pub", id' "struct", id' "A", .punct '<' false, id' "T", .punct '>' false,
    paren [hash', bracket [id' "b"], id' "pub", paren [id' "crate"], id' "T", comma, id' "T", comma],
    id' "where", id' "T", .punct ':' false, id' "B", .punct ';' false] ++
  [id' "enum", id' "C", brace [hash', bracket [id' "c"], id' "D", brace [id' "x", .punct ':' false, id' "T"], comma,
    id' "E", paren [id' "T"], .punct '=' false, .lit (.int (S "1") 1), comma]] ++
  [id' "union", id' "U", brace [id' "x", .punct ':' false, id' "T", comma, id' "y", .punct ':' false, id' "T"]] ++
  [hash', bracket [id' "d"], id' "unsafe", id' "auto", id' "trait", id' "V", .punct ':' false, id' "A", .punct '+' false, id' "B",
    id' "where", id' "T", .punct ':' false, id' "B",
    brace [hash', .punct '!' false, bracket [id' "e"], id' "fn", id' "f", paren [], .punct ';' false,
      hash', bracket [id' "g"], id' "fn", id' "h", paren [], brace [id' "i", .punct ';' false],
      id' "const", id' "J", .punct ':' false, id' "K", .punct ';' false]] ++
  [id' "default", id' "unsafe", id' "impl", .punct '<' false, id' "T", .punct '>' false, .punct '!' false, id' "V", id' "for", id' "A",
    brace [id' "pub", id' "default", id' "fn", id' "f", paren [], brace [],
      id' "type", id' "B", .punct '=' false, id' "C", .punct ';' false]] ++
  [id' "mod", id' "m", .punct ';' false] ++
  [id' "pub", id' "mod", id' "n", brace [hash', .punct '!' false, bracket [id' "o"], id' "union", id' "P", brace [],
    id' "use", id' "q", .punct ';' false]] ++
  [id' "unsafe", id' "extern", .lit (.str (S "\"C\"") (S "C")), brace [id' "fn", id' "f", paren [], .punct ';' false]] ++
  [id' "fn", id' "g", paren [], brace [hash', .punct '!' false, bracket [id' "r"], id' "s", .punct ';' false]]

theorem demoItems_text : ∃ ss, BlockText demoItems ss ∧ ss.length = 9 := by
  have h : BlockText _ _ :=
      .cons (.item (.struct (S "A") (.cons [id' "a"] .nil) .pub (.some [id' "T"] false false)
        (.tuple (.some [id' "T", .punct ':' false, id' "B"])
          (.cons (.mk [id' "T"] (.cons [id' "b"] .nil) (.restricted [id' "crate"])) (.trailing (.mk [id' "T"] .nil .inherited)))))) <|
      .cons (.item (.enum (S "C") .nil .inherited .none .none
        (.cons (.mk (S "D") (.cons [id' "c"] .nil) (.named (.last (.mk (S "x") [id' "T"] .nil .inherited))) .none)
          (.trailing (.mk (S "E") .nil (.tuple (.last (.mk [id' "T"] .nil .inherited))) (.some [.lit (.int (S "1") 1)])))))) <|
      .cons (.item (.union (S "U") .nil .inherited .none .none
        (.cons (.mk (S "x") [id' "T"] .nil .inherited) (.last (.mk (S "y") [id' "T"] .nil .inherited))))) <|
      .cons (.item (.trait (S "V") (.cons [id' "d"] .nil) .inherited .present .present .none
        (.some (.cons (.mk [id' "A"]) (.last (.mk [id' "B"])))) (.some [id' "T", .punct ':' false, id' "B"]) (.cons [id' "e"] .nil)
        (.cons (.required .nil (.mk [] (S "f") [paren []])) (.cons (.provided (.cons [id' "g"] .nil) (.mk [] (S "h") [paren []]) .nil
          (.cons (.other [id' "i", .punct ';' false]) .nil))
          (.cons (.other [id' "const", id' "J", .punct ':' false, id' "K", .punct ';' false]) .nil))))) <|
      .cons (.item (.impl [id' "A"] .nil .present .present (.some [id' "T"] false false) (.negative [id' "V"]) .none .nil
        (.cons (.fn .nil .pub .present (.mk [] (S "f") [paren []]) .nil .nil)
          (.cons (.other [id' "type", id' "B", .punct '=' false, id' "C", .punct ';' false]) .nil)))) <|
      .cons (.item (.modFile (S "m") .nil .inherited .absent)) <|
      .cons (.item (.mod (S "n") .nil .pub .absent (.cons [id' "o"] .nil)
        (.cons (.union (S "P") .nil .inherited .none .none .nil) (.cons (.other [id' "use", id' "q", .punct ';' false]) .nil)))) <|
      .cons (.item (.foreignMod [[id' "fn", id' "f", paren [], .punct ';' false]] .nil .present (.some (S "\"C\"") (S "C")) .nil)) <|
      .cons (.item (.fn .nil .inherited (.mk [] (S "g") [paren []]) (.cons [id' "r"] .nil) (.cons (.other [id' "s", .punct ';' false]) .nil))) .nil
  exact ⟨_, h, rfl⟩

/-- C66 for a loop whose code mentions no alias: `for y in [a, b] { struct q {} }` -/
def demoKept : Toks := [id' "for", id' "y", id' "in", .group .bracket [id' "a", comma, id' "b"], brace [id' "struct", id' "q", brace []]]

example : Code (.compose demoKept) [id' "struct", id' "q", brace []] ∧ withSemicolons (demoParse demoKept).spec = false ∧
    stmtsNoWhere (demoParse demoKept).block = (demoParse demoKept).block ∧ Reads demoWorld (.compose demoKept) (demoParse demoKept) ∧
    ∃ its, InForce (demoParse demoKept) its ∧ its.length = 2 ∧ (∀ defs ∈ its, ∃ vs, outcome demoWorld.E (Env.builtin 0) defs = .ok vs) ∧
      (∀ defs ∈ its, ∀ s ∈ itemKeywords, s ∉ defs.map (·.1)) ∧
      ∀ defs ∈ its, ∀ s ∈ defs.map (·.1), ¬ mentions s [id' "struct", id' "q", brace []] := by
  refine ⟨.compose (demoKept.take 4) _ rfl, rfl, rfl, reads_of_parse (ids := fun k => k) (k := 0) rfl,
    [[(S "y", .value 0 (.ident (S "a")))], [(S "y", .value 0 (.ident (S "b")))]], inForce_of_iterations rfl, rfl, ?_, ?_, ?_⟩
  · intro defs hd
    simp only [List.mem_cons, List.not_mem_nil, or_false] at hd
    rcases hd with rfl | rfl <;> exact ⟨_, rfl⟩
  · intro defs hd
    simp only [List.mem_cons, List.not_mem_nil, or_false] at hd
    rcases hd with rfl | rfl <;> decide
  · intro defs hd
    simp only [List.mem_cons, List.not_mem_nil, or_false] at hd
    rcases hd with rfl | rfl <;> intro s hs <;> simp at hs <;> subst hs <;> simp [mentions, mentionsTok, id', brace] <;> decide

example : output demoWorld [] (.compose demoKept) (demoLuck 2 1) =
    .tokens ([id' "struct", id' "q", brace []] ++ [id' "struct", id' "q", brace []]) := by decide +kernel

/-- The hypotheses of `C66_warned` for an invocation with a semicolon, which succeeds. -/
example : Code (.compose demoSemi) [id' "struct", id' "y", brace []] ∧ withSemicolons (demoParse demoSemi).spec = true ∧
    stmtsNoWhere (demoParse demoSemi).block = (demoParse demoSemi).block ∧ Reads demoWorld (.compose demoSemi) (demoParse demoSemi) ∧
    Scheduled demoWorld [] (.compose demoSemi) (demoLuck 2 1) ∧ InForce (demoParse demoSemi) [definitions (demoParse demoSemi)] ∧
    (∀ s ∈ itemKeywords, s ∉ (definitions (demoParse demoSemi)).map (·.1)) ∧ ∃ ts, output demoWorld [] (.compose demoSemi) (demoLuck 2 1) = .tokens ts :=
  ⟨.compose (demoSemi.take 5) _ rfl, rfl, rfl, reads_of_parse (ids := fun k => k) (k := 0) rfl, demo_scheduled _ _ (by decide +kernel), .once rfl, by decide, _, rfl⟩

end Verif.Props
