import Verif.Proofs.Respelled
import Verif.Props.Twice
import Verif.Props.Again
/-!
# Property C107: the spelling of strings

A string can be written as `"a"`, `r"a"` or `"\x61"`. The generated code should not depend on which of these is used: all of them are the same string.
-/

namespace Verif.Props
open Verif Spec

/-! ## In the code -/

mutual
/-- How a string is spelled in the code is forgotten. -/
theorem respelled_tok {look : Str → Option Toks} {str : Str → Lit} : ∀ t u : Tok, sameButSpellingTok t u → substTok look str t = substTok look str u
  | .lit (.str _ _), .lit (.str _ _), h => by
    simp only [sameButSpellingTok] at h
    subst h
    rw [substTok, substTok]
  | .group d ts, .group d' us, h => by
    simp only [sameButSpellingTok] at h
    obtain ⟨rfl, h⟩ := h
    have ih := respelled_toks (look := look) (str := str) ts us h
    rw [substTok, substTok, ih]
  | .group d ts, .ident s, h => by simp [sameButSpellingTok] at h
  | .group d ts, .punct c j, h => by simp [sameButSpellingTok] at h
  | .group d ts, .lit l, h => by simp [sameButSpellingTok] at h
  | .ident s, u, h => by simp only [sameButSpellingTok] at h; rw [h]
  | .punct c j, u, h => by simp only [sameButSpellingTok] at h; rw [h]
  | .lit l, .ident s, h => by cases l <;> simp [sameButSpellingTok] at h
  | .lit l, .punct c j, h => by cases l <;> simp [sameButSpellingTok] at h
  | .lit l, .group d ts, h => by cases l <;> simp [sameButSpellingTok] at h
  | .lit l, .lit l', h => by
    by_cases hl : ∃ r v r' v', l = .str r v ∧ l' = .str r' v'
    · obtain ⟨r, v, r', v', rfl, rfl⟩ := hl
      simp only [sameButSpellingTok] at h
      subst h
      rw [substTok, substTok]
    · have : Tok.lit l = Tok.lit l' := by
        cases l <;> cases l' <;> simp_all [sameButSpellingTok]
      rw [this]
theorem respelled_toks {look : Str → Option Toks} {str : Str → Lit} : ∀ ts us : Toks, sameButSpelling ts us → substAll look str ts = substAll look str us
  | [], [], _ => rfl
  | [], _ :: _, h => by simp [sameButSpelling] at h
  | _ :: _, [], h => by simp [sameButSpelling] at h
  | t :: ts, u :: us, h => by
    simp only [sameButSpelling] at h
    have h1 := respelled_tok (look := look) (str := str) t u h.1
    have h2 := respelled_toks (look := look) (str := str) ts us h.2
    simp only [substAll, h1, h2]
end

theorem respelledDefs_append {ds ds' : List (Str × Expr)} (h : DefsBy RespelledValue ds ds') :
    ∀ items : List (Str × Expr), DefsBy RespelledValue (items ++ ds) (items ++ ds')
  | [] => h
  | (n, e) :: items => .cons n (.parts (.same e)) (respelledDefs_append h items)

/-- **C107**: strings in the code, and strings of which a definition makes something, may be spelled in any way. -/
theorem C107_partial {W : World} (hW : TextSyntax W) {hist hist' : List (Invocation × Luck)} {inv inv' : Invocation} {l l' : Luck} {a a' : PAst}
    (hs : Scheduled W hist inv l) (ha : Reads W inv a) (hs' : Scheduled W hist' inv' l') (ha' : Reads W inv' a')
    (hn : withSemicolons a.spec = false) (hn' : withSemicolons a'.spec = false)
    (hw : stmtsNoWhere a.block = a.block) (hw' : stmtsNoWhere a'.block = a'.block)
    (hk : ∀ its, InForce a its → ∀ defs ∈ its, ∀ s ∈ itemKeywords, s ∉ defs.map (·.1))
    (hseed : l.ids 0 = l'.ids 0 ∨ NoHash a)
    (hl : (tree a').loops = (tree a).loops) (hd : DefsBy RespelledValue (definitions a) (definitions a'))
    {body body' : Toks} (hc : Code inv body) (hc' : Code inv' body') (hb : sameButSpelling body body')
    {ts ts' : Toks} (h : output W hist inv l = .tokens ts) (h' : output W hist' inv' l' = .tokens ts') : unspaced ts' = unspaced ts := by
  have names : ∀ {ds ds' : List (Str × Expr)}, DefsBy RespelledValue ds ds' → ds'.map (·.1) = ds.map (·.1) := by
    intro ds ds' h
    induction h with
    | nil => rfl
    | cons n _ _ ih => simp only [List.map_cons, ih]
  have hbd : loopBindings (tree a') = loopBindings (tree a) := by unfold loopBindings; rw [hl]
  -- the definitions in force of the one, and those of the other
  have other : ∀ {js}, InForce a' js → ∃ items : List (List (Str × Expr)), InForce a (items.map (· ++ definitions a)) ∧ js = items.map (· ++ definitions a') := by
    intro js hj
    have hi := iterations_of_inForce hj
    rw [iterations_eq, hbd] at hi
    cases hx : loopBindings (tree a) with
    | err x => rw [hx] at hi; cases hi
    | panic => rw [hx] at hi; cases hi
    | ok items =>
      rw [hx] at hi
      cases hi
      exact ⟨items, inForce_of_iterations (by rw [iterations_eq, hx]; rfl), rfl⟩
  obtain ⟨its, cs, h1, rfl, h3, h4⟩ := C66_text hW hs ha hn hw hc hk h
  obtain ⟨js, cs', h1', rfl, h3', h4'⟩ := C66_text hW hs' ha' hn' hw' hc' (fun js hj d hd' s hs => by
    obtain ⟨items, hi, rfl⟩ := other hj
    obtain ⟨i, hi', rfl⟩ := List.mem_map.1 hd'
    rw [List.map_append, names hd, ← List.map_append]
    exact hk _ hi _ (List.mem_map_of_mem hi') s hs) h'
  obtain ⟨items, hi, rfl⟩ := other h1'
  obtain rfl : its = items.map (· ++ definitions a) := Res.ok.inj ((iterations_of_inForce h1).symm.trans (iterations_of_inForce hi))
  rw [List.length_map] at h3 h3'
  rw [unspaced_coarse.flatten, unspaced_coarse.flatten]
  congr 1
  apply List.ext_getElem?
  intro i
  rw [List.getElem?_map, List.getElem?_map]
  by_cases hlt : i < items.length
  · have e1 := List.getElem?_eq_getElem hlt
    have e2 : (items.map (· ++ definitions a))[i]? = some (items[i] ++ definitions a) := by rw [List.getElem?_map, e1]; rfl
    have e3 : (items.map (· ++ definitions a'))[i]? = some (items[i] ++ definitions a') := by rw [List.getElem?_map, e1]; rfl
    obtain ⟨vs, o1, c1⟩ := h4 i _ e2
    obtain ⟨vs', o2, c2⟩ := h4' i _ e3
    have ho := outcome_by (E := W.E) (seed := l'.ids 0) (F := fun _ => False) (fun _ _ h => respelledValue_same h) (respelledDefs_append hd items[i]) (fun _ _ h => h)
    have o1' : outcome W.E (Env.builtin (l'.ids 0)) (items[i] ++ definitions a) = .ok vs := by
      rcases hseed with e | e
      · rw [← e]; exact o1
      · rw [← o1]
        exact (outcome_seed fun d hd => e _ (iterations_mem (iterations_of_inForce h1) _ (List.mem_map_of_mem (List.getElem_mem hlt)) d hd)).symm
    rw [o1', o2] at ho
    have ho := ho.resolve_right fun h => h.elim nofun nofun
    cases ho
    obtain ⟨fmt, hf⟩ := formatting_exists W.E vs
    obtain ⟨c, p1, p2⟩ := c1 fmt hf
    obtain ⟨c', p1', p2'⟩ := c2 fmt hf
    rw [p1, p1', Option.map_some, Option.map_some, p2, p2', respelled_toks _ _ hb]
  · rw [List.getElem?_eq_none (by omega), List.getElem?_eq_none (by omega)]

/-- **C107**, the definitions, whatever the outcome is: also the errors are the same, apart from what they quote. -/
theorem C107_definitions {W : World} {hist hist' : List (Invocation × Luck)} {inv inv' : Invocation} {l l' : Luck} {a a' : PAst}
    (hs : Scheduled W hist inv l) (ha : Reads W inv a) (hs' : Scheduled W hist' inv' l') (ha' : Reads W inv' a')
    (hal : SameSetting hist inv l a hist' inv' l' a') (hl : (tree a').loops = (tree a).loops) (hb : a'.block = a.block)
    (hd : ExchangedDefs Respelled (definitions a) (definitions a')) :
    blurO (output W hist' inv' l') = blurO (output W hist inv l) :=
  output_exchanged hs ha hs' ha' hal hl hb (fun _ _ h => respelled_interchangeable h) hd

/-! ## Examples -/

theorem respelled_of_exchanged {ds ds' : List (Str × Expr)} (h : ExchangedDefs Respelled ds ds') : DefsBy RespelledValue ds ds' := by
  induction h with
  | nil => exact .nil
  | cons n h _ ih => exact .cons n (.parts h) ih

/-- The string `a-b`, with a spelling. -/
def spelled (r : String) : Tok := .lit (.str (S r) (S "a-b"))

/-- `x = concat(c, normalize2("a-b")), y = upper(concat("a-b", "a-b")), { x "%x%" y "a-b" }` -/
def spelledDemo (r : String) (code : Toks) : Toks :=
  [id' "x", eq', id' "concat", paren [id' "c", comma, id' "normalize2", paren [spelled r]], comma,
    id' "y", eq', id' "concat", paren [spelled r, comma, spelled r], comma, brace code]

def spelledCode (r : String) : Toks := [id' "x", .lit (.str (S r) (S "%x%")), paren [id' "y", spelled r]]

theorem spelled_exchanged (i1 i2 i3 i4 i5 i6 j1 j2 j3 j4 j5 j6 i7 j7 : Nat) (r r' : Str) (raw1 raw2 raw3 raw1' raw2' raw3' : Option (Nat × Toks)) (s : Str) :
    ExchangedDefs Respelled
      [(S "x", .call i1 (S "concat") [.value i2 (.ident (S "c")), .call i3 (S "normalize2") [.value i4 (.litStr r s)] raw1] raw2),
        (S "y", .call i5 (S "concat") [.value i6 (.litStr r s), .value i7 (.litStr r s)] raw3)]
      [(S "x", .call j1 (S "concat") [.value j2 (.ident (S "c")), .call j3 (S "normalize2") [.value j4 (.litStr r' s)] raw1'] raw2'),
        (S "y", .call j5 (S "concat") [.value j6 (.litStr r' s), .value j7 (.litStr r' s)] raw3')] :=
  .cons _ (.call _ _ _ _ _ (by decide) (by decide) (.cons (.value _ _ _) (.cons (.here (.normalized _ _ _ _ _ _ _ _ _)) .nil)))
    (.cons _ (.here (.joined _ _ _ _ (.cons _ _ _ _ _ (.cons _ _ _ _ _ .nil)))) .nil)

/-- `"a-b"` and `r"a-b"` -/
abbrev quoted : String := "\"a-b\""
abbrev rawly : String := "r\"a-b\""

example : DefsBy RespelledValue (definitions (demoParse (spelledDemo quoted (spelledCode quoted)))) (definitions (demoParse (spelledDemo rawly (spelledCode rawly)))) :=
  respelled_of_exchanged (spelled_exchanged _ _ _ _ _ _ _ _ _ _ _ _ _ _ _ _ _ _ _ _ _ _ _)

/-- `y = hash("a-b"), { y }` -/
def spelledHash (r : String) : Toks := [id' "y", eq', id' "hash", paren [spelled r], comma, brace [id' "y"]]

example : DefsBy RespelledValue (definitions (demoParse (spelledHash quoted))) (definitions (demoParse (spelledHash rawly))) :=
  .cons _ (.hashed _ _ _ _ _ _ _ _ _) .nil

example : ∃ n : Str, output demoWorld [] (.compose (spelledHash quoted)) (demoLuck 2 1) = .tokens [.lit (.str (c! "\"" ++ n ++ c! "\"") n)] ∧
    output demoWorld [] (.compose (spelledHash rawly)) (demoLuck 2 1) = .tokens [.lit (.str (c! "\"" ++ n ++ c! "\"") n)] :=
  ⟨hashStr ((demoLuck 2 1).ids 0) (c! "a-b"), by decide +kernel, by decide +kernel⟩

example : sameButSpelling (spelledCode quoted) (spelledCode rawly) := by
  simp [spelledCode, sameButSpelling, sameButSpellingTok, spelled, id', paren]

example : Reads demoWorld (.compose (spelledDemo quoted (spelledCode quoted))) (demoParse (spelledDemo quoted (spelledCode quoted))) ∧
    Reads demoWorld (.compose (spelledDemo rawly (spelledCode rawly))) (demoParse (spelledDemo rawly (spelledCode rawly))) ∧
    Scheduled demoWorld [] (.compose (spelledDemo quoted (spelledCode quoted))) (demoLuck 2 1) ∧
    Scheduled demoWorld [] (.compose (spelledDemo rawly (spelledCode rawly))) (demoLuck 2 1) ∧
    Code (.compose (spelledDemo quoted (spelledCode quoted))) (spelledCode quoted) ∧ Code (.compose (spelledDemo rawly (spelledCode rawly))) (spelledCode rawly) ∧
    (tree (demoParse (spelledDemo rawly (spelledCode rawly)))).loops = (tree (demoParse (spelledDemo quoted (spelledCode quoted)))).loops ∧
    withSemicolons (demoParse (spelledDemo quoted (spelledCode quoted))).spec = false ∧ withSemicolons (demoParse (spelledDemo rawly (spelledCode rawly))).spec = false :=
  ⟨reads_of_parse (ids := fun k => k) (k := 0) rfl, reads_of_parse (ids := fun k => k) (k := 0) rfl, demo_scheduled _ _ (by decide +kernel),
    demo_scheduled _ _ (by decide +kernel), .compose ((spelledDemo quoted (spelledCode quoted)).take 10) _ rfl,
    .compose ((spelledDemo rawly (spelledCode rawly)).take 10) _ rfl, rfl, rfl, rfl⟩

/-- Both give the same code, though neither the definitions nor the code are the same. -/
example : (∃ ts, output demoWorld [] (.compose (spelledDemo quoted (spelledCode quoted))) (demoLuck 2 1) = .tokens ts ∧
      output demoWorld [] (.compose (spelledDemo rawly (spelledCode rawly))) (demoLuck 2 1) = .tokens ts) ∧
    spelledDemo quoted (spelledCode quoted) ≠ spelledDemo rawly (spelledCode rawly) :=
  ⟨⟨[id' "ca_b", .lit (.str (S "\"ca_b\"") (S "ca_b")), paren [.lit (.str (S "\"a-ba-b\"") (S "a-ba-b")), .lit (.str (S "\"a-b\"") (S "a-b"))]],
    by decide +kernel, by decide +kernel⟩, by decide⟩

/-- `y = concat(c, hash("a-b")), { y }` -/
def hashedDemo (r : String) : Toks := [id' "y", eq', id' "concat", paren [id' "c", comma, id' "hash", paren [spelled r]], comma, brace [id' "y"]]

/-- **C107** is false in general: `normalize` works on the text as it stands, so `normalize(r"a-b")` begins with the `r`; a string which is itself the value of an
alias is written as it was spelled; and a `hash` of a string in a name, as `concat(c, hash("a-b"))`, is the hash of the text with its quotes, since a name is
expected there and only the function for tokens gives one. -/
theorem C107_false :
    (output demoWorld [] (.compose (onceDemo "normalize" (spelled quoted))) (demoLuck 2 1) = .tokens [id' "a_b"] ∧
      output demoWorld [] (.compose (onceDemo "normalize" (spelled rawly))) (demoLuck 2 1) = .tokens [id' "r_a_b"]) ∧
    (∀ r ∈ [quoted, rawly], output demoWorld [] (.compose [id' "y", eq', spelled r, comma, brace [id' "y"]]) (demoLuck 2 1) = .tokens [spelled r]) ∧
    ∃ n n', n ≠ n' ∧ output demoWorld [] (.compose (hashedDemo quoted)) (demoLuck 2 1) = .tokens [.ident n] ∧
      output demoWorld [] (.compose (hashedDemo rawly)) (demoLuck 2 1) = .tokens [.ident n'] :=
  ⟨by decide +kernel, by decide +kernel, c! "c__13315864799687027746", c! "c__15590592383768696885", by decide, by decide +kernel, by decide +kernel⟩

end Verif.Props
