import Verif.Props.Context
import Verif.Proofs.FlattenSafe
/-! # `concat` inside `concat` -/

namespace Verif.Props
open Verif Spec

/-- In every iteration, after the definitions `ds` (and those of the loops in front of them), the second expression is the first with calls of `concat`
flattened; and `hash` is not called on a string in it. -/
def FlattensAfter (W : World) (l : Luck) (a : PAst) (ds : List (Str × Expr)) (e e' : Expr) : Prop :=
  ∀ its, InForce a its → ∀ items, items ++ definitions a ∈ its → ∀ vs : Subs, outcome W.E (Env.builtin (l.ids 0)) (items ++ ds) = .ok vs →
    noStrHash (fun n => (vs.get n).map (·.ty)) e ∧ Flattens (fun n => (vs.get n).map (·.ty)) e e'

/-- **C90**, for `concat` calls of the same type: in a definition, `concat(as…, concat(bs…), cs…)` may be replaced by `concat(as…, bs…, cs…)`, at any
depth, if both calls are strings, or both are tokens, or both are identifiers and the inner one joins names: if the invocation succeeds in both cases
the output is the same. (What is missing: `C90_false`. It is assumed that `hash` is not called on a string; and that names are printed and read as they
are.) -/
theorem C90_partial {W : World} (hE : PlainNames W.E) {hist hist' : List (Invocation × Luck)} {inv inv' : Invocation} {l l' : Luck} {a a' : PAst}
    (hs : Scheduled W hist inv l) (ha : Reads W inv a) (hs' : Scheduled W hist' inv' l') (ha' : Reads W inv' a')
    (hal : SameSetting hist inv l a hist' inv' l' a') (hl : (tree a').loops = (tree a).loops) (hb : a'.block = a.block)
    {y : Str} {e e' : Expr} {d1 d3 : List (Str × Expr)} (hd : definitions a = d1 ++ (y, e) :: d3)
    (hd' : definitions a' = d1 ++ (y, e') :: d3) (hf : FlattensAfter W l a d1 e e')
    {ts ts' : Toks} (h : output W hist inv l = .tokens ts) (h' : output W hist' inv' l' = .tokens ts') : ts = ts' := by
  refine output_agree_inForce hs ha hs' ha' hal hl ?_ h h'
  intro its hi items hm c c' sv hc hc'
  rw [hd, ← List.append_assoc] at hc
  rw [hd', ← List.append_assoc, hb] at hc'
  obtain ⟨vs, stmts, h1, h2, rfl⟩ := copyOf_ok.1 hc
  obtain ⟨vs', stmts', h1', h2', rfl⟩ := copyOf_ok.1 hc'
  have := outcome_flatten hE (env := Env.builtin (l.ids 0)) rfl (hf its hi items hm) h1 h1'
  subst this
  rw [h2] at h2'
  cases h2'
  rfl

/-- **C90**, one-sided: if one of the two invocations gives code, the other one gives the same code; or `concat` refuses its arguments in it, or it
panics (`C95` says exactly when). There is no other way in which the two can differ. (Under the assumptions of `C90_partial`.) -/
theorem C90_or_refused_partial {W : World} (hE : PlainNames W.E) {hist hist' : List (Invocation × Luck)} {inv inv' : Invocation} {l l' : Luck} {a a' : PAst}
    (hs : Scheduled W hist inv l) (ha : Reads W inv a) (hs' : Scheduled W hist' inv' l') (ha' : Reads W inv' a')
    (hal : SameSetting hist inv l a hist' inv' l' a') (hl : (tree a').loops = (tree a).loops) (hb : a'.block = a.block)
    {y : Str} {e e' : Expr} {d1 d3 : List (Str × Expr)} (hd : definitions a = d1 ++ (y, e) :: d3)
    (hd' : definitions a' = d1 ++ (y, e') :: d3) (hf : FlattensAfter W l a d1 e e') :
    (∀ ts, output W hist inv l = .tokens ts →
      output W hist' inv' l' = .tokens ts ∨ (∃ xs, output W hist' inv' l' = .compileError (.evalError xs)) ∨ output W hist' inv' l' = .panicked) ∧
    ∀ ts, output W hist' inv' l' = .tokens ts →
      output W hist inv l = .tokens ts ∨ (∃ xs, output W hist inv l = .compileError (.evalError xs)) ∨ output W hist inv l = .panicked := by
  refine output_safe hs ha hs' ha' hal hl hb fun its hi items hm => ?_
  have hfi := hf its hi items hm
  rw [hd, hd', ← List.append_assoc, ← List.append_assoc]
  exact outcome_flatten_safe hE rfl hfi

/-- `y = concat(…), { y }` -/
def flatDemo (v : Toks) : Toks := [id' "y", eq', id' "concat", paren v, comma, brace [id' "y"]]

/-- `concat(…)` -/
def innerDemo (v : Toks) : Toks := [id' "concat", paren v]

/-- `1` -/
def oneTok : Tok := .lit (.int (c! "1") 1)
/-- `0x10` -/
def hexTok : Tok := .lit (.int (c! "0x10") 16)

/-- **C90**, full statement, which is false: `concat(1, concat(a, b))` is `1 ab`, but `concat(1, a, b)` is `1 a b`; `concat(a, concat(0x10))` is `a16`, but
`concat(a, 0x10)` is `a0x10`; `concat(x, concat(1, b))` is rejected, but `concat(x, 1, b)` is `x1b`. -/
theorem C90_false :
    output demoWorld [] (.compose (flatDemo (oneTok :: comma :: innerDemo [id' "a", comma, id' "b"]))) (demoLuck 2 1) = .tokens [oneTok, id' "ab"] ∧
    output demoWorld [] (.compose (flatDemo [oneTok, comma, id' "a", comma, id' "b"])) (demoLuck 2 1) = .tokens [oneTok, id' "a", id' "b"] ∧
    output demoWorld [] (.compose (flatDemo (id' "a" :: comma :: innerDemo [hexTok]))) (demoLuck 2 1) = .tokens [id' "a16"] ∧
    output demoWorld [] (.compose (flatDemo [id' "a", comma, hexTok])) (demoLuck 2 1) = .tokens [id' "a0x10"] ∧
    output demoWorld [] (.compose (flatDemo (id' "x" :: comma :: innerDemo [oneTok, comma, id' "b"]))) (demoLuck 2 1) =
      .compileError (.evalError [[id' "x"], [oneTok, id' "b"]]) ∧
    output demoWorld [] (.compose (flatDemo [id' "x", comma, oneTok, comma, id' "b"])) (demoLuck 2 1) = .tokens [id' "x1b"] := by
  decide +kernel

/-- `concat(a, concat(b, c), d)` -/
def nestedNames : Toks := flatDemo ([id' "a", comma] ++ innerDemo [id' "b", comma, id' "c"] ++ [comma, id' "d"])
/-- `concat(a, b, c, d)` -/
def flatNames : Toks := flatDemo [id' "a", comma, id' "b", comma, id' "c", comma, id' "d"]

theorem inForce_once {a : PAst} (h : (tree a).loops = none) {its : List (List (Str × Expr))} (hi : InForce a its) {items : List (Str × Expr)}
    (hm : items ++ definitions a ∈ its) : items = [] := by
  cases hi with
  | once => simpa using hm
  | each _ h' => rw [h] at h'; cases h'

example : ∃ y e e' d1 d3, definitions (demoParse nestedNames) = d1 ++ (y, e) :: d3 ∧ definitions (demoParse flatNames) = d1 ++ (y, e') :: d3 ∧
    FlattensAfter demoWorld (demoLuck 2 1) (demoParse nestedNames) d1 e e' ∧
    (demoParse flatNames).block = (demoParse nestedNames).block ∧ Reads demoWorld (.compose nestedNames) (demoParse nestedNames) ∧
    Reads demoWorld (.compose flatNames) (demoParse flatNames) ∧
    SameSetting [] (.compose nestedNames) (demoLuck 2 1) (demoParse nestedNames) [] (.compose flatNames) (demoLuck 2 1) (demoParse flatNames) := by
  refine ⟨_, _, _, [], [], rfl, rfl, ?_, rfl, reads_of_parse (ids := fun k => k) (k := 0) rfl,
    reads_of_parse (ids := fun k => k) (k := 0) rfl, .inl rfl, rfl, .inl rfl⟩
  intro its hi items hm vs hvs
  cases inForce_once rfl hi hm
  cases hvs
  refine ⟨noStrHash_of_calls _ (by decide), ?_⟩
  have names : ∀ (ns : List (Nat × Str)), HasTypes (fun n => (Subs.get [] n).map (·.ty)) (ns.map fun p => .value p.1 (.ident p.2)) (ns.map fun _ => .ident) := by
    intro ns
    induction ns with
    | nil => exact .nil
    | cons n ns ih => exact .cons (.value _ _) ih
  have inner := fun j raw => concat_hasType (names [(0, S "b"), (0, S "c")]) (by simp) j raw
  refine Flattens.here (as := [.value 0 (.ident (S "a"))]) (bs := [.value 0 (.ident (S "b")), .value 0 (.ident (S "c"))]) (cs := [.value 0 (.ident (S "d"))])
    (t := .ident) _ _ _ _ _ _ (inner _ _) ?_ (by simp) ?_
  · exact concat_hasType (.cons (.value _ _) (.cons (inner _ _) (.cons (.value _ _) .nil))) (by simp) _ _
  · intro _ b hb
    simp only [List.mem_cons, List.not_mem_nil, or_false] at hb
    rcases hb with rfl | rfl <;> exact ⟨⟨_, _, rfl⟩, .value _ _⟩

example : output demoWorld [] (.compose nestedNames) (demoLuck 2 1) = .tokens [id' "abcd"] ∧
    output demoWorld [] (.compose flatNames) (demoLuck 2 1) = .tokens [id' "abcd"] := by decide +kernel

end Verif.Props
