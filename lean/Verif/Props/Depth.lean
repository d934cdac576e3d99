import Verif.Proofs.Depth
import Verif.Props.NoCrash
import Verif.Props.Size
/-!
# Property C101: nothing is nested more deeply than it was written

The parser, the resolver and the evaluator call themselves for nested calls, and so does the compiler for the generated code. How deep this goes is bounded by the nesting
of the input: functions and aliases may repeat code (C100), but they put nothing in parentheses.
-/

namespace Verif.Props
open Verif Spec

mutual
theorem nesting_deep (e : Expr) : nesting e ≤ deep e := by
  match e with
  | .value _ _ => exact Nat.zero_le _
  | .call _ _ args raw =>
    have := nestingL_deep args
    simp only [nesting, deep]
    omega
theorem nestingL_deep (es : List Expr) : nestingL es ≤ deepL es := by
  match es with
  | [] => exact Nat.le_refl _
  | e :: es =>
    have h1 := nesting_deep e
    have h2 := nestingL_deep es
    simp only [nestingL, deepL]
    omega
end

/-- **C101**: an expression is nested at most as deeply as the tokens of the input, and so are the calls in it; that is how deeply the parser, the
resolver and the evaluator call themselves. -/
theorem C101_read {W : World} {inv : Invocation} {a : PAst} (h : Reads W inv a) :
    ∀ e ∈ exprsIn (tree a), deep e ≤ depth (headerToks inv) ∧ nesting e ≤ depth (headerToks inv) :=
  fun e he => ⟨reads_depth h e he, Nat.le_trans (nesting_deep e) (reads_depth h e he)⟩

/-- **C101**: no value is nested more deeply than the values written in the definitions (the arguments of `raw` included). -/
theorem C101_value {E : Ext} {seed : Nat} {ds : List (Str × Expr)} {vs : Subs} (h : outcome E (Env.builtin seed) ds = .ok vs) {D : Nat}
    (hD : ∀ d ∈ ds, ∀ k ∈ leaves d.2, depth k.toTokens ≤ D) : ∀ p ∈ vs, depth p.2.toTokens ≤ D := outcome_depth rfl h hD

/-- **C101**: no value is nested more deeply than the input. -/
theorem C101_values {W : World} {inv : Invocation} {a : PAst} (h : Reads W inv a) {its : List (List (Str × Expr))} (hi : InForce a its)
    {defs : List (Str × Expr)} (hd : defs ∈ its) {seed : Nat} {vs : Subs} (hv : outcome W.E (Env.builtin seed) defs = .ok vs) :
    ∀ p ∈ vs, depth p.2.toTokens ≤ depth (headerToks inv) :=
  C101_value hv fun d hd' k hk => Nat.le_trans (leaves_depth d.2 k hk) (reads_depth h _ (mem_exprsIn hi defs hd d hd'))

/-- **C101**: code in which aliases have been replaced is nested at most by the depth of the values more deeply. -/
theorem C101_code {E : Ext} {valid : Toks → Bool} {subs : Subs} {node out : Toks} (h : substituteIdents E valid subs node = .ok out) {D : Nat}
    (hD : ∀ p ∈ subs, depth p.2.toTokens ≤ D) : depth out ≤ depth node + D := by
  obtain ⟨fmt, hf⟩ := formatting_exists E subs
  rw [C11_structural_map hf h]
  refine substAll_depth ?_ node
  intro n u hu
  simp only [valueToks, codeOf_eq, Option.map_eq_some_iff] at hu
  obtain ⟨v, hv, rfl⟩ := hu
  exact hD _ (lookup_mem' hv)

mutual
theorem bareTok_depth (t : Tok) : depth (bareTok t) ≤ depthTok t := by
  match t with
  | .group .none ts => have := bare_depth ts; simp only [bareTok, depthTok]; omega
  | .group .paren ts | .group .brace ts | .group .bracket ts | .ident _ | .punct _ _ | .lit _ => simp [bareTok, depth]
theorem bare_depth (ts : Toks) : depth (bare ts) ≤ depth ts := by
  match ts with
  | [] => exact Nat.le_refl _
  | t :: ts =>
    have h1 := bareTok_depth t
    have h2 := bare_depth ts
    simp only [bare, depth, depth_append]
    omega
end

/-- The block is inside the braces. -/
theorem code_depth {inv : Invocation} {body : Toks} (h : Code inv body) : (∃ attr, inv = .composeItem attr body) ∨ 1 + depth body ≤ depth (headerToks inv) := by
  have key : ∀ {ts pre post : Toks}, bare ts = pre ++ .group .brace body :: post → 1 + depth body ≤ depth ts := by
    intro ts pre post h
    have := bare_depth ts
    rw [h, depth_append] at this
    simp only [depth, depthTok] at this
    omega
  cases h with
  | compose _ _ h => exact .inr (key h)
  | composeSep _ _ _ _ _ h => exact .inr (key h)
  | idents _ _ h => exact .inr (key h)
  | identsSep _ _ _ _ _ h => exact .inr (key h)
  | item attr _ => exact .inl ⟨attr, rfl⟩

theorem flatten_depth {D : Nat} : ∀ {cs : List Toks}, (∀ c ∈ cs, depth c ≤ D) → depth cs.flatten ≤ D
  | [], _ => Nat.zero_le _
  | c :: cs, h => by
    have h1 := h c List.mem_cons_self
    have h2 := flatten_depth fun c hc => h c (List.mem_cons_of_mem _ hc)
    rw [List.flatten_cons, depth_append]
    omega

/-- **C101**: the generated code is nested at most as deeply as the code of the block and the deepest value written together, and two more for the warning about
semicolons. -/
theorem C101_output {W : World} {q : Toks → Toks} (hW : GoodSyntax q W) (hq : ∀ ts, depth (q ts) = depth ts) {hist : List (Invocation × Luck)}
    {inv : Invocation} {l : Luck} (hs : Scheduled W hist inv l) {a : PAst} (ha : Reads W inv a) {ts : Toks}
    (hk : ∀ its, InForce a its → ∀ defs ∈ its, ∀ s ∈ itemKeywords, s ∉ defs.map (·.1)) (h : output W hist inv l = .tokens ts) {D : Nat}
    (hD : ∀ e ∈ exprsIn (tree a), ∀ k ∈ leaves e, depth k.toTokens ≤ D) : ∃ body, Code inv body ∧ depth ts ≤ depth body + D + 2 := by
  obtain ⟨body, hc, hb⟩ := C59_code ha
  refine ⟨body, hc, ?_⟩
  obtain ⟨its, cs, h1, rfl, h3, h4⟩ := C59_warned hW hs ha hk h
  have h5 : depth (stmtsToks (stmtsNoWhere a.block)) ≤ depth body := by
    obtain ⟨xs, hx⟩ := stmts_where a.block
    have h6 := (inserts_depth hx).1
    have h7 := congrArg depth (hW.lossless _ _ hb)
    rw [hq, hq] at h7
    omega
  refine flatten_depth fun c hc => ?_
  obtain ⟨i, hi, rfl⟩ := List.getElem_of_mem hc
  obtain ⟨vs, h6, h7⟩ := h4 i its[i] (List.getElem?_eq_getElem (by omega))
  obtain ⟨fmt, hf⟩ := formatting_exists W.E vs
  obtain ⟨c, ws, b, h8, h9, h10, h11⟩ := h7 fmt hf
  rw [List.getElem?_eq_getElem hi] at h8
  cases h8
  have h12 := (inserts_depth h10).2 2 (by
    rcases h11 with rfl | rfl
    · simp
    · intro x hx; cases List.mem_singleton.1 hx; exact Nat.le_refl _)
  have h13 := congrArg depth h9
  rw [hq, hq] at h13
  have h14 : ∀ p ∈ vs, depth p.2.toTokens ≤ D := C101_value h6 fun d hd k hk => hD d.2 (mem_exprsIn h1 _ (List.getElem_mem _) d hd) k hk
  have h15 : depth (substAll (valueToks vs) (litWith W.E fmt) (stmtsToks (stmtsNoWhere a.block))) ≤ depth (stmtsToks (stmtsNoWhere a.block)) + D := by
    refine substAll_depth ?_ _
    intro n u hu
    simp only [valueToks, codeOf_eq, Option.map_eq_some_iff] at hu
    obtain ⟨v, hv, rfl⟩ := hu
    exact h14 _ (lookup_mem' hv)
  omega

/-- **C101**: the generated code is nested at most as deeply as the code of the block and the input together, and two more for the warning. With `compose!`,
where the block is part of the input, it is at most twice as deep as the input, and one more. -/
theorem C101_whole {W : World} {q : Toks → Toks} (hW : GoodSyntax q W) (hq : ∀ ts, depth (q ts) = depth ts) {hist : List (Invocation × Luck)}
    {inv : Invocation} {l : Luck} (hs : Scheduled W hist inv l) {a : PAst} (ha : Reads W inv a) {ts : Toks}
    (hk : ∀ its, InForce a its → ∀ defs ∈ its, ∀ s ∈ itemKeywords, s ∉ defs.map (·.1)) (h : output W hist inv l = .tokens ts) :
    (∃ body, Code inv body ∧ depth ts ≤ depth body + depth (headerToks inv) + 2) ∧
      ((∀ attr item, inv ≠ .composeItem attr item) → depth ts ≤ 2 * depth (headerToks inv) + 1) := by
  obtain ⟨body, h1, h2⟩ := C101_output hW hq hs ha hk h fun e he k hk => Nat.le_trans (leaves_depth e k hk) (reads_depth ha e he)
  refine ⟨⟨body, h1, h2⟩, fun hn => ?_⟩
  rcases code_depth h1 with ⟨attr, rfl⟩ | h3
  · exact absurd rfl (hn _ _)
  · omega

/-! ## Examples -/

/-- `y = raw((x)), z = concat(y, y), { [z] }` -/
def depthDemo : Toks :=
  [id' "y", eq', id' "raw", paren [paren [id' "x"]], comma, id' "z", eq', id' "concat", paren [id' "y", comma, id' "y"], comma,
    brace [.group .bracket [id' "z"]]]

example : (∀ ts, depth (id ts) = depth ts) ∧ GoodSyntax id demoWorld ∧ Scheduled demoWorld [] (.compose depthDemo) (demoLuck 2 1) ∧
    Reads demoWorld (.compose depthDemo) (demoParse depthDemo) ∧ InForce (demoParse depthDemo) [definitions (demoParse depthDemo)] :=
  ⟨fun _ => rfl, demo_good, demo_scheduled _ _ (by decide +kernel), reads_of_parse (ids := fun k => k) (k := 0) rfl, .once rfl⟩

example : ∀ its, InForce (demoParse depthDemo) its → ∀ defs ∈ its, ∀ s ∈ itemKeywords, s ∉ defs.map (·.1) := by
  intro its h defs hd
  have := iterations_of_inForce h
  have h1 : iterations (tree (demoParse depthDemo)) = .ok [definitions (demoParse depthDemo)] := rfl
  rw [h1] at this
  cases this
  cases List.mem_singleton.1 hd
  decide +kernel

/-- The code of the block has depth 1, the deepest value written (the argument of `raw`) too, and the generated code has depth 2. -/
example : output demoWorld [] (.compose depthDemo) (demoLuck 2 1) = .tokens [.group .bracket [paren [id' "x"], paren [id' "x"]]] ∧
    depth [Tok.group .bracket [paren [id' "x"], paren [id' "x"]]] = 2 ∧ depth [Tok.group .bracket [id' "z"]] = 1 ∧
    (definitions (demoParse depthDemo)).map (fun d => (leaves d.2).map fun k => depth k.toTokens) = [[1, 1], [0, 0, 0]] ∧
    depth (headerToks (.compose depthDemo)) = 2 := by
  refine ⟨by decide +kernel, rfl, rfl, rfl, rfl⟩

example : outcome Ext.demo (Env.builtin 0) (definitions (demoParse depthDemo)) =
    .ok [(S "y", .tokens [paren [id' "x"]]), (S "z", .tokens [paren [id' "x"], paren [id' "x"]])] := rfl

example : substituteIdents Ext.demo (fun _ => true) [(S "z", .tokens [paren [id' "x"]])] [brace [id' "z"]] = .ok [brace [paren [id' "x"]]] := rfl

end Verif.Props
