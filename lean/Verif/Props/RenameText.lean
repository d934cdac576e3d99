import Verif.Props.Pasted
/-!
# Renaming an alias in the input (C64)

`Props/Rename` compares trees. Here the alias is renamed in the tokens of the invocation.
-/

namespace Verif.Props
open Verif Spec

/-! ## Iterations -/

mutual
theorem tup_conv {α β : Type} (f : α → α) (g g' : α → β) (k : β → β) (h : ∀ a, g' (f a) = k (g a)) : ∀ t : PTup α,
    (Leafmap.tup f t).conv g' = Tup.map k (t.conv g)
  | .val _ a => by simp [Leafmap.tup, PTup.conv, Tup.map, h]
  | .tup _ _ ts => by simp [Leafmap.tup, PTup.conv, Tup.map, tups_conv f g g' k h ts]
theorem tups_conv {α β : Type} (f : α → α) (g g' : α → β) (k : β → β) (h : ∀ a, g' (f a) = k (g a)) : ∀ ts : List (PTup α),
    PTup.convL g' (Leafmap.tups f ts) = Tup.mapL k (PTup.convL g ts)
  | [] => by simp [Leafmap.tups, PTup.convL, Tup.mapL]
  | t :: ts => by simp [Leafmap.tups, PTup.convL, Tup.mapL, tup_conv f g g' k h t, tups_conv f g g' k h ts]
end

theorem tree_mapped (m : Leafmap) (a : PAst) (b : List Stmt) : tree ⟨a.id, a.loops.map m.loops, a.spec.map m.spec, b⟩ =
    { (tree a).map m.name m.expr with block := b } := by
  have h1 : ∀ e : PLoopElem Alias, (Leafmap.elem m.alias e).alias (·.2) = (e.alias (·.2)).map m.name := fun e => by
    cases e <;> simp [Leafmap.elem, PLoopElem.alias, LoopAlias.map, Leafmap.alias]
    exact tups_conv m.alias (·.2) (·.2) m.name (fun _ => rfl) _
  have h2 : ∀ e : PLoopElem Expr, (Leafmap.elem m.expr e).value Expr.erase = (e.value Expr.erase).map m.expr := fun e => by
    cases e <;> simp [Leafmap.elem, PLoopElem.value, LoopSourceValue.map, expr_erase]
    exact tups_conv _ _ _ _ (fun e => expr_erase m e) _
  simp only [tree, PAst.conv, RawAst.map, Option.map_map, Function.comp_def, Leafmap.loops, List.map_map, Leafmap.loop, mapLoop, h1, h2, Leafmap.spec,
    Leafmap.item, Leafmap.alias, expr_erase, AliasSpec.map, mapItems]

/-- **C92**: so the definitions in force in the iterations are those with the replacements. -/
theorem C92_in_force {m : Leafmap} {a : PAst} {its : List (List (Str × Expr))} (h : InForce a its) (b : List Stmt) :
    InForce ⟨a.id, a.loops.map m.loops, a.spec.map m.spec, b⟩ (its.map fun defs => defs.map fun d => (m.name d.1, m.expr d.2)) := by
  have h1 := iterations_of_inForce h
  apply inForce_of_iterations
  have h2 : ∀ x : RawAst Str Expr (List Stmt), iterations { x with block := b } = iterations x := fun x => by
    unfold iterations
    cases hl : x.loops with
    | none => simp [expand, hl, Res.map]
    | some ls =>
      rw [expand_loops_eq x ls hl, expand_loops_eq _ ls rfl]
      generalize combinations (ls.map (·.2)) = cs
      have h3 : ∀ vs : List (LoopSourceValue Expr), rewriteFor ls x.spec b vs =
          (rewriteFor ls x.spec x.block vs).map fun r => { r with block := b } := fun vs => by
        unfold rewriteFor
        cases loopSpecItems ls vs <;> cases x.spec <;> rfl
      induction cs with
      | nil => rfl
      | cons vs cs ih =>
        simp only [mapRes, h3]
        cases rewriteFor ls x.spec x.block vs <;> simp [Res.map]
        generalize mapRes (rewriteFor ls x.spec b) cs = p at ih ⊢
        generalize mapRes (rewriteFor ls x.spec x.block) cs = q at ih ⊢
        cases p <;> cases q <;> simp_all [Res.map]
  rw [tree_mapped, h2]
  unfold iterations at h1 ⊢
  rw [expand_map]
  cases he : expand (tree a) with
  | err e => rw [he] at h1; cases h1
  | panic => rw [he] at h1; cases h1
  | ok out =>
    rw [he] at h1
    cases h1
    simp [Res.map, BlockRewrite.map, AliasSpec.map, mapItems, Function.comp_def]

/-! ## Renaming -/

/-- The new name for the old one, everywhere. -/
def newName (x y n : Str) : Str := if n = x then y else n

theorem newName_other {x y n : Str} (h : n ≠ x) : newName x y n = n := if_neg h

mutual
theorem ren_leafOnly {m : Leafmap} {x y : Str} (hm : m.name = newName x y) : ∀ {e : Expr}, LeafOnly m e → RenExpr x y e (m.expr e)
  | _, .name id n => by
    have := RenExpr.value (x := x) (y := y) id id (.ident n)
    rw [Leafmap.expr, Leafmap.kind, hm]
    unfold newName
    unfold inlineLeaf at this
    split <;> simp_all
  | _, .same id k h => by
    rw [Leafmap.expr, h]
    have := RenExpr.value (x := x) (y := y) id id k
    have e : inlineLeaf x (.ident y) k = k := by
      cases k <;> try rfl
      rw [Leafmap.kind, hm] at h
      unfold newName at h
      unfold inlineLeaf
      split <;> simp_all
    rwa [e] at this
  | _, .verbatim id name args rid raw h hr => by
    rw [Leafmap.expr]
    simp only [Option.map_some, hr]
    exact .verbatim _ _ _ _ _ _ _ _ h
  | _, .call id name args raw h ha => by
    rw [Leafmap.expr]
    exact .call _ _ _ _ _ _ _ h (ren_leafOnlyL hm ha)
theorem ren_leafOnlyL {m : Leafmap} {x y : Str} (hm : m.name = newName x y) : ∀ {es : List Expr}, LeafOnlyL m es → RenExprs x y es (m.exprs es)
  | _, .nil => .nil
  | _, .cons h hs => .cons (ren_leafOnly hm h) (ren_leafOnlyL hm hs)
end

mutual
theorem ren_tok {C : CharClass} {m : Leafmap} {x y : Str} (hm : m.name = newName x y) : ∀ t : Tok, strLitsTok (fun r v => RenStr C x y v (m.text r v).2) t →
    RenTok C x y t (m.tok t)
  | .ident n, _ => by
    rw [Leafmap.tok, hm]
    by_cases h : n = x
    · subst h; simp only [newName, if_true]; exact .alias
    · rw [newName_other h]; exact .ident n h
  | .lit (.str r v), h => by rw [Leafmap.tok]; exact .str _ _ _ _ (by simpa [strLitsTok] using h)
  | .lit (.int _ _), _ => by rw [Leafmap.tok]; exact .other _ nofun nofun nofun; nofun
  | .lit (.other _), _ => by rw [Leafmap.tok]; exact .other _ nofun nofun nofun; nofun
  | .punct _ _, _ => by rw [Leafmap.tok]; exact .other _ nofun nofun nofun
  | .group d ts, h => by rw [Leafmap.tok]; exact .group d _ _ (ren_toks hm ts (by simpa [strLitsTok] using h))
theorem ren_toks {C : CharClass} {m : Leafmap} {x y : Str} (hm : m.name = newName x y) : ∀ ts : Toks, strLits (fun r v => RenStr C x y v (m.text r v).2) ts →
    RenToks C x y ts (m.toks ts)
  | [], _ => by rw [Leafmap.toks]; exact .nil
  | t :: ts, h => by
    simp only [strLits] at h
    rw [Leafmap.toks]
    exact .cons (ren_tok hm t h.1) (ren_toks hm ts h.2)
end

/-- In these definitions the alias `x` can be renamed to `y` everywhere: it is defined once and not used before, not even in its own definition; `y` is not
defined, nor used after that; and `x` is used only where it stands for a value. -/
def Renamable (m : Leafmap) (x y : Str) (defs : List (Str × Expr)) : Prop :=
  ∃ pre e post, defs = pre ++ (x, e) :: post ∧ (x ∉ pre.map (·.1) ∧ x ∉ post.map (·.1)) ∧ (y ∉ pre.map (·.1) ∧ y ∉ post.map (·.1)) ∧ y ∉ usedIn post ∧
    (∀ d ∈ pre, m.expr d.2 = d.2) ∧ m.expr e = e ∧ ∀ d ∈ post, LeafOnly m d.2

theorem renamable_defs {m : Leafmap} {x y : Str} (hm : m.name = newName x y) {defs : List (Str × Expr)} (h : Renamable m x y defs) :
    RenDefs x y defs (defs.map fun d => (m.name d.1, m.expr d.2)) := by
  obtain ⟨pre, e, post, rfl, hx, hy, hu, h1, h2, h3⟩ := h
  have e1 : (pre.map fun d => (m.name d.1, m.expr d.2)) = pre := by
    have : ∀ d ∈ pre, (m.name d.1, m.expr d.2) = d := fun d hd => by
      rw [h1 d hd, hm, newName_other (fun e => hx.1 (List.mem_map.2 ⟨d, hd, e⟩))]
    rw [List.map_congr_left this, List.map_id']
  have e2 : m.name x = y := by simp [hm, newName]
  rw [List.map_append, List.map_cons, e1, e2, h2]
  refine .mk pre e ?_ hx hy hu
  clear hu hy e1
  replace hx := hx.2
  induction post with
  | nil => exact .nil
  | cons d post ih =>
    obtain ⟨n, e'⟩ := d
    simp only [List.map_cons, List.mem_cons, not_or] at hx
    rw [List.map_cons]
    simp only
    rw [hm, newName_other (fun e => hx.1 e.symm), ← hm]
    exact .cons (ren_leafOnly hm (h3 (n, e') (by simp))) (ih (fun d hd => h3 d (by simp [hd])) hx.2)

/-- **C64** for the input: if an alias is renamed everywhere in the input, in the definitions, in the code and in the placeholders of its strings, then the
output is the same, up to spacing. -/
theorem C64_text {W : World} (hW : TextSyntax W) {special : Str → Prop} (hk : ∀ n ∈ keywords, special n) (hb : ∀ n, isBuiltin n = true → special n)
    (hY : BlindSyn special W.Y) {m : Leafmap} {x y : Str} (hm : m.name = newName x y) (hx : ¬ special x) (hy : ¬ special y)
    {hist hist' : List (Invocation × Luck)} {inv : Invocation} {l l' : Luck} {a : PAst} (hs : Scheduled W hist inv l) (ha : Reads W inv a)
    (hs' : Scheduled W hist' (replacedIn m inv) l') (hseed : l.ids 0 = l'.ids 0 ∨ NoHash a) (hn : withSemicolons a.spec = false)
    (hw : stmtsNoWhere a.block = a.block) (hw' : ∀ a', Reads W (replacedIn m inv) a' → stmtsNoWhere a'.block = a'.block)
    {body : Toks} (hc : Code inv body) {its : List (List (Str × Expr))} (hi : InForce a its) (hr : ∀ d ∈ its, Renamable m x y d)
    (hkw : ∀ s ∈ itemKeywords, s ≠ y ∧ ∀ d ∈ its, s ∉ d.map (·.1))
    (hp : strLits (fun r v => RenStr W.E.toCharClass x y v (m.text r v).2) body) (hu : ¬ uses W.E.toCharClass y body) {ts ts' : Toks}
    (h : output W hist inv l = .tokens ts) (h' : output W hist' (replacedIn m inv) l' = .tokens ts') : unspaced ts' = unspaced ts := by
  have keeps : m.Keeps special := by
    constructor
    · intro n hn
      rw [hm, newName_other (by rintro rfl; exact hx hn)]
    · intro n hn
      rw [hm]
      unfold newName
      split
      · exact hy
      · exact hn
  have uniq : ∀ {b : PAst} {js js' : List (List (Str × Expr))}, InForce b js → InForce b js' → js' = js := by
    intro b js js' h1 h2
    have := (iterations_of_inForce h2).symm.trans (iterations_of_inForce h1)
    exact Res.ok.inj this
  obtain ⟨b', c, hr', -, -⟩ := C92_read keeps hk hb hY ha
  have hsemi : withSemicolons (a.spec.map m.spec) = false := by
    cases hs : a.spec with
    | none => rfl
    | some s =>
      rw [hs] at hn
      obtain ⟨i, items, c⟩ := s
      rcases c with _ | _ | _ <;> first | rfl | cases hn
  have hi' := C92_in_force (m := m) hi b'
  obtain ⟨js, cs, h1, rfl, h3, h4⟩ := C66_text hW hs ha hn hw hc (fun js hj d hd s hs => (hkw s hs).2 d (uniq hi hj ▸ hd)) h
  obtain ⟨js', cs', h1', rfl, h3', h4'⟩ := C66_text hW hs' hr' hsemi (hw' _ hr') (code_mapped hc) (fun js hj d hd s hs => by
    rw [uniq hi' hj] at hd
    obtain ⟨d0, hd0, rfl⟩ := List.mem_map.1 hd
    rw [List.map_map]
    intro hmem
    obtain ⟨p, hp, e⟩ := List.mem_map.1 hmem
    simp only [Function.comp, hm, newName] at e
    split at e
    · exact (hkw s hs).1 e.symm
    · exact (hkw s hs).2 d0 hd0 (List.mem_map.2 ⟨p, hp, e⟩)) h'
  obtain rfl := uniq hi h1
  obtain rfl := uniq hi' h1'
  rw [unspaced_coarse.flatten, unspaced_coarse.flatten]
  congr 1
  apply List.ext_getElem?
  intro i
  rw [List.getElem?_map, List.getElem?_map]
  rw [List.length_map] at h3'
  by_cases hlt : i < js.length
  · have e1 := List.getElem?_eq_getElem hlt
    obtain ⟨vs, o1, c1⟩ := h4 i _ e1
    obtain ⟨vs', o2, c2⟩ := h4' i _ (by rw [List.getElem?_map, e1]; rfl)
    have hrd := renamable_defs hm (hr _ (List.getElem_mem hlt))
    have o1' : outcome W.E (Env.builtin (l'.ids 0)) js[i] = .ok vs := by
      rcases hseed with hs | hs
      · rw [← hs]; exact o1
      · rw [← o1]
        refine outcome_seed fun d hd => ?_
        exact hs _ (iterations_mem (iterations_of_inForce hi) _ (List.getElem_mem hlt) d hd)
    have := C64_definitions (E := W.E) (seed := l'.ids 0) hrd
    rw [o1'] at this
    obtain ⟨vs1, v, vs2, rfl, o3, h5, -, h7, -⟩ := this
    rw [o2] at o3
    cases o3
    obtain ⟨fmt, hf⟩ := formatting_exists W.E (vs1 ++ (x, v) :: vs2)
    obtain ⟨fmt', hf'⟩ := formatting_exists W.E (vs1 ++ (y, v) :: vs2)
    obtain ⟨d1, c3, c4⟩ := c1 fmt hf
    obtain ⟨d2, c5, c6⟩ := c2 fmt' hf'
    rw [c3, c5, Option.map_some, Option.map_some, c4, c6, C64_code h5 h7 (ren_toks hm body hp) hu hf hf']
  · rw [List.getElem?_eq_none (by omega), List.getElem?_eq_none (by omega)]

/-! ## Examples -/

/-- `z` for `x`, in the placeholders of the one string of `demoNamed` too. -/
def demoRenaming : Leafmap := ⟨newName (S "x") (S "z"), fun r v => (r, if v = S "-%x%%" then S "-%z%%" else v)⟩

theorem demo_renamable : Renamable demoRenaming (S "x") (S "z") (definitions (demoParse (demoNamed "x"))) := by
  refine ⟨[], _, _, rfl, by decide, by decide, by decide, by simp, rfl, ?_⟩
  intro d hd
  have hd : d ∈ [(S "y", Expr.call 0 (S "concat") [.value 0 (.ident (S "x")), .value 0 (.litInt ⟨false, S "1", 1⟩)] _)] := hd
  simp only [List.mem_cons, List.not_mem_nil, or_false] at hd
  subst hd
  exact .call _ _ _ _ (by decide) (.cons (.name _ _) (.cons (.same _ _ rfl) .nil))

example : TextSyntax demoWorld ∧ BlindSyn taken demoWorld.Y ∧ ¬ taken (S "x") ∧ ¬ taken (S "z") ∧ demoRenaming.toks (demoNamed "x") = demoNamed "z" ∧
    Reads demoWorld (.compose (demoNamed "x")) (demoParse (demoNamed "x")) ∧ Code (.compose (demoNamed "x")) [id' "x", id' "y", .lit (.str (S "r") (S "-%x%%"))] ∧
    InForce (demoParse (demoNamed "x")) [definitions (demoParse (demoNamed "x"))] ∧
    Renamable demoRenaming (S "x") (S "z") (definitions (demoParse (demoNamed "x"))) ∧
    strLits (fun r v => RenStr demoWorld.E.toCharClass (S "x") (S "z") v (demoRenaming.text r v).2) [id' "x", id' "y", .lit (.str (S "r") (S "-%x%%"))] ∧
    InForce ⟨0, none, (demoParse (demoNamed "x")).spec.map demoRenaming.spec, []⟩ [definitions (demoParse (demoNamed "z"))] := by
  refine ⟨demo_text, demo_blindSyn, by decide +kernel, by decide +kernel, rfl, reads_of_parse (ids := fun k => k) (k := 0) rfl,
    .compose ((demoNamed "x").take 9) _ rfl, .once rfl, demo_renamable, ?_, .once rfl⟩
  simp only [strLits, strLitsTok, id', and_true, true_and]
  exact demoNamed_str

end Verif.Props
