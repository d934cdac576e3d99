import Verif.Proofs.Recast
import Verif.Props.Twice
import Verif.Props.Laws
/-!
# Property C103: a cast of the value of an alias changes no code

The functions `to_path`, `to_type`, `to_expr` and `to_tokens` say of what kind a value is. The tokens stay the same, so that the generated code should not depend
on whether the value of an alias is cast.
-/

namespace Verif.Props
open Verif Spec

section
variable {W : World} {hist hist' : List (Invocation × Luck)} {inv inv' : Invocation} {l l' : Luck} {a a' : PAst}
  (hs : Scheduled W hist inv l) (ha : Reads W inv a) (hs' : Scheduled W hist' inv' l') (ha' : Reads W inv' a')
  (hal : SameSetting hist inv l a hist' inv' l' a') (hl : (tree a').loops = (tree a).loops) (hb : a'.block = a.block)
  {y : Str} {e : Expr} {i : Nat} {raw : Option (Nat × Toks)} {d1 d2 : List (Str × Expr)} {f : Str} {t : Ty}

include hs ha hs' ha' hal hl hb

/-- **C103**: if in one definition `y = to_x(e)` the call of `to_x` is left out, where `to_x` is `to_path`, `to_type`, `to_expr` or `to_tokens`, then what was
accepted still is, with the same output; provided that `e` does not call `hash`, no later definition uses `y`, and no string literal of the block shows it. (What is
missing: `C103_text_false`, `C103_hash_false`, `C103_used_false`.) -/
theorem C103_partial (hf : CodeCast f t) (hd : definitions a = d1 ++ (y, .call i f [e] raw) :: d2) (hd' : definitions a' = d1 ++ (y, e) :: d2)
    (hh : S "hash" ∉ calls e) (hu : y ∉ usedIn d2) (hn : ¬ ShownInBlock W.E.toCharClass y a.block) {ts : Toks} (h : output W hist inv l = .tokens ts) :
    output W hist' inv' l' = .tokens ts := by
  refine output_change hs ha hs' ha' hal hl ?_ h
  intro items c sv hc
  rw [hd, ← List.append_assoc] at hc
  rw [hd', ← List.append_assoc, hb]
  obtain ⟨ws, stmts, h1, h2, rfl⟩ := copyOf_ok.1 hc
  obtain ⟨vs, h3, h4, v, w, h5, h6, h7, -⟩ := outcome_uncast_post (E := W.E) (env := Env.builtin (l.ids 0)) rfl hf hh hu h1
  refine copyOf_ok.2 ⟨vs, stmts, h3, ?_, rfl⟩
  rw [← h2]
  refine visitBlock_local _ fun p hp => ⟨fun n _ => ?_, fun n hm => ?_⟩
  · by_cases hy : n = y
    · subst hy; rw [h5, h6, Option.map_some, Option.map_some, h7]
    · rw [h4 n hy]
  · rw [h4 n]
    rintro rfl
    exact hn ⟨p, hp, hm⟩

/-- **C103**, between types, expressions and tokens: if `e` is itself a call of `to_type`, `to_expr` or `to_tokens`, then a further call of one of these can be left
out even if string literals show the alias. -/
theorem C103_between_partial {g : Str} {t' : Ty} {j : Nat} {raw' : Option (Nat × Toks)} {e' : Expr} (hf : CodeCast f t) (hg : CodeCast g t') (ht : t ≠ .path)
    (ht' : t' ≠ .path) (he : e = .call j g [e'] raw') (hd : definitions a = d1 ++ (y, .call i f [e] raw) :: d2) (hd' : definitions a' = d1 ++ (y, e) :: d2)
    (hh : S "hash" ∉ calls e) (hu : y ∉ usedIn d2) {ts : Toks} (h : output W hist inv l = .tokens ts) : output W hist' inv' l' = .tokens ts := by
  refine output_change hs ha hs' ha' hal hl ?_ h
  intro items c sv hc
  rw [hd, ← List.append_assoc] at hc
  rw [hd', ← List.append_assoc, hb]
  obtain ⟨ws, stmts, h1, h2, rfl⟩ := copyOf_ok.1 hc
  obtain ⟨vs, h3, h4, v, w, h5, h6, h7, h8⟩ := outcome_uncast_post (E := W.E) (env := Env.builtin (l.ids 0)) rfl hf hh hu h1
  have h9 : v.ty = t' := by
    have hh' : S "hash" ∉ calls e' := fun h => hh (by rw [he]; simp [calls, callsL, h])
    rw [he] at h3
    obtain ⟨us, -, -, u, v', -, k1, -, k2⟩ := outcome_uncast_post (E := W.E) (env := Env.builtin (l.ids 0)) rfl hg hh' hu h3
    rw [h5] at k1
    cases k1
    exact k2
  have h10 : v.format W.E = w.format W.E := by
    have key : ∀ {u : VKind} {s : Ty} {n : Str}, CodeCast n s → s ≠ .path → u.ty = s → u.format W.E = W.E.render u.toTokens := by
      intro u s n hc hne hu
      cases hc <;> cases u <;> simp_all [VKind.ty, VKind.format, VKind.toTokens]
    rw [key hg ht' h9, key hf ht h8, h7]
  refine copyOf_ok.2 ⟨vs, stmts, h3, ?_, rfl⟩
  rw [← h2]
  refine visitBlock_local _ fun p hp => ⟨fun n _ => ?_, fun n _ => ?_⟩
  · by_cases hy : n = y
    · subst hy; rw [h5, h6, Option.map_some, Option.map_some, h7]
    · rw [h4 n hy]
  · by_cases hy : n = y
    · subst hy; rw [h5, h6, Option.map_some, Option.map_some, h10]
    · rw [h4 n hy]
omit hs ha hs' ha' hal in
/-- If each copy is the same or fails in certain ways, then so does everything together. -/
theorem expansion_or {env : Env} {sv : Service} {X : Err → Prop}
    (hc : ∀ its, InForce a' its → ∀ items, items ++ definitions a' ∈ its → ∀ c, copyOf W env sv a'.block (items ++ definitions a') = .ok c →
      copyOf W env sv a.block (items ++ definitions a) = .ok c ∨ (∃ x, X x ∧ copyOf W env sv a.block (items ++ definitions a) = .err x) ∨
        copyOf W env sv a.block (items ++ definitions a) = .panic)
    {ts : Toks} (h : expansion W env sv (tree a') = .ok ts) :
    expansion W env sv (tree a) = .ok ts ∨ (∃ x, X x ∧ expansion W env sv (tree a) = .err x) ∨ expansion W env sv (tree a) = .panic := by
  have joined : ∀ {α : Type} {f g : α → Res Toks} {its : List α} {ts : Toks},
      (∀ i ∈ its, ∀ c, f i = .ok c → g i = .ok c ∨ (∃ x, X x ∧ g i = .err x) ∨ g i = .panic) → joinAll (its.map f) = .ok ts →
      joinAll (its.map g) = .ok ts ∨ (∃ x, X x ∧ joinAll (its.map g) = .err x) ∨ joinAll (its.map g) = .panic := by
    intro α f g its
    induction its with
    | nil => intro ts _ h; exact .inl h
    | cons i its ih =>
      intro ts hc h
      simp only [List.map_cons] at h ⊢
      cases hf : f i with
      | err e => rw [hf] at h; cases h
      | panic => rw [hf] at h; cases h
      | ok c =>
        rw [hf] at h
        simp only [joinAll] at h
        cases hj : joinAll (its.map f) with
        | err e => rw [hj] at h; cases h
        | panic => rw [hj] at h; cases h
        | ok t =>
          rw [hj] at h
          rcases hc i List.mem_cons_self c hf with hg | ⟨x, hx, hg⟩ | hg
          · rw [hg]
            simp only [joinAll]
            rcases ih (fun i hi => hc i (List.mem_cons_of_mem _ hi)) hj with hr | ⟨x, hx, hr⟩ | hr
            · rw [hr]; exact .inl h
            · rw [hr]; exact .inr (.inl ⟨x, hx, rfl⟩)
            · rw [hr]; exact .inr (.inr rfl)
          · rw [hg]; exact .inr (.inl ⟨x, hx, rfl⟩)
          · rw [hg]; exact .inr (.inr rfl)
  have hbd : loopBindings (tree a') = loopBindings (tree a) := by unfold loopBindings; rw [hl]
  unfold expansion at h ⊢
  rw [iterations_eq] at h ⊢
  rw [← hbd]
  cases hi : loopBindings (tree a') with
  | err e => rw [hi] at h; cases h
  | panic => rw [hi] at h; cases h
  | ok its =>
    rw [hi] at h
    have hin : InForce a' (its.map (· ++ definitions a')) := inForce_of_iterations (by rw [iterations_eq, hi]; rfl)
    replace hc := fun items hm => hc _ hin items (List.mem_map.2 ⟨items, hm, rfl⟩)
    simp only [Res.map, List.map_map] at h ⊢
    exact joined (f := copyOf W env sv a'.block ∘ (· ++ definitions a')) (g := copyOf W env sv a.block ∘ (· ++ definitions a)) (fun i hm c hcp => hc i hm c hcp) h

/-- **C103**, the converse: if in one definition `y = e` a call `to_x(e)` is added (under the conditions of `C103_partial`), then the same code comes out; or the cast is
refused, since in some iteration the tokens of `y` are not code of this kind; or the costs overflow. -/
theorem C103_converse_partial (hf : CodeCast f t) (hd : definitions a = d1 ++ (y, .call i f [e] raw) :: d2) (hd' : definitions a' = d1 ++ (y, e) :: d2)
    (hh : S "hash" ∉ calls e) (hu : y ∉ usedIn d2) (hn : ¬ ShownInBlock W.E.toCharClass y a.block) {ts : Toks} (h : output W hist' inv' l' = .tokens ts) :
    output W hist inv l = .tokens ts ∨
    (output W hist inv l = .compileError (.typeError (.cast .tokens t)) ∧
      ∃ its, InForce a' its ∧ ∃ defs ∈ its, ∃ vs v, outcome W.E (Env.builtin (l.ids 0)) defs = .ok vs ∧ List.lookup y vs = some v ∧ ¬ IsCode W.E t v.toTokens) ∨
    output W hist inv l = .panicked := by
  rw [setting_output hs' ha' hal, ofRes_tokens] at h
  rw [output_reads hs ha]
  have key := expansion_or (W := W) (env := Env.builtin (l.ids 0)) (sv := serviceFor (macroPrefix (firstOn hist inv)) (withSemicolons a.spec))
    (X := fun x => x = castError .tokens t ∧ ∃ its, InForce a' its ∧ ∃ defs ∈ its, ∃ vs v, outcome W.E (Env.builtin (l.ids 0)) defs = .ok vs ∧
      List.lookup y vs = some v ∧ ¬ IsCode W.E t v.toTokens) hl hb (by
    intro its hin items hm c hc
    obtain ⟨vs, stmts, h1, h2, rfl⟩ := copyOf_ok.1 hc
    have h1' := h1
    rw [hd', ← List.append_assoc] at h1
    rw [hd, ← List.append_assoc]
    rcases outcome_recast_post (E := W.E) (env := Env.builtin (l.ids 0)) (i := i) (raw := raw) rfl hf hh hu h1 with h3 | ⟨v, h3, ⟨w, ws, -, h4⟩ | ⟨-, h4, h5⟩⟩
    · exact .inr (.inr (by unfold copyOf; rw [h3]))
    · refine .inl (copyOf_ok.2 ⟨ws, stmts, h4, ?_, rfl⟩)
      obtain ⟨vs', k1, k2, v', w', k3, k4, k5, -⟩ := outcome_uncast_post (E := W.E) (env := Env.builtin (l.ids 0)) rfl hf hh hu h4
      rw [h1] at k1
      cases k1
      rw [← h2, hb]
      refine visitBlock_local _ fun p hp => ⟨fun n _ => ?_, fun n hm => ?_⟩
      · by_cases hy : n = y
        · subst hy; rw [k3, k4, Option.map_some, Option.map_some, k5]
        · rw [k2 n hy]
      · rw [k2 n]
        rintro rfl
        exact hn ⟨p, hp, hm⟩
    · refine .inr (.inl ⟨_, ⟨rfl, its, hin, _, hm, vs, v, h1', by rw [← get_eq_lookup]; exact h3, fun hk => ?_⟩, by unfold copyOf; rw [h5]⟩)
      cases hf with
      | tokens => cases h4
      | path => rw [show tryCast W.E (.tokens v.toTokens) .path = .ok _ from if_pos hk] at h4; cases h4
      | type => rw [show tryCast W.E (.tokens v.toTokens) .type = .ok _ from if_pos hk] at h4; cases h4
      | expr => rw [show tryCast W.E (.tokens v.toTokens) .expr = .ok _ from if_pos hk] at h4; cases h4) (ts := ts)
  rcases key h with h | ⟨x, ⟨rfl, hx⟩, h⟩ | h
  · exact .inl (by rw [h]; rfl)
  · exact .inr (.inl ⟨by rw [h]; rfl, hx⟩)
  · exact .inr (.inr (by rw [h]; rfl))

/-- **C103**, exactly: the cast invocation gives code if and only if the other one gives this code, in each iteration the tokens of `y` are code of the kind the cast
asks for, and the costs do not overflow. -/
theorem C103_exact (hf : CodeCast f t) (hd : definitions a = d1 ++ (y, .call i f [e] raw) :: d2) (hd' : definitions a' = d1 ++ (y, e) :: d2)
    (hh : S "hash" ∉ calls e) (hu : y ∉ usedIn d2) (hn : ¬ ShownInBlock W.E.toCharClass y a.block) (ts : Toks) :
    output W hist inv l = .tokens ts ↔ output W hist' inv' l' = .tokens ts ∧ output W hist inv l ≠ .panicked ∧
      ∀ its, InForce a' its → ∀ defs ∈ its, ∀ vs v, outcome W.E (Env.builtin (l.ids 0)) defs = .ok vs → List.lookup y vs = some v → IsCode W.E t v.toTokens := by
  constructor
  · intro h
    refine ⟨C103_partial hs ha hs' ha' hal hl hb hf hd hd' hh hu hn h, by rw [h]; simp, ?_⟩
    intro its hin defs hm vs v hv hl'
    rw [output_reads hs ha, ofRes_tokens, expansion_ok] at h
    obtain ⟨its0, h1, h2⟩ := h
    have hbd : loopBindings (tree a') = loopBindings (tree a) := by unfold loopBindings; rw [hl]
    have h3 := iterations_of_inForce hin
    rw [iterations_eq] at h1 h3
    rw [hbd] at h3
    cases hbs : loopBindings (tree a) with
    | err e => rw [hbs] at h1; cases h1
    | panic => rw [hbs] at h1; cases h1
    | ok bs =>
      rw [hbs] at h1 h3
      cases h1
      cases h3
      obtain ⟨items, hi, rfl⟩ := List.mem_map.1 hm
      obtain ⟨cs, h4, -⟩ := joinAll_ok h2
      have h5 : copyOf W (Env.builtin (l.ids 0)) (serviceFor (macroPrefix (firstOn hist inv)) (withSemicolons a.spec)) (tree a).block (items ++ definitions a) ∈
          cs.map Res.ok := by
        rw [← h4, List.map_map]
        exact List.mem_map.2 ⟨items, hi, rfl⟩
      obtain ⟨c, -, h6⟩ := List.mem_map.1 h5
      obtain ⟨ws, -, h7, -⟩ := copyOf_ok.1 h6.symm
      have hv' := hv
      change outcome W.E (Env.builtin (l.ids 0)) (items ++ definitions a') = _ at hv'
      rw [hd', ← List.append_assoc] at hv'
      rw [hd, ← List.append_assoc] at h7
      rw [← get_eq_lookup] at hl'
      rcases outcome_recast_post (E := W.E) (env := Env.builtin (l.ids 0)) (i := i) (raw := raw) rfl hf hh hu hv' with h8 | ⟨v', h8, ⟨w, ws, h9, -⟩ | ⟨-, -, h9⟩⟩
      · rw [h7] at h8; cases h8
      · rw [hl'] at h8
        cases h8
        cases hf with
        | tokens => trivial
        | path =>
          have h9 : (if W.E.isPath v.toTokens = true then Res.ok (VKind.path v.toTokens) else .err (castError .tokens .path)) = .ok w := h9
          by_cases hp : W.E.isPath v.toTokens = true
          · exact hp
          · rw [if_neg hp] at h9; cases h9
        | type =>
          have h9 : (if W.E.isType v.toTokens = true then Res.ok (VKind.type v.toTokens) else .err (castError .tokens .type)) = .ok w := h9
          by_cases hp : W.E.isType v.toTokens = true
          · exact hp
          · rw [if_neg hp] at h9; cases h9
        | expr =>
          have h9 : (if W.E.isExpr v.toTokens = true then Res.ok (VKind.expr v.toTokens) else .err (castError .tokens .expr)) = .ok w := h9
          by_cases hp : W.E.isExpr v.toTokens = true
          · exact hp
          · rw [if_neg hp] at h9; cases h9
      · rw [h7] at h9; cases h9
  · rintro ⟨h1, h2, h3⟩
    rcases C103_converse_partial hs ha hs' ha' hal hl hb hf hd hd' hh hu hn h1 with h | ⟨-, its, hin, defs, hm, vs, v, hv, hl', hk⟩ | h
    · exact h
    · exact absurd (h3 its hin defs hm vs v hv hl') hk
    · exact absurd h h2
end


/-! ## Why there are conditions -/

/-- A string literal without anything to escape. -/
def litTok (s : Str) : Tok := .lit (.str ('"' :: s ++ ['"']) s)

/-- `y = e, { b }`. -/
def uncastDemo (e b : Toks) : Toks := [id' "y", eq'] ++ e ++ [comma, brace b]

/-- `y = f(e), { b }`. -/
def recastDemo (f : String) (e b : Toks) : Toks := [id' "y", eq', id' f, paren e, comma, brace b]

/-- **C103**, full statement, is false where a string literal shows the alias: with `y = "b"`, `"%y%"` is `b` without quotes; with `y = to_expr("b")` the quotes are
shown. (With `y = Vec<u8>`, which is a path, `"%y%"` is `Vec`, and with `y = to_type(Vec<u8>)` it is `Vec < u8 >`, see `Lite/Findings`.) -/
theorem C103_text_false :
    output demoWorld [] (.compose (uncastDemo [litTok (c! "b")] [litTok (c! "%y%")])) (demoLuck 2 1) = .tokens [litTok (c! "b")] ∧
    output demoWorld [] (.compose (recastDemo "to_expr" [litTok (c! "b")] [litTok (c! "%y%")])) (demoLuck 2 1) = .tokens [litTok (c! "\"b\"")] := by
  decide +kernel

/-- `concat(hash("b"), 1)`. -/
def hashArg : Toks := [id' "concat", paren [id' "hash", paren [litTok (c! "b")], comma, .lit (.int (c! "1") 1)]]

/-- **C103**, full statement, is false for a hash of a string: `concat(hash("b"), 1)` is a name, but `to_tokens(concat(hash("b"), 1))` is a string literal followed by
`1`. The overload of `concat` that gives a name has to take the hash as a name. Without the cast that is cheaper than to take it as tokens; with the cast both cost the
same, and the overload with fewer parameters is preferred. -/
theorem C103_hash_false : ∃ n s : Str,
    output demoWorld [] (.compose (uncastDemo hashArg [id' "y"])) (demoLuck 2 1) = .tokens [.ident (c! "__" ++ n)] ∧
    output demoWorld [] (.compose (recastDemo "to_tokens" hashArg [id' "y"])) (demoLuck 2 1) = .tokens [litTok s, .lit (.int (c! "1") 1)] :=
  ⟨c! "180681326729791792721", c! "6974358769237588822", by decide +kernel, by decide +kernel⟩

/-- `y = e, z = concat(y, y), { z }`. -/
def laterDemo (e : Toks) : Toks :=
  [id' "y", eq'] ++ e ++ [comma, id' "z", eq', id' "concat", paren [id' "y", comma, id' "y"], comma, brace [id' "z"]]

/-- **C103**, full statement, is false where a later definition uses the alias: with `y = "b"`, `concat(y, y)` is the string `"bb"`; with `y = to_tokens("b")` it is
two strings. -/
theorem C103_used_false :
    output demoWorld [] (.compose (laterDemo [litTok (c! "b")])) (demoLuck 2 1) = .tokens [litTok (c! "bb")] ∧
    output demoWorld [] (.compose (laterDemo [id' "to_tokens", paren [litTok (c! "b")]])) (demoLuck 2 1) = .tokens [litTok (c! "b"), litTok (c! "b")] := by
  decide +kernel

/-! ## Examples -/

/-- `x = a, y = to_path(concat(x, b)), z = x, { y z "%z%" }`, with or without the cast. -/
def pathDemo (cast : Bool) : Toks :=
  let e := [id' "concat", paren [id' "x", comma, id' "b"]]
  [id' "x", eq', id' "a", comma, id' "y", eq'] ++ (if cast then [id' "to_path", paren e] else e) ++
    [comma, id' "z", eq', id' "x", comma, brace [id' "y", id' "z", litTok (c! "%z%")]]

example : output demoWorld [] (.compose (pathDemo true)) (demoLuck 2 1) = .tokens [id' "ab", id' "a", litTok (c! "a")] ∧
    output demoWorld [] (.compose (pathDemo false)) (demoLuck 2 1) = .tokens [id' "ab", id' "a", litTok (c! "a")] := by decide +kernel

example : ∃ d1 d2 i e raw, definitions (demoParse (pathDemo true)) = d1 ++ (c! "y", .call i (S "to_path") [e] raw) :: d2 ∧
    definitions (demoParse (pathDemo false)) = d1 ++ (c! "y", e) :: d2 ∧ S "hash" ∉ calls e ∧ c! "y" ∉ usedIn d2 :=
  ⟨[(c! "x", _)], [(c! "z", _)], _, _, _, rfl, rfl, by decide, by decide⟩

/-- A name in a placeholder is part of the text. -/
theorem inPlaceholder_chars {C : CharClass} {n s : Str} (h : InPlaceholder C n s) : ∀ c ∈ n, c ∈ s := by
  obtain ⟨pre, body, post, rfl, -, rfl⟩ := h
  intro c hc
  simp [(List.mem_filter.1 hc).1]

example : ¬ ShownInBlock demoWorld.E.toCharClass (c! "y") (demoParse (pathDemo true)).block := by
  rintro ⟨p, hp, h⟩
  revert h
  revert p
  show ∀ p ∈ [_], _
  simp only [List.mem_singleton, forall_eq, shown, shownTok, litTok, false_or, or_false]
  intro h
  exact absurd (inPlaceholder_chars h 'y' (by simp)) (by decide)

example : (tree (demoParse (pathDemo false))).loops = (tree (demoParse (pathDemo true))).loops ∧ (demoParse (pathDemo false)).block = (demoParse (pathDemo true)).block ∧
    Reads demoWorld (.compose (pathDemo true)) (demoParse (pathDemo true)) ∧ Reads demoWorld (.compose (pathDemo false)) (demoParse (pathDemo false)) ∧
    Scheduled demoWorld [] (.compose (pathDemo true)) (demoLuck 2 1) ∧ Scheduled demoWorld [] (.compose (pathDemo false)) (demoLuck 2 1) :=
  ⟨rfl, rfl, reads_of_parse (ids := fun k => k) (k := 0) rfl, reads_of_parse (ids := fun k => k) (k := 0) rfl, demo_scheduled _ _ (by decide +kernel),
    demo_scheduled _ _ (by decide +kernel)⟩

/-- A string is no path: the cast is refused, and without the cast there is code. -/
example : output demoWorld [] (.compose (uncastDemo [litTok (c! "b")] [id' "y"])) (demoLuck 2 1) = .tokens [litTok (c! "b")] ∧
    output demoWorld [] (.compose (recastDemo "to_path" [litTok (c! "b")] [id' "y"])) (demoLuck 2 1) = .compileError (.typeError (.cast .tokens .path)) ∧
    ¬ IsCode Ext.demo .path [litTok (c! "b")] := by
  refine ⟨by decide +kernel, by decide +kernel, fun h => ?_⟩
  exact absurd (show Ext.demo.isPath [litTok (c! "b")] = true from h) (by decide)

end Verif.Props
