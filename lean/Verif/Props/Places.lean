import Verif.Proofs.Located
import Verif.Model.Demo
/-! # C76: where errors point -/

namespace Verif.Props
open Verif Verif.Spec

/-- The definitions of some iteration of the invocation. -/
def Iteration (a : RawAst Alias Expr (List Stmt)) (defs : List (Alias × Expr)) : Prop :=
  ∃ brs, expand a = .ok brs ∧ ∃ br ∈ brs, br.spec.items = defs

variable {W : World} {seed : Nat} {orders : Orders} {cell : ThreadCell} {a : RawAst Alias Expr (List Stmt)} {x : Err} {p : Place}

/-- The outcomes with places are the outcomes of the model without. -/
theorem C76_same_outcome (W : World) (env : Env) (orders : Orders) (cell : ThreadCell) (a : RawAst Alias Expr (List Stmt)) :
    execute W env orders cell a = match executeL W env orders cell a with
      | .ok ts => .ok ts
      | .err x _ => .err x
      | .panic => .panic := by
  rw [← executeL_forget]
  cases executeL W env orders cell a <;> rfl

/-- All errors and their places. -/
theorem places (h : executeL W (Env.builtin seed) orders cell a = .err x p) :
    (∃ (loops : List (LoopAlias Alias × List (LoopSourceValue Expr))) (vals : List (LoopSourceValue Expr)) (i : Nat)
      (l : LoopAlias Alias × List (LoopSourceValue Expr)) (v : LoopSourceValue Expr) (w : Mismatch), a.loops = some loops ∧ vals ∈ combinations (loops.map (·.2)) ∧
      loops[i]? = some l ∧ vals[i]? = some v ∧ Unmatched l.1 v w ∧ x = .typeError w ∧ p = .loopValue v) ∨
    (∃ n r, x = .substitution n r ∧ p = .block) ∨
    ∃ defs, Iteration a defs ∧
    ((∃ al id name args raw, (al, .call id name args raw) ∈ defs ∧ p = .expr id ∧
      (x = .undefinedFunction name ∧ builtinFuncs name = none ∨ x = .signature ((Env.builtin seed).prettySig name) (showCall name args raw))) ∨
    (∃ pre al e post, defs = pre ++ (al, e) :: post ∧ x = .redefined al.2 ∧ p = .expr e.id ∧ al.2 ∈ pre.map (·.1.2)) ∨
    x = .internal ∨
    (∃ id name args raw fs f vs, StandsIn defs (.call id name args raw) ∧ builtinFuncs name = some fs ∧ f ∈ fs ∧
      (∃ sc vars es n, resolveSpec (Env.builtin seed) defs Scope.empty = .ok sc ∧ (es = args ∨ f.args = [.raw] ∧ ∃ i ts, es = [.value i (.raw ts)]) ∧
        mapRes (evalExpr W.E (Env.builtin seed) sc.md vars n) es = .ok vs) ∧ p = implPlace id x ∧
      (f.impl W.E seed vs = .err x ∨ ∃ v t, f.impl W.E seed vs = .ok v ∧ tryCast W.E v t = .err x))) := by
  simp only [executeL, LRes.bind_eq, LRes.bind_eq_err] at h
  rcases h with h | ⟨brs, hb, h⟩
  · exact .inl (expandL_err h)
  · right
    obtain ⟨k, br, hbr, h⟩ := executeAllL_err h
    simp only [executeBlockRewriteL, LRes.bind_eq, LRes.bind_eq_err] at h
    rcases h with h | ⟨subs, -, h⟩
    · refine .inr ⟨br.spec.items, ⟨brs, ?_, br, hbr, rfl⟩, makeSubstitutionsL_err h⟩
      rw [← expandL_forget, hb]; rfl
    · left
      obtain ⟨h1, rfl⟩ := LRes.at_eq_err.1 h
      obtain ⟨n, r, rfl⟩ := substitute_err h1
      exact ⟨n, r, rfl, rfl⟩

theorem mem_builtins {name : Str} {fs : List Func} {f : Func} (h : builtinFuncs name = some fs) (hf : f ∈ fs) : f ∈ builtins ∧ f.name = name := by
  unfold builtinFuncs at h
  split at h
  · cases h
  · cases h
    have := List.mem_filter.1 hf
    exact ⟨this.1, by simpa using this.2⟩

/-- An evaluation error is of one of two kinds. -/
theorem impl_errs {f : Func} (hf : f ∈ builtins) {vs : List VKind}
    (h : f.impl W.E seed vs = .err x ∨ ∃ v t, f.impl W.E seed vs = .ok v ∧ tryCast W.E v t = .err x) :
    (∃ frm to, x = .typeError (.cast frm to)) ∨ x = .evalError (vs.map VKind.toTokens) ∧ f.impl W.E seed vs = .err x ∧ f.args ≠ [.raw] := by
  rcases h with h | ⟨v, t, -, h⟩
  · cases builtins_fail hf h with
    | cast => exact .inl ⟨_, _, rfl⟩
    | concat id first rest =>
      refine .inr ⟨?_, h, by simp [concatIdentTokens]⟩
      simp [VKind.toTokens, Function.comp_def]
  · rcases tryCast_err h with rfl | ⟨rfl, -⟩ <;> exact .inl ⟨_, _, rfl⟩

/-- **C76**: a redefinition is reported at the value of a definition whose name an earlier definition of the same iteration has. -/
theorem C76_redefined {n : Str} (h : executeL W (Env.builtin seed) orders cell a = .err (.redefined n) p) :
    ∃ defs, Iteration a defs ∧ ∃ pre al e post, defs = pre ++ (al, e) :: post ∧ al.2 = n ∧ n ∈ pre.map (·.1.2) ∧ p = .expr e.id := by
  rcases places h with ⟨_, _, _, _, _, _, -, -, -, -, -, h, -⟩ | ⟨_, _, h, -⟩ | ⟨defs, hd, h⟩
  · cases h
  · cases h
  · refine ⟨defs, hd, ?_⟩
    rcases h with ⟨al, id, name, args, raw, -, -, ⟨h, -⟩ | h⟩ | ⟨pre, al, e, post, h1, h2, h3, h4⟩ | h | ⟨id, name, args, raw, fs, f, vs, -, hf, hm, -, -, h⟩
    · cases h
    · cases h
    · cases h2; exact ⟨pre, al, e, post, h1, rfl, h4, h3⟩
    · cases h
    · rcases impl_errs (mem_builtins hf hm).1 h with ⟨_, _, h⟩ | ⟨h, -⟩ <;> cases h

/-- **C76**: a call which fits no overload is reported at a call which is the whole value of a definition, and the message shows that call. -/
theorem C76_signature {sig : Str} {call : Text} (h : executeL W (Env.builtin seed) orders cell a = .err (.signature sig call) p) :
    ∃ defs, Iteration a defs ∧ ∃ al id name args raw, (al, .call id name args raw) ∈ defs ∧ call = showCall name args raw ∧ p = .expr id := by
  rcases places h with ⟨_, _, _, _, _, _, -, -, -, -, -, h, -⟩ | ⟨_, _, h, -⟩ | ⟨defs, hd, h⟩
  · cases h
  · cases h
  · refine ⟨defs, hd, ?_⟩
    rcases h with ⟨al, id, name, args, raw, h1, h2, ⟨h, -⟩ | h⟩ | ⟨pre, al, e, post, h1, h2, h3, h4⟩ | h | ⟨id, name, args, raw, fs, f, vs, -, hf, hm, -, -, h⟩
    · cases h
    · cases h; exact ⟨al, id, name, args, raw, h1, rfl, h2⟩
    · cases h2
    · cases h
    · rcases impl_errs (mem_builtins hf hm).1 h with ⟨_, _, h⟩ | ⟨h, -⟩ <;> cases h

/-- **C76**: a concatenation which is no identifier is reported at the very call whose arguments have the values shown in the message, however
deep it stands: its own arguments can be evaluated, and the function refuses their values. -/
theorem C76_concat {args : List Toks} (h : executeL W (Env.builtin seed) orders cell a = .err (.evalError args) p) :
    ∃ defs, Iteration a defs ∧ ∃ id name es raw, StandsIn defs (.call id name es raw) ∧ p = .expr id ∧
      ∃ f ∈ builtins, f.name = name ∧ ∃ vs, (∃ sc vars n, resolveSpec (Env.builtin seed) defs Scope.empty = .ok sc ∧
          mapRes (evalExpr W.E (Env.builtin seed) sc.md vars n) es = .ok vs) ∧
        f.impl W.E seed vs = .err (.evalError args) ∧ args = vs.map VKind.toTokens := by
  rcases places h with ⟨_, _, _, _, _, _, -, -, -, -, -, h, -⟩ | ⟨_, _, h, -⟩ | ⟨defs, hd, h⟩
  · cases h
  · cases h
  · refine ⟨defs, hd, ?_⟩
    rcases h with ⟨al, id, name, args, raw, h1, h2, ⟨h, -⟩ | h⟩ | ⟨pre, al, e, post, h1, h2, h3, h4⟩ | h | ⟨id, name, es, raw, fs, f, vs, hs, hf, hm, he, hp, h⟩
    · cases h
    · cases h
    · cases h2
    · cases h
    · obtain ⟨hb, hn⟩ := mem_builtins hf hm
      rcases impl_errs hb h with ⟨_, _, h⟩ | ⟨h1, h2, h3⟩
      · cases h
      · cases h1
        obtain ⟨sc, vars, es', n, h4, rfl | ⟨h5, -⟩, h6⟩ := he
        · exact ⟨id, name, es', raw, hs, hp, f, hb, hn, vs, ⟨sc, vars, n, h4, h6⟩, h2, rfl⟩
        · exact absurd h5 h3

/-- **C76**: a loop value which does not match its variable is reported at that value. -/
theorem C76_loops {w : Mismatch} (hw : w = .tupleSize ∨ w = .tupleShape ∨ w = .loopKind)
    (h : executeL W (Env.builtin seed) orders cell a = .err (.typeError w) p) :
    ∃ (loops : List (LoopAlias Alias × List (LoopSourceValue Expr))) (vals : List (LoopSourceValue Expr)) (i : Nat)
      (l : LoopAlias Alias × List (LoopSourceValue Expr)) (v : LoopSourceValue Expr), a.loops = some loops ∧ vals ∈ combinations (loops.map (·.2)) ∧
      loops[i]? = some l ∧ vals[i]? = some v ∧ Unmatched l.1 v w ∧ p = .loopValue v := by
  rcases places h with ⟨ls, vals, i, l, v, w', h1, h2, h3, h4, h5, h6, h7⟩ | ⟨_, _, h, -⟩ | ⟨defs, hd, h⟩
  · cases h6; exact ⟨ls, vals, i, l, v, h1, h2, h3, h4, h5, h7⟩
  · cases h
  · exfalso
    rcases h with ⟨al, id, name, args, raw, h1, h2, ⟨h, -⟩ | h⟩ | ⟨pre, al, e, post, h1, h2, h3, h4⟩ | h | ⟨id, name, es, raw, fs, f, vs, hs, hf, hm, he, hp, h⟩
    · cases h
    · cases h
    · cases h2
    · cases h
    · rcases impl_errs (mem_builtins hf hm).1 h with ⟨_, _, h⟩ | ⟨h, -⟩
      · cases h; rcases hw with h | h | h <;> cases h
      · cases h

/-- **C76**: a failed substitution is reported inside the block. -/
theorem C76_substitution {n r : Str} (h : executeL W (Env.builtin seed) orders cell a = .err (.substitution n r) p) : p = .block := by
  rcases places h with ⟨_, _, _, _, _, _, -, -, -, -, -, h, -⟩ | ⟨_, _, -, h⟩ | ⟨defs, hd, h⟩
  · cases h
  · exact h
  · exfalso
    rcases h with ⟨al, id, name, args, raw, -, -, ⟨h, -⟩ | h⟩ | ⟨pre, al, e, post, -, h, -, -⟩ | h | ⟨id, name, args, raw, fs, f, vs, -, hf, hm, -, -, h⟩
    · cases h
    · cases h
    · cases h
    · cases h
    · rcases impl_errs (mem_builtins hf hm).1 h with ⟨_, _, h⟩ | ⟨h, -⟩ <;> cases h

/-- **C76**: a failed cast is reported where `syn` stopped reading the tokens. -/
theorem C76_cast {frm to : Ty} (h : executeL W (Env.builtin seed) orders cell a = .err (.typeError (.cast frm to)) p) : p = .syn := by
  rcases places h with ⟨_, _, _, l, _, _, -, -, -, -, h, h', -⟩ | ⟨_, _, h, -⟩ | ⟨defs, hd, h⟩
  · cases h'
    generalize l.1 = al at h
    cases h
  · cases h
  · rcases h with ⟨al, id, name, args, raw, -, -, ⟨h, -⟩ | h⟩ | ⟨pre, al, e, post, -, h, -, -⟩ | h | ⟨id, name, args, raw, fs, f, vs, -, hf, hm, -, h, -⟩
    · cases h
    · cases h
    · cases h
    · cases h
    · exact h

/-- **C76**: no error (but an internal one, of which C65 says there is none) points to the invocation as a whole. -/
theorem C76_never_whole (hx : x ≠ .internal) (h : executeL W (Env.builtin seed) orders cell a = .err x p) : p ≠ .callSite := by
  rintro rfl
  rcases places h with ⟨_, _, _, _, _, _, -, -, -, -, -, -, h⟩ | ⟨_, _, -, h⟩ | ⟨defs, hd, h⟩
  · cases h
  · cases h
  · rcases h with ⟨al, id, name, args, raw, h1, h, -⟩ | ⟨pre, al, e, post, h1, h2, h, h4⟩ | h | ⟨id, name, es, raw, fs, f, vs, hs, hf, hm, -, h, -⟩
    · cases h
    · cases h
    · exact hx h
    · unfold implPlace at h
      split at h <;> cases h

/-- An invocation without loops. -/
def justDefs (items : List (Alias × Expr)) : RawAst Alias Expr (List Stmt) := ⟨none, some ⟨items, some true⟩, []⟩

-- `A = x, A = y`: at `y`
example (W : World) : executeL W (Env.builtin 0) (fun _ => id) none
    (justDefs [((0, c! "A"), .value 1 (.ident (c! "x"))), ((2, c! "A"), .value 3 (.ident (c! "y")))]) = .err (.redefined (c! "A")) (.expr 3) := rfl

-- `A = upper(x, y)`: at `upper`
example (W : World) : ∃ sig call, executeL W (Env.builtin 0) (fun _ => id) none
    (justDefs [((0, c! "A"), .call 1 (c! "upper") [.value 2 (.ident (c! "x")), .value 3 (.ident (c! "y"))] none)]) = .err (.signature sig call) (.expr 1) := ⟨_, _, rfl⟩

-- `A = lower(concat(x, +))`: at `concat`
example (Y : Syn) (sites : Sites) : ∃ args, executeL ⟨Ext.demo, Y, sites⟩ (Env.builtin 0) (fun _ => id) none
    (justDefs [((0, c! "A"), .call 1 (c! "lower") [.call 2 (c! "concat") [.value 3 (.ident (c! "x")), .value 4 (.tokens [.punct '+' false])] none] none)]) =
      .err (.evalError args) (.expr 2) := ⟨_, rfl⟩

-- `for (A, B) in [x]`: at `x`
example (W : World) : executeL W (Env.builtin 0) (fun _ => id) none
    ⟨some [(.tuple [.val (0, c! "A"), .val (1, c! "B")], [.value (.value 2 (.ident (c! "x")))])], none, []⟩ =
      .err (.typeError .loopKind) (.loopValue (.value (.value 2 (.ident (c! "x"))))) := rfl

/-- `A = lower(upper(x, y))` -/
def nestedCall : List (Alias × Expr) :=
  [((0, c! "A"), .call 1 (c! "lower") [.call 2 (c! "upper") [.value 3 (.ident (c! "x")), .value 4 (.ident (c! "y"))] none] none)]

/-- **C76**: a call which fits no overload because an argument of it fits none itself is reported at the outer call: in `lower(upper(x, y))` it is
`upper` which takes one argument only, and the error points to `lower`. -/
theorem C76_innermost_false (E : Ext) : ∃ (defs : List (Alias × Expr)) (outer inner : Expr) (t : Text) (sig sig' : Str),
    StandsIn defs outer ∧ (∃ id name raw, outer = .call id name [inner] raw) ∧
    makeSubstitutionsL E (Env.builtin 0) id defs = .err (.signature sig t) (.expr outer.id) ∧
    (∃ t', inner.resolveL (Env.builtin 0) none Scope.empty = .err (.signature sig' t') (.expr inner.id)) := by
  refine ⟨nestedCall, _, _, _, _, _, .value List.mem_cons_self, ⟨_, _, _, rfl⟩, rfl, _, rfl⟩

end Verif.Props
