import Verif.Proofs.NormalizeValue
import Verif.Props.Flatten
import Verif.Props.Commas
/-!
# Property C98: `normalize2` of a value, and `normalize`

`normalize(…)` sees its argument as it is written. `normalize2(…)` evaluates it first. For a value which stands for itself this should be no difference.
-/

namespace Verif.Props
open Verif Spec

/-! ## Exchanging parts of definitions -/

theorem copyOf_alike {W : World} {env : Env} {sv : Service} {b : List Stmt} {ds ds' : List (Str × Expr)}
    (h : blurR (outcome W.E env ds) = blurR (outcome W.E env ds')) : blurR (copyOf W env sv b ds) = blurR (copyOf W env sv b ds') := by
  unfold copyOf
  rcases blurR_cases h with h | ⟨x, y, h1, h2, h3⟩
  · rw [h]
  · rw [h1, h2]; simp only [blurR, h3]

theorem joinAll_alike {α : Type} {f g : α → Res Toks} : ∀ {its : List α}, (∀ i ∈ its, blurR (f i) = blurR (g i)) →
    blurR (joinAll (its.map f)) = blurR (joinAll (its.map g))
  | [], _ => rfl
  | i :: its, h => by
    have ih := joinAll_alike fun j hj => h j (List.mem_cons_of_mem _ hj)
    have hi := h i List.mem_cons_self
    simp only [List.map_cons]
    rcases blurR_cases hi with hi | ⟨x, y, h1, h2, h3⟩
    · rw [hi]
      cases g i with
      | err e => rfl
      | panic => rfl
      | ok ts =>
        simp only [joinAll]
        rcases blurR_cases ih with ih | ⟨x, y, h1, h2, h3⟩
        · rw [ih]
        · rw [h1, h2]; simp only [Res.map, blurR, h3]
    · rw [h1, h2]; simp only [joinAll, blurR, h3]

/-- `s` is not an alias, in no iteration. -/
def NoAlias (a : PAst) (s : Str) : Prop := ∀ its, InForce a its → ∀ ds ∈ its, ∀ d ∈ ds, d.1 ≠ s

theorem exchangedDefs_append {B : Expr → Expr → Prop} {ds ds' : List (Str × Expr)} (h : ExchangedDefs B ds ds') :
    ∀ items : List (Str × Expr), ExchangedDefs B (items ++ ds) (items ++ ds')
  | [] => h
  | (n, e) :: items => .cons n (.same e) (exchangedDefs_append h items)

/-- Parts of definitions may be exchanged for interchangeable ones. -/
theorem output_exchanged {W : World} {hist hist' : List (Invocation × Luck)} {inv inv' : Invocation} {l l' : Luck} {a a' : PAst}
    (hs : Scheduled W hist inv l) (ha : Reads W inv a) (hs' : Scheduled W hist' inv' l') (ha' : Reads W inv' a')
    (hal : SameSetting hist inv l a hist' inv' l' a') (hl : (tree a').loops = (tree a).loops) (hb : a'.block = a.block)
    {B : Expr → Expr → Prop} (hB : ∀ e e', B e e' → Interchangeable W.E (l.ids 0) (NoAlias a) e e')
    (hd : ExchangedDefs B (definitions a) (definitions a')) :
    blurO (output W hist' inv' l') = blurO (output W hist inv l) := by
  rw [setting_output hs' ha' hal, output_reads hs ha]
  refine blurO_ofRes ?_
  have hbd : loopBindings (tree a') = loopBindings (tree a) := by unfold loopBindings; rw [hl]
  have hb' : (tree a').block = (tree a).block := hb
  unfold expansion
  rw [iterations_eq, iterations_eq, hbd, hb']
  cases hi : loopBindings (tree a) with
  | err e => rfl
  | panic => rfl
  | ok its =>
    have hin : InForce a (its.map (· ++ definitions a)) := inForce_of_iterations (by rw [iterations_eq, hi]; rfl)
    simp only [Res.map, List.map_map]
    refine joinAll_alike fun items hm => copyOf_alike (Eq.symm ?_)
    exact outcome_exchanged hB rfl (exchangedDefs_append hd items) fun d hd hF => hF _ hin _ (List.mem_map.2 ⟨items, hm, rfl⟩) d hd rfl

/-! ## Texts -/

/-- What is in front of the first letter or digit does not matter. -/
theorem normalize_cons {C : CharClass} (hu : C.alnum '_' = false) {c : Char} (hc : C.alnum c = false) (s : Str) : normalize C (c :: s) = normalize C s := by
  rw [normalize_eq hu, normalize_eq hu]
  unfold normalized
  rw [List.dropWhile_cons_of_pos (by simp [hc])]

/-- **C98**, strings exactly: the string as it is written (between double quotes, without escape sequences) and its contents give different names if and
only if the contents end with an underscore and have a letter or a digit in them. -/
theorem C98_string_exact {C : CharClass} (hu : C.alnum '_' = false) (hq : C.alnum '"' = false) (v : Str) :
    normalize C ('"' :: v ++ ['"']) ≠ normalize C v ↔ v.getLast? = some '_' ∧ ∃ c ∈ v, C.alnum c = true := by
  rw [List.cons_append, normalize_cons hu hq]
  exact C84_normalize_exact hu (by simp) (by simp [hq])

/-! ## Whole invocations -/

/-- **C98**, where the two texts (the tokens as they are printed; the contents of the value) have the same normal form: `normalize2(v)` may be written as
`normalize(v)`, in any definition and at any depth, if `v` is a value which stands for itself. The output is the same (apart from the quotation of a call in
an error message). (What is missing: `C98_false`.) -/
theorem C98_partial {W : World} {hist hist' : List (Invocation × Luck)} {inv inv' : Invocation} {l l' : Luck} {a a' : PAst}
    (hs : Scheduled W hist inv l) (ha : Reads W inv a) (hs' : Scheduled W hist' inv' l') (ha' : Reads W inv' a')
    (hal : SameSetting hist inv l a hist' inv' l' a') (hl : (tree a').loops = (tree a).loops) (hb : a'.block = a.block)
    (hd : ExchangedDefs (Denormalized W.E (NoAlias a)) (definitions a) (definitions a')) :
    blurO (output W hist' inv' l') = blurO (output W hist inv l) :=
  output_exchanged hs ha hs' ha' hal hl hb (fun _ _ => denormalized_interchangeable) hd

/-- **C98**, names, paths, types, expressions and tokens: nothing else is needed. -/
theorem C98_plain {E : Ext} (hE : PlainNames E) {F : Str → Prop} (i i' j : Nat) {ts : Toks} {k : VKind} (hw : Writes ts k) (hp : Plain k)
    (hk : ∀ s, k = .ident s → F s) (raw : Option (Nat × Toks)) (args : List Expr) (r : Nat) :
    Denormalized E F (.call i (S "normalize2") [.value j k] raw) (.call i' (S "normalize") args (some (r, ts))) := by
  refine .mk i i' j hw hk ?_
  cases hw with
  | ident s => rw [hE.render]; rfl
  | path | type | expr | tokens => rfl
  | str | nat | neg => cases hp

/-- **C98**, strings: without escape sequences, and not ending with an underscore. -/
theorem C98_string {E : Ext} (hu : E.alnum '_' = false) (hq : E.alnum '"' = false) {F : Str → Prop} (i i' j : Nat) {r v : Str}
    (hr : E.render [.lit (.str r v)] = '"' :: v ++ ['"']) (hv : v.getLast? ≠ some '_' ∨ ∀ c ∈ v, E.alnum c = false)
    (raw : Option (Nat × Toks)) (args : List Expr) (id : Nat) :
    Denormalized E F (.call i (S "normalize2") [.value j (.litStr r v)] raw) (.call i' (S "normalize") args (some (id, [.lit (.str r v)]))) := by
  refine .mk i i' j (.str r v) (fun s h => nomatch h) ?_
  have := (not_congr (C98_string_exact hu hq v)).2 (by
    rintro ⟨h1, c, h2, h3⟩
    rcases hv with h | h
    · exact h h1
    · rw [h c h2] at h3; cases h3)
  rw [hr]
  exact (Classical.not_not.1 this).symm

/-- **C98**, numbers: written with the digits of base ten, and nothing else. -/
theorem C98_number {E : Ext} {F : Str → Prop} (i i' j : Nat) {s : Str} {n : Nat} (hr : E.render [.lit (.int s n)] = Nat.toDigits 10 n)
    (raw : Option (Nat × Toks)) (args : List Expr) (id : Nat) :
    Denormalized E F (.call i (S "normalize2") [.value j (.litInt ⟨false, s, n⟩)] raw) (.call i' (S "normalize") args (some (id, [.lit (.int s n)]))) := by
  refine .mk i i' j (.nat s n) (fun s h => nomatch h) ?_
  rw [hr]
  rfl

/-- What a definition by `normalize2` of a value which stands for itself gives. -/
theorem outcome_normalize2 (E : Ext) (seed : Nat) (y : Str) (i j : Nat) {ts : Toks} {k : VKind} (hw : Writes ts k) (raw : Option (Nat × Toks)) :
    outcome E (Env.builtin seed) [(y, .call i (S "normalize2") [.value j k] raw)] =
      if E.lexIdent (normalize E.toCharClass (contents E k)) then .ok [(y, .ident (normalize E.toCharClass (contents E k)))] else .panic := by
  have hr : k.ty ≠ .raw := by cases hw <;> (intro h; cases h)
  have hk : natural (fun _ => none) k = k.ty := by cases k <;> rfl
  rcases check_normalize2 (i := i) (j := j) (raw := raw) hk hr none with ⟨h, -⟩ | ⟨co, -, h⟩
  · cases h
  have hv : TExpr.eval E seed (fun _ => none) (.val k k.ty) = .ok k := eval_free_val fun _ _ => rfl
  have he : TExpr.eval E seed (fun _ => none) (.call (normalize2For (normalize2Id k.ty) k.ty) [.val k k.ty] .ident) =
      newIdent E (normalize E.toCharClass (contents E k)) := by
    rw [TExpr.eval, TExpr.evalL, TExpr.evalL, hv]
    simp only [Res.bind_eq, Res.bind_ok, normalize2For, if_true, normalize2Text_contents, newIdent]
    split
    · rw [Res.bind_ok]; exact tryCast_refl rfl
    · rfl
  simp only [outcome, overflowsSpec, overflows_normalize2 hk, h, denote, checkSpec, Bool.false_or, Option.isSome_none, Bool.not_false, Bool.true_and,
    Bool.false_eq_true, if_false, evalSpecT, Env.builtin, he, Res.bind_eq, newIdent, Option.getD_none]
  split <;> rfl

/-- What a definition by `normalize` gives. -/
theorem outcome_normalize (E : Ext) (seed : Nat) (y : Str) (i : Nat) (args : List Expr) (r : Nat) (ts : Toks) :
    outcome E (Env.builtin seed) [(y, .call i (S "normalize") args (some (r, ts)))] =
      if E.lexIdent (normalize E.toCharClass (E.render ts)) then .ok [(y, .ident (normalize E.toCharClass (E.render ts)))] else .panic := by
  rcases check_normalize (Γ := fun _ => none) (i := i) (args := args) (r := r) (ts := ts) none with ⟨h, -⟩ | ⟨co, -, h⟩
  · cases h
  have hv : TExpr.eval E seed (fun _ => none) (.val (.raw ts) .raw) = .ok (.raw ts) := eval_free_val (k := .raw ts) fun _ _ => rfl
  have he : TExpr.eval E seed (fun _ => none) (.call (normalizeFunc 10) [.val (.raw ts) .raw] .ident) =
      newIdent E (normalize E.toCharClass (E.render ts)) := by
    rw [TExpr.eval, TExpr.evalL, TExpr.evalL, hv]
    simp only [Res.bind_eq, Res.bind_ok, normalizeFunc, newIdent]
    split
    · rw [Res.bind_ok]; exact tryCast_refl rfl
    · rfl
  simp only [outcome, overflowsSpec, overflows_normalize, h, denote, checkSpec, Bool.false_or, Option.isSome_none, Bool.not_false, Bool.true_and,
    Bool.false_eq_true, if_false, evalSpecT, Env.builtin, he, Res.bind_eq, newIdent, Option.getD_none]
  split <;> rfl

/-- **C98**, exactly: as the only definition, `y = normalize2(v)` and `y = normalize(v)` give the same if and only if the two texts have the same normal
form (or neither normal form is an identifier). -/
theorem C98_exact (E : Ext) (seed : Nat) (y : Str) (i i' j : Nat) {ts : Toks} {k : VKind} (hw : Writes ts k) (raw : Option (Nat × Toks)) (args : List Expr)
    (r : Nat) :
    outcome E (Env.builtin seed) [(y, .call i (S "normalize2") [.value j k] raw)] =
        outcome E (Env.builtin seed) [(y, .call i' (S "normalize") args (some (r, ts)))] ↔
      normalize E.toCharClass (contents E k) = normalize E.toCharClass (E.render ts) ∨
        E.lexIdent (normalize E.toCharClass (contents E k)) = false ∧ E.lexIdent (normalize E.toCharClass (E.render ts)) = false := by
  rw [outcome_normalize2 E seed y i j hw raw, outcome_normalize]
  cases h1 : E.lexIdent (normalize E.toCharClass (contents E k)) <;> cases h2 : E.lexIdent (normalize E.toCharClass (E.render ts)) <;>
    simp
  · intro h; rw [h, h2] at h1; cases h1
  · intro h; rw [h, h2] at h1; cases h1

/-! ## Examples -/

/-- `y = concat(x, f(…)), { y }` -/
def plainDemo (f : String) (t : Tok) : Toks := [id' "y", eq', id' "concat", paren [id' "x", comma, id' f, paren [t]], comma, brace [id' "y"]]

/-- `"a_"` -/
def underTok : Tok := .lit (.str (c! "\"a_\"") (c! "a_"))
/-- `"a\nb"` -/
def newlineTok : Tok := .lit (.str (c! "\"a\\nb\"") (c! "a\nb"))

/-- **C98**, full statement, which is false: `normalize("a_")` is `a_`, but `normalize2("a_")` is `a`; `normalize("a\nb")` is `a_nb`, but `normalize2("a\nb")` is
`a_b`; `normalize(0x10)` is `_0x10`, but `normalize2(0x10)` is `_16`. -/
theorem C98_false :
    output demoWorld [] (.compose (plainDemo "normalize" underTok)) (demoLuck 2 1) = .tokens [id' "xa_"] ∧
    output demoWorld [] (.compose (plainDemo "normalize2" underTok)) (demoLuck 2 1) = .tokens [id' "xa"] ∧
    output demoWorld [] (.compose (plainDemo "normalize" newlineTok)) (demoLuck 2 1) = .tokens [id' "xa_nb"] ∧
    output demoWorld [] (.compose (plainDemo "normalize2" newlineTok)) (demoLuck 2 1) = .tokens [id' "xa_b"] ∧
    output demoWorld [] (.compose (plainDemo "normalize" hexTok)) (demoLuck 2 1) = .tokens [id' "x_0x10"] ∧
    output demoWorld [] (.compose (plainDemo "normalize2" hexTok)) (demoLuck 2 1) = .tokens [id' "x_16"] := by
  decide +kernel

/-- `"a-b"` -/
def dashTok : Tok := .lit (.str (c! "\"a-b\"") (c! "a-b"))

theorem plainDemo_exchanged {t : Tok} {j : Nat} {k : VKind} {i i' : Nat} {raw : Option (Nat × Toks)} {args : List Expr} {r : Nat} {F : Str → Prop}
    (h : Denormalized Ext.demo F (.call i (S "normalize2") [.value j k] raw) (.call i' (S "normalize") args (some (r, [t])))) (c c' v : Nat)
    (raw1 raw2 : Option (Nat × Toks)) :
    ExchangedDefs (Denormalized Ext.demo F)
      [(S "y", .call c (S "concat") [.value v (.ident (S "x")), .call i (S "normalize2") [.value j k] raw] raw1)]
      [(S "y", .call c' (S "concat") [.value v (.ident (S "x")), .call i' (S "normalize") args (some (r, [t]))] raw2)] :=
  .cons _ (.call _ _ _ _ _ (by decide) (by decide) (.cons (.same _) (.cons (.here h) .nil))) .nil

example : ExchangedDefs (Denormalized demoWorld.E (NoAlias (demoParse (plainDemo "normalize2" dashTok))))
      (definitions (demoParse (plainDemo "normalize2" dashTok))) (definitions (demoParse (plainDemo "normalize" dashTok))) ∧
    (tree (demoParse (plainDemo "normalize" dashTok))).loops = (tree (demoParse (plainDemo "normalize2" dashTok))).loops ∧
    (demoParse (plainDemo "normalize" dashTok)).block = (demoParse (plainDemo "normalize2" dashTok)).block ∧
    Reads demoWorld (.compose (plainDemo "normalize2" dashTok)) (demoParse (plainDemo "normalize2" dashTok)) ∧
    Reads demoWorld (.compose (plainDemo "normalize" dashTok)) (demoParse (plainDemo "normalize" dashTok)) ∧
    Scheduled demoWorld [] (.compose (plainDemo "normalize2" dashTok)) (demoLuck 2 1) ∧
    Scheduled demoWorld [] (.compose (plainDemo "normalize" dashTok)) (demoLuck 2 1) ∧
    SameSetting [] (.compose (plainDemo "normalize2" dashTok)) (demoLuck 2 1) (demoParse (plainDemo "normalize2" dashTok))
      [] (.compose (plainDemo "normalize" dashTok)) (demoLuck 2 1) (demoParse (plainDemo "normalize" dashTok)) :=
  ⟨plainDemo_exchanged (C98_string (E := Ext.demo) (r := c! "\"a-b\"") (v := c! "a-b") (by decide) (by decide) _ _ _ rfl (.inl (by decide)) _ _ _) _ _ _ _ _,
    rfl, rfl,
    reads_of_parse (ids := fun k => k) (k := 0) rfl, reads_of_parse (ids := fun k => k) (k := 0) rfl,
    demo_scheduled _ _ (by decide +kernel), demo_scheduled _ _ (by decide +kernel), .inl rfl, rfl, .inl rfl⟩

example : output demoWorld [] (.compose (plainDemo "normalize2" dashTok)) (demoLuck 2 1) = .tokens [id' "xa_b"] ∧
    output demoWorld [] (.compose (plainDemo "normalize" dashTok)) (demoLuck 2 1) = .tokens [id' "xa_b"] := by decide +kernel

example : PlainNames demoWorld.E ∧ Writes [id' "B"] (.ident (S "B")) ∧ Plain (.ident (S "B")) ∧
    NoAlias (demoParse (plainDemo "normalize2" (id' "B"))) (S "B") := by
  refine ⟨demo_plain_names, .ident _, trivial, ?_⟩
  intro its hi ds hds d hd
  cases hi with
  | once =>
    cases List.mem_singleton.1 hds
    have : d.1 ∈ (definitions (demoParse (plainDemo "normalize2" (id' "B")))).map (·.1) := List.mem_map.2 ⟨d, hd, rfl⟩
    have hn : ∀ n ∈ (definitions (demoParse (plainDemo "normalize2" (id' "B")))).map (·.1), n ≠ S "B" := by decide
    exact hn _ this
  | each _ h => cases h

example : demoWorld.E.render [oneTok] = Nat.toDigits 10 1 := by decide

example : normalize CharClass.ascii ('"' :: S "a_" ++ ['"']) = S "a_" ∧ normalize CharClass.ascii (S "a_") = S "a" ∧
    CharClass.ascii.alnum '_' = false ∧ CharClass.ascii.alnum '"' = false := by decide

example : Writes [hexTok] (.litInt ⟨false, S "0x10", 16⟩) ∧ Ext.demo.lexIdent (normalize Ext.demo.toCharClass (Ext.demo.render [hexTok])) = true :=
  ⟨.nat _ _, by decide⟩

end Verif.Props
