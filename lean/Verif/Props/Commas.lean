import Verif.Proofs.Commas
import Verif.Proofs.Normalize
import Verif.Props.Whole
/-!
# Property C84: trailing commas

A comma after the last argument of a call, the last element of a tuple, or the last value of a loop.
-/

namespace Verif.Props
open Verif Spec

/-! ## Reading -/

/-- **C84**: a call means the same with a comma after its last argument; only the tokens between the parentheses are different (which only
`raw` and `normalize` look at). -/
theorem C84_call {known : Str → Bool} {Y : Syn} {n : Str} {u : Toks} {t : Tok} (ht : ∀ j, t ≠ .punct ',' j) (j : Bool) {id rid : Nat}
    {args : List Expr} {rest r : Toks} (hk : known n = true) (hn : n ∉ keywords) :
    ReadsExpr known Y (.ident n :: .group .paren (u ++ [t] ++ [.punct ',' j]) :: rest) (.call id n args (some (rid, u ++ [t] ++ [.punct ',' j]))) r ↔
      ReadsExpr known Y (.ident n :: .group .paren (u ++ [t]) :: rest) (.call id n args (some (rid, u ++ [t]))) r := by
  have hp := pieces_comma u ht j
  have hc := CallAt.of (known := known) (u ++ [t]) rest hk hn
  have hc' := CallAt.of (known := known) (u ++ [t] ++ [.punct ',' j]) rest hk hn
  constructor <;> intro h <;> cases h with
  | call _ _ h ha =>
    first
    | obtain ⟨-, -, rfl⟩ := callAt_unique hc' h; exact .call id rid hc (hp ▸ ha)
    | obtain ⟨-, -, rfl⟩ := callAt_unique hc h; exact .call id rid hc' (hp.symm ▸ ha)
  | dropped _ _ h hm he =>
    first
    | obtain ⟨-, -, rfl⟩ := callAt_unique hc' h; exact .dropped id rid hc (hp ▸ hm) he
    | obtain ⟨-, -, rfl⟩ := callAt_unique hc h; exact .dropped id rid hc' (hp.symm ▸ hm) he

theorem finalComma_iff {α : Type} {R : Toks → α → Toks → Prop} (hR : Steady R) {c c' : Toks} (h : FinalComma c c') {as : List α} :
    CommaList R c as ↔ CommaList R c' as :=
  ⟨commaList_final hR h, commaList_final hR (finalComma_symm h)⟩

/-- **C84**: a list of values, or of tuples of values, is the same with and without a comma after the last element. -/
theorem C84_values {known : Str → Bool} {Y : Syn} (h1 : IgnoresComma Y.path) (h2 : IgnoresComma Y.type) (h3 : IgnoresComma Y.expr) {c c' : Toks}
    (h : FinalComma c c') :
    (∀ vs, CommaList (ReadsElem (ReadsExpr known Y)) c vs ↔ CommaList (ReadsElem (ReadsExpr known Y)) c' vs) ∧
    ∀ as, CommaList (ReadsTup (ReadsExpr known Y)) c as ↔ CommaList (ReadsTup (ReadsExpr known Y)) c' as :=
  ⟨fun _ => finalComma_iff (steady_elem (steady_expr h1 h2 h3)) h, fun _ => finalComma_iff (steady_tup (steady_expr h1 h2 h3)) h⟩

/-- **C84**: and so is a tuple of aliases, whatever the grammar of Rust is. -/
theorem C84_aliases {c c' : Toks} (h : FinalComma c c') (as : List (PTup Alias)) :
    CommaList (ReadsTup ReadsAlias) c as ↔ CommaList (ReadsTup ReadsAlias) c' as := finalComma_iff (steady_tup steady_alias) h

/-! ## Whole invocations -/

theorem reads_rewrites {W : World} (h1 : IgnoresComma W.Y.path) (h2 : IgnoresComma W.Y.type) (h3 : IgnoresComma W.Y.expr)
    (g1 : StopsBeforeComma W.Y.path) (g2 : StopsBeforeComma W.Y.type) (g3 : StopsBeforeComma W.Y.expr)
    {ls ls' : List (Tok × Toks)} (hl : RewritesLoops ls ls') {ts ts' : Toks} (hd : RewritesDefs isBuiltin W.Y ts ts') {inv inv' : Invocation}
    (hi : Replaced (loopsText ls ++ ts) (loopsText ls' ++ ts') inv inv') {a : PAst} (h : Reads W inv a) :
    ∃ a', Reads W inv' a' ∧ a'.loops = a.loops ∧ a'.block = a.block ∧ a'.spec.map specText = a.spec.map specText := by
  cases hi with
  | compose => exact input_rewrites h1 h2 h3 g1 g2 g3 hl hd h
  | composeIdents => exact input_rewrites h1 h2 h3 g1 g2 g3 hl hd h
  | composeItem item =>
    obtain ⟨h, hb⟩ := h
    obtain ⟨a', h4, h5, h6, h7⟩ := attr_rewrites h1 h2 h3 g1 g2 g3 hl hd h
    refine ⟨{ a' with block := a.block }, ⟨?_, hb⟩, h5, rfl, h7⟩
    cases a'
    simp only at h6
    subst h6
    exact h4

theorem blurO_ofRes {r r' : Res Toks} (h : blurR r = blurR r') : blurO (.ofRes r) = blurO (.ofRes r') := by
  rcases blurR_cases h with rfl | ⟨x, y, rfl, rfl, h'⟩
  · rfl
  · simp only [Output.ofRes, blurO, h']

theorem replaced_symm {ts ts' : Toks} {inv inv' : Invocation} (h : Replaced ts ts' inv inv') : Replaced ts' ts inv' inv := by
  cases h <;> constructor

/-- **C84**, except for the functions which get their tokens as they are: commas after the last value of loops, after the last alias of
tuples, and after the last argument of calls which are the values of definitions, and of calls among their arguments at any depth, do not
matter. Values which are not calls may stand between them, if they end at the same comma in both. The output is the same (apart from the quotation of a call in an error message). -/
theorem C84_partial {W : World} (h1 : IgnoresComma W.Y.path) (h2 : IgnoresComma W.Y.type) (h3 : IgnoresComma W.Y.expr)
    (g1 : StopsBeforeComma W.Y.path) (g2 : StopsBeforeComma W.Y.type) (g3 : StopsBeforeComma W.Y.expr)
    {ls ls' : List (Tok × Toks)} (hl : RewritesLoops ls ls') {ts ts' : Toks} (hd : RewritesDefs isBuiltin W.Y ts ts')
    {hist hist' : List (Invocation × Luck)} {inv inv' : Invocation} {l l' : Luck} (hi : Replaced (loopsText ls ++ ts) (loopsText ls' ++ ts') inv inv')
    (hs : Scheduled W hist inv l) (hs' : Scheduled W hist' inv' l') (hseed : l'.ids 0 = l.ids 0)
    (hpre : macroPrefix (firstOn hist' inv') = macroPrefix (firstOn hist inv)) :
    blurO (output W hist' inv' l') = blurO (output W hist inv l) := by
  by_cases h : ∃ a, Reads W inv a
  · obtain ⟨a, ha⟩ := h
    obtain ⟨a', ha', h4, h5, h6⟩ := reads_rewrites h1 h2 h3 g1 g2 g3 hl hd hi ha
    rw [output_reads hs ha, output_reads hs' ha', hseed, hpre]
    have hw : withSemicolons a'.spec = withSemicolons a.spec := by
      cases h : a.spec with
      | none =>
        rw [h] at h6
        cases h' : a'.spec with
        | none => rfl
        | some s => rw [h'] at h6; cases h6
      | some s =>
        rw [h] at h6
        cases h' : a'.spec with
        | none => rw [h'] at h6; cases h6
        | some s' =>
          rw [h'] at h6
          obtain ⟨id, items, c⟩ := s
          obtain ⟨id', items', c'⟩ := s'
          simp [specText] at h6
          rw [h6.2]
          cases c with
          | none => rfl
          | some b => cases b <;> rfl
    rw [hw]
    refine blurO_ofRes ?_
    rw [← expansion_unquoted (W := W) (env := Env.builtin (l.ids 0)) rfl (tree a'), tree_unquoted h4 h5 h6, expansion_unquoted rfl]
  · have h' : ∀ a, ¬ Reads W inv' a := fun a' ha' => by
      obtain ⟨a, ha, -⟩ := reads_rewrites h1 h2 h3 g1 g2 g3 (rewritesLoops_symm hl) (rewritesDefs_symm hd) (replaced_symm hi) ha'
      exact h ⟨a, ha⟩
    rw [output_unread hs fun a ha => h ⟨a, ha⟩, output_unread hs' h']

/-- **C84**: `normalize` does not mind the comma either, if the text before it does not end with an underscore. -/
theorem C84_normalize {C : CharClass} (hu : C.alnum '_' = false) {s e : Str} (hs : s.getLast? ≠ some '_') (he : ∀ c ∈ e, C.alnum c = false ∧ c ≠ '_') :
    normalize C (s ++ e) = normalize C s := by
  have hk : ∀ c ∈ e, keepable C c = false := fun c hc => by simp [keepable, he c hc]
  have hsq : ∀ (e : Str), (∀ c ∈ e, keepable C c = false) → ∀ (xs : Str) (p : Bool), squeeze C p (xs ++ e) = squeeze C p xs := by
    intro e hk xs
    induction xs with
    | nil =>
      intro p
      induction e generalizing p with
      | nil => rfl
      | cons c e ih =>
        have := ih (fun d hd => hk d (List.mem_cons_of_mem _ hd)) true
        simpa [squeeze, hk c List.mem_cons_self] using this
    | cons x xs ih => intro p; simp only [List.cons_append, squeeze, ih]
  have htrim : ∀ (xs : Str) (c : Char), C.alnum c = false → trimLast C (xs ++ [c]) = xs := by
    intro xs c hc
    induction xs with
    | nil => simp [trimLast, hc]
    | cons x xs ih =>
      cases xs with
      | nil => simp [trimLast, hc]
      | cons y xs => simpa [trimLast] using ih
  rw [normalize_eq hu, normalize_eq hu]
  rcases List.eq_nil_or_concat e with rfl | ⟨e', l, rfl⟩
  · simp
  simp only [List.concat_eq_append] at *
  have hl := he l (by simp)
  unfold normalized
  cases hd : s.dropWhile (fun c => !C.alnum c) with
  | nil =>
    have : (s ++ (e' ++ [l])).dropWhile (fun c => !C.alnum c) = [] := by
      rw [List.dropWhile_append, hd]
      simp only [List.isEmpty_nil, if_true]
      generalize e' ++ [l] = e at he
      induction e with
      | nil => rfl
      | cons c e ih => simpa [(he c List.mem_cons_self).1] using ih fun d hd => he d (List.mem_cons_of_mem _ hd)
    rw [this]
  | cons c cs =>
    have : (s ++ (e' ++ [l])).dropWhile (fun c => !C.alnum c) = c :: (cs ++ (e' ++ [l])) := by
      rw [List.dropWhile_append, hd]
      simp
    rw [this]
    simp only
    congr 2
    rw [← List.append_assoc, htrim _ _ hl.1, hsq e' (fun c hc => hk c (by simp [hc]))]
    obtain ⟨p, hp⟩ := dropWhile_suffix (C := C) s
    rcases trimLast_cases (C := C) cs with ⟨h4, -⟩ | ⟨x, h4, h5⟩
    · rw [h4]
    · conv => lhs; rw [h5]
      refine hsq [x] (fun d hd => ?_) _ _
      rw [List.mem_singleton] at hd
      subst hd
      have : d ≠ '_' := by
        rintro rfl
        apply hs
        rw [hp, hd, h5, List.getLast?_append, List.getLast?_cons]
        simp
      simp [keepable, h4, this]

theorem squeeze_underscore {C : CharClass} : ∀ (xs : Str) (p : Bool), (squeeze C p xs).length < (squeeze C p (xs ++ ['_'])).length
  | [], p => by simp [squeeze, keepable]
  | x :: xs, p => by
    have h1 := squeeze_underscore (C := C) xs true
    have h2 := squeeze_underscore (C := C) xs false
    simp only [List.cons_append, squeeze]
    split
    · simp only [List.length_append, List.length_cons]; omega
    · exact h1

/-- **C84**, `normalize` exactly: the comma (or anything else that is neither a letter, a digit nor an underscore) after the text changes the result if and
only if the text ends with an underscore and has a letter or a digit in it. -/
theorem C84_normalize_exact {C : CharClass} (hu : C.alnum '_' = false) {s e : Str} (hne : e ≠ []) (he : ∀ c ∈ e, C.alnum c = false ∧ c ≠ '_') :
    normalize C (s ++ e) ≠ normalize C s ↔ s.getLast? = some '_' ∧ ∃ c ∈ s, C.alnum c = true := by
  constructor
  · intro h
    constructor
    · by_cases hs : s.getLast? = some '_'
      · exact hs
      · exact absurd (C84_normalize hu hs he) h
    · by_cases hc : ∃ c ∈ s, C.alnum c = true
      · exact hc
      · refine absurd ?_ h
        have hall : ∀ c ∈ s, C.alnum c = false := by
          intro c hm
          cases hv : C.alnum c with
          | false => rfl
          | true => exact absurd ⟨c, hm, hv⟩ hc
        have key : ∀ (xs : Str), (∀ c ∈ xs, C.alnum c = false) → normalize C xs = ['_'] := by
          intro xs hx
          rw [normalize_eq hu]
          unfold normalized
          have : xs.dropWhile (fun c => !C.alnum c) = [] := by
            induction xs with
            | nil => rfl
            | cons c xs ih => simpa [hx c List.mem_cons_self] using ih fun d hd => hx d (List.mem_cons_of_mem _ hd)
          rw [this]
        rw [key _ hall, key _ fun c hc => by rcases List.mem_append.1 hc with h | h; exact hall c h; exact (he c h).1]
  · rintro ⟨hs, a, ha, hal⟩ h
    obtain ⟨s', rfl⟩ := List.getLast?_eq_some_iff.1 hs
    obtain ⟨e', l, rfl⟩ : ∃ e' l, e = e' ++ [l] := by
      rcases List.eq_nil_or_concat e with h | ⟨e', l, h⟩
      · exact absurd h hne
      · exact ⟨e', l, by simpa using h⟩
    have ha' : a ∈ s' := by
      rcases List.mem_append.1 ha with h | h
      · exact h
      · simp only [List.mem_singleton] at h; subst h; rw [hu] at hal; cases hal
    rw [normalize_eq hu, normalize_eq hu] at h
    have hd : ∃ c cs, s'.dropWhile (fun c => !C.alnum c) = c :: cs := by
      cases hd : s'.dropWhile (fun c => !C.alnum c) with
      | cons c cs => exact ⟨c, cs, rfl⟩
      | nil =>
        exfalso
        clear hs ha h he hne
        induction s' with
        | nil => cases ha'
        | cons x s' ih =>
          rw [List.dropWhile_cons] at hd
          split at hd
          · rename_i hx
            rcases List.mem_cons.1 ha' with rfl | ha'
            · simp [hal] at hx
            · exact ih ha' hd
          · cases hd
    obtain ⟨c, cs, hd⟩ := hd
    have h1 : (s' ++ ['_']).dropWhile (fun c => !C.alnum c) = c :: (cs ++ ['_']) := by rw [List.dropWhile_append, hd]; simp
    have h2 : (s' ++ ['_'] ++ (e' ++ [l])).dropWhile (fun c => !C.alnum c) = c :: (cs ++ ['_'] ++ e' ++ [l]) := by
      rw [List.dropWhile_append, h1]; simp
    have htrim : ∀ (xs : Str) (c : Char), C.alnum c = false → trimLast C (xs ++ [c]) = xs := by
      intro xs c hc
      induction xs with
      | nil => simp [trimLast, hc]
      | cons x xs ih =>
        cases xs with
        | nil => simp [trimLast, hc]
        | cons y xs => simpa [trimLast] using ih
    unfold normalized at h
    rw [h1, h2] at h
    simp only [htrim _ _ hu, htrim _ _ (he l (by simp)).1] at h
    have h3 := squeeze_underscore (C := C) cs false
    have h4 : ∀ (xs ys : Str) (p : Bool), (squeeze C p xs).length ≤ (squeeze C p (xs ++ ys)).length := by
      intro xs ys
      induction xs with
      | nil => intro p; simp [squeeze]
      | cons x xs ih =>
        intro p
        have h1 := ih true
        have h2 := ih false
        simp only [List.cons_append, squeeze]
        split
        · simp only [List.length_append, List.length_cons]; omega
        · exact h1
    have h5 := h4 (cs ++ ['_']) e' false
    have := congrArg List.length h
    simp only [List.length_append, List.length_cons] at this
    omega

/-- **C84**, full statement, which is false: `raw` keeps the comma (it is documented to), and `normalize` keeps an underscore at the end if a
comma follows. -/
theorem C84_false : ∃ (f : String) (u : Toks) (out out' : Toks), isBuiltin (S f) = true ∧
    Replaced (loopsText [] ++ [id' "y", eq', id' f, paren u, comma, brace [id' "struct", id' "y", brace []]])
      (loopsText [] ++ [id' "y", eq', id' f, paren (u ++ [comma]), comma, brace [id' "struct", id' "y", brace []]])
      (.compose [id' "y", eq', id' f, paren u, comma, brace [id' "struct", id' "y", brace []]])
      (.compose [id' "y", eq', id' f, paren (u ++ [comma]), comma, brace [id' "struct", id' "y", brace []]]) ∧
    output demoWorld [] (.compose [id' "y", eq', id' f, paren u, comma, brace [id' "struct", id' "y", brace []]]) (demoLuck 2 1) = .tokens out ∧
    output demoWorld [] (.compose [id' "y", eq', id' f, paren (u ++ [comma]), comma, brace [id' "struct", id' "y", brace []]]) (demoLuck 2 1) =
      .tokens out' ∧ out ≠ out' := by
  refine ⟨"normalize", [id' "x_"], [id' "struct", id' "x", brace []], [id' "struct", id' "x_", brace []], by decide +kernel, .compose,
    by decide +kernel, by decide +kernel, by decide +kernel⟩

/-! ## Examples -/

theorem demoPath_comma : IgnoresComma demoPathLen := by
  intro u j
  fun_induction demoPathLen u with
  | case1 s ts h => simp only [List.cons_append, demoPathLen, h, if_true, true_and]; simp
  | case2 s ts h ih =>
    refine ⟨by simp only [List.cons_append, demoPathLen, h, if_false, ih.1]; simp, fun n hn => ?_⟩
    simp only [Option.map_eq_some_iff] at hn
    obtain ⟨m, h1, rfl⟩ := hn
    have := ih.2 m h1
    simp only [List.length_cons]
    omega
  | case3 s ts hno h =>
    refine ⟨?_, by simp⟩
    rw [List.cons_append, demoPathLen]
    · simp only [h, if_true, Bool.false_eq_true, if_false]
    · rintro r hr
      rcases ts with _ | ⟨t1, _ | ⟨t2, ts⟩⟩ <;> simp_all
  | case4 s ts hno h =>
    refine ⟨?_, by simp⟩
    rw [List.cons_append, demoPathLen]
    · simp only [h, if_true, Bool.false_eq_true, if_false]
    · rintro r hr
      rcases ts with _ | ⟨t1, _ | ⟨t2, ts⟩⟩ <;> simp_all
  | case5 u h1 h2 =>
    refine ⟨?_, by simp⟩
    cases u with
    | nil => rfl
    | cons t u =>
      cases t with
      | ident s => exact (h2 s u rfl).elim
      | _ => simp [demoPathLen]

theorem demoExpr_comma : IgnoresComma demoExprLen := by
  intro u j
  have hp := fun u => demoPath_comma u j
  cases u with
  | nil => exact ⟨rfl, by simp [demoExprLen, demoPathLen]⟩
  | cons t u =>
    by_cases hl : ∃ x, t = .lit x
    · obtain ⟨x, rfl⟩ := hl
      simp [demoExprLen]
    · have h : ∀ u, demoExprLen (t :: u) = (demoPathLen (t :: u)).map fun n => if demoParen ((t :: u).drop n) then n + 1 else n := by
        intro u
        cases t <;> first | rfl | exact (hl ⟨_, rfl⟩).elim
      rw [List.cons_append, h, h]
      have hq := hp (t :: u)
      rw [List.cons_append] at hq
      rw [hq.1]
      cases hn : demoPathLen (t :: u) with
      | none => simp
      | some n =>
        have hle := hq.2 n hn
        have hdrop : (t :: (u ++ [Tok.punct ',' j])).drop n = (t :: u).drop n ++ [.punct ',' j] := by
          rw [← List.cons_append, List.drop_append_of_le_length hle]
        have hpar : ∀ v : Toks, demoParen (v ++ [.punct ',' j]) = demoParen v := by
          intro v
          cases v with
          | nil => rfl
          | cons x v => cases x <;> try rfl
                        rename_i d _
                        cases d <;> rfl
        simp only [Option.map_some, hdrop, hpar, true_and, Option.some.injEq]
        intro m hm
        subst hm
        split
        · rename_i hd
          cases hv : (t :: u).drop n with
          | nil => rw [hv] at hd; cases hd
          | cons x v =>
            have := congrArg List.length hv
            simp only [List.length_drop, List.length_cons] at this hle ⊢
            omega
        · exact hle

theorem demoPath_stops : StopsBeforeComma demoPathLen := by
  intro u j r n
  rw [demoPathLen_stop _ (by simp) (by rintro c _ ⟨⟩; decide) r u, (demoPath_comma u j).1]
  exact ⟨fun h => ⟨(demoPath_comma u j).2 n h, h⟩, fun h _ => h⟩

theorem demoExpr_stops : StopsBeforeComma demoExprLen := by
  intro u j r n
  rw [demoExprLen_stop _ (by simp) (by rintro c _ ⟨⟩; decide) r u, (demoExpr_comma u j).1]
  exact ⟨fun h => ⟨(demoExpr_comma u j).2 n h, h⟩, fun h _ => h⟩

/-- `for (x, y) in [(a, b), (c, d)] w = p::q, z = concat(x, upper(y)), { struct z { w } }`, with and without commas everywhere. -/
def commasDemo (c : Toks) : List (Tok × Toks) × Toks :=
  ([(paren ([id' "x", comma, id' "y"] ++ c), [paren [id' "a", comma, id' "b"], comma, paren [id' "c", comma, id' "d"]] ++ c)],
    [id' "w", eq', id' "p", .punct ':' true, .punct ':' false, id' "q", comma,
      id' "z", eq', id' "concat", paren ([id' "x", comma, id' "upper", paren ([id' "y"] ++ c)] ++ c), comma, brace [id' "struct", id' "z", brace []]])

theorem commasDemo_value (ts : Toks) : ∃ e, ReadsExpr isBuiltin demoWorld.Y ([id' "p", .punct ':' true, .punct ':' false, id' "q"] ++ comma :: ts) e (comma :: ts) := by
  rcases (parseE_ok demoWorld.Y isBuiltin (fun k => k) ([id' "p", .punct ':' true, .punct ':' false, id' "q"] ++ comma :: ts) 0).cases
    with ⟨e, r, k', h1, g⟩ | ⟨_, _, _, h⟩
  · cases h1.symm.trans (rfl : parseE demoWorld.Y isBuiltin (fun k => k) _ 0 = _)
    exact ⟨_, g.reads⟩
  · exact h.elim

example : RewritesLoops (commasDemo []).1 (commasDemo [comma]).1 ∧ RewritesDefs isBuiltin demoWorld.Y (commasDemo []).2 (commasDemo [comma]).2 ∧
    IgnoresComma demoWorld.Y.path ∧ IgnoresComma demoWorld.Y.type ∧ IgnoresComma demoWorld.Y.expr ∧
    StopsBeforeComma demoWorld.Y.path ∧ StopsBeforeComma demoWorld.Y.type ∧ StopsBeforeComma demoWorld.Y.expr ∧
    Scheduled demoWorld [] (.compose (loopsText (commasDemo []).1 ++ (commasDemo []).2)) (demoLuck 2 1) ∧
    Scheduled demoWorld [] (.compose (loopsText (commasDemo [comma]).1 ++ (commasDemo [comma]).2)) (demoLuck 2 1) ∧
    output demoWorld [] (.compose (loopsText (commasDemo [comma]).1 ++ (commasDemo [comma]).2)) (demoLuck 2 1) =
      .tokens [id' "struct", id' "aB", brace [], id' "struct", id' "cD", brace []] := by
  refine ⟨?_, ?_, demoPath_comma, demoPath_comma, demoExpr_comma, demoPath_stops, demoPath_stops, demoExpr_stops,
    demo_scheduled _ _ (by decide +kernel), demo_scheduled _ _ (by decide +kernel), by decide +kernel⟩
  · exact .cons (.tuple (.added false ⟨[id' "x", comma], id' "y", rfl, by simp [id'], by simp [id']⟩)
      (.added false ⟨[paren [id' "a", comma, id' "b"], comma], paren [id' "c", comma, id' "d"], rfl, by simp [paren], by simp [paren]⟩)) .nil
  · refine .value (v := [id' "p", .punct ':' true, .punct ':' false, id' "q"]) (by decide +kernel) (commasDemo_value _) (commasDemo_value _) ?_
    refine .cons (v := [id' "concat", paren _]) (v' := [id' "concat", paren _]) (by decide +kernel)
      (.mk (by decide +kernel) (by decide +kernel) (.inr ⟨by decide +kernel, by decide +kernel⟩) ?_) (.comma false) (.same _)
    refine .cons (p := [id' "x"]) (.same _) (.cons (p := [id' "upper", paren [id' "y"]]) (p' := [id' "upper", paren [id' "y", comma]]) ?_ .nil)
    exact .call [] (by decide +kernel) (by decide +kernel) (by decide +kernel) (by decide +kernel) (.cons (p := [id' "y"]) (.same _) .nil)

example : (∀ j, id' "y" ≠ .punct ',' j) ∧ demoKnown (S "upper") = true ∧ S "upper" ∉ keywords := ⟨by simp [id'], by decide +kernel, by decide +kernel⟩

example : CharClass.ascii.alnum '_' = false ∧ S " ," ≠ [] ∧ (∀ c ∈ S " ,", CharClass.ascii.alnum c = false ∧ c ≠ '_') ∧
    (S "x_").getLast? = some '_' ∧ (∃ c ∈ S "x_", CharClass.ascii.alnum c = true) ∧ normalize CharClass.ascii (S "x_ ,") = S "x_" ∧
    normalize CharClass.ascii (S "x_") = S "x" ∧ normalize CharClass.ascii (S "__ ,") = normalize CharClass.ascii (S "__") := by decide +kernel

example : CharClass.ascii.alnum '_' = false ∧ (S "a b").getLast? ≠ some '_' ∧ (∀ c ∈ S " ,", CharClass.ascii.alnum c = false ∧ c ≠ '_') ∧
    normalize CharClass.ascii (S "a b ,") = S "a_b" := by decide +kernel

end Verif.Props
