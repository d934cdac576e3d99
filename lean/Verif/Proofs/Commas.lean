import Verif.Spec.Commas
import Verif.Proofs.Denote
import Verif.Proofs.OverflowCongr
import Verif.Proofs.Reference
import Verif.Proofs.ParseContext
import Verif.Proofs.Run
import Verif.Proofs.BeforeComma
/-! # Trailing commas -/

namespace Verif
open Spec

/-! ## Raw tokens of other functions -/

theorem raw_names : ∀ f ∈ builtins, f.args = [.raw] → f.name = S "raw" ∨ f.name = S "normalize" := by decide +kernel

theorem unquotedL_length (es : List Expr) : (unquotedL es).length = es.length := by
  induction es with
  | nil => rfl
  | cons e es ih => simp [unquotedL, ih]

theorem not_raw {name : Str} {fs : List Func} (hfs : builtinFuncs name = some fs) (h : ¬ (name = S "raw" ∨ name = S "normalize")) {f : Func}
    (hf : f ∈ fs) : f.args ≠ [.raw] := fun ha => by
  obtain ⟨h1, h2⟩ := (builtinFuncs_mem hfs).1 hf
  have := raw_names f h1 ha
  rw [h2] at this
  exact h this

theorem filterMap_alike {α β : Type} {f g : α → Option β} {l : List α} (h : ∀ x ∈ l, f x = g x) : l.filterMap f = l.filterMap g := by
  induction l with
  | nil => rfl
  | cons x l ih => simp only [List.filterMap_cons, h x List.mem_cons_self, ih fun y hy => h y (List.mem_cons_of_mem _ hy)]

theorem any_alike {α : Type} {f g : α → Bool} {l : List α} (h : ∀ x ∈ l, f x = g x) : l.any f = l.any g := by
  induction l with
  | nil => rfl
  | cons x l ih => simp only [List.any_cons, h x List.mem_cons_self, ih fun y hy => h y (List.mem_cons_of_mem _ hy)]

mutual
theorem check_unquoted {Γ : TyEnv} : ∀ (e : Expr) (expected : Option Ty),
    blurE (check builtinFuncs Γ (unquoted e) expected) = blurE (check builtinFuncs Γ e expected)
  | .value id k, _ => by simp only [unquoted]
  | .call id name args raw, expected => by
    have : (fun ps => checkArgs builtinFuncs Γ (unquotedL args) ps) = (fun ps => checkArgs builtinFuncs Γ args ps) := by
      funext ps
      exact checkArgs_unquoted args ps
    simp only [unquoted, check, unquotedL_length, this]
    cases hfs : builtinFuncs name with
    | none => rfl
    | some fs =>
      simp only
      have hu : fs.filterMap (usable (if name = S "raw" ∨ name = S "normalize" then raw else none) args.length expected
            fun ps => checkArgs builtinFuncs Γ args ps) =
          fs.filterMap (usable raw args.length expected fun ps => checkArgs builtinFuncs Γ args ps) := by
        split
        · rfl
        · rename_i h
          refine filterMap_alike fun f hf => ?_
          have := not_raw hfs h hf
          simp only [usable, this, if_false]
      rw [hu]
      cases best _ with
      | none => exact congrArg Except.error (blur_refusal _ _ _)
      | some ch => rfl
theorem checkArgs_unquoted {Γ : TyEnv} : ∀ (es : List Expr) (ps : List (Ty × Nat)),
    checkArgs builtinFuncs Γ (unquotedL es) ps = checkArgs builtinFuncs Γ es ps
  | [], _ => by simp only [unquotedL]
  | _ :: _, [] => by simp only [unquotedL, checkArgs]
  | e :: es, (t, m) :: ps => by
    simp only [unquotedL, checkArgs, checkArgs_unquoted es]
    rcases blurE_cases (check_unquoted (Γ := Γ) e (some t)) with ⟨p, h1, h2⟩ | ⟨x, y, h1, h2, -⟩ <;> rw [h1, h2]
end

theorem checkSpec_unquoted : ∀ (items : List (Str × Expr)) (Γ : TyEnv),
    blurE (checkSpec builtinFuncs (items.map (fun p => (p.1, unquoted p.2))) Γ) = blurE (checkSpec builtinFuncs items Γ)
  | [], _ => rfl
  | (n, e) :: items, Γ => by
    simp only [List.map_cons, checkSpec]
    rcases blurE_cases (check_unquoted (Γ := Γ) e none) with ⟨p, h1, h2⟩ | ⟨x, y, h1, h2, h3⟩
    · rw [h1, h2]
      simp only
      split
      · rfl
      · rcases blurE_cases (checkSpec_unquoted items (extend Γ n p.2.target)) with ⟨p, h1, h2⟩ | ⟨x, y, h1, h2, h3⟩
        · rw [h1, h2]
        · rw [h1, h2]; exact congrArg Except.error h3
    · rw [h1, h2]; exact congrArg Except.error h3

mutual
theorem overflows_unquoted {Γ : TyEnv} : ∀ (e : Expr) (expected : Option Ty),
    overflows builtinFuncs Γ (unquoted e) expected = overflows builtinFuncs Γ e expected
  | .value id k, _ => by simp only [unquoted]
  | .call id name args raw, expected => by
    simp only [unquoted, overflows, unquotedL_length, overflowsArgs_unquoted args]
    cases hfs : builtinFuncs name with
    | none => rfl
    | some fs =>
      simp only
      refine any_alike fun f hf => ?_
      by_cases h : name = S "raw" ∨ name = S "normalize"
      · simp only [h, if_true]
      · simp only [h, if_false, not_raw hfs h hf]
theorem overflowsArgs_unquoted {Γ : TyEnv} : ∀ (es : List Expr) (ps : List (Ty × Nat)) (c : Nat),
    overflowsArgs builtinFuncs Γ (unquotedL es) ps c = overflowsArgs builtinFuncs Γ es ps c
  | [], _, _ => by simp only [unquotedL]
  | _ :: _, [], _ => by simp only [unquotedL, overflowsArgs]
  | e :: es, (t, m) :: ps, c => by
    simp only [unquotedL, overflowsArgs, overflows_unquoted e, overflowsArgs_unquoted es]
    rcases blurE_cases (check_unquoted (Γ := Γ) e (some t)) with ⟨p, h1, h2⟩ | ⟨x, y, h1, h2, -⟩ <;> rw [h1, h2]
end

theorem overflowsSpec_unquoted : ∀ (items : List (Str × Expr)) (Γ : TyEnv),
    overflowsSpec builtinFuncs (items.map (fun p => (p.1, unquoted p.2))) Γ = overflowsSpec builtinFuncs items Γ
  | [], _ => rfl
  | (n, e) :: items, Γ => by
    simp only [List.map_cons, overflowsSpec, overflows_unquoted, overflowsSpec_unquoted items]
    rcases blurE_cases (check_unquoted (Γ := Γ) e none) with ⟨p, h1, h2⟩ | ⟨x, y, h1, h2, -⟩ <;> rw [h1, h2]

theorem outcome_unquoted {E : Ext} {env : Env} (henv : env.funcs = builtinFuncs) (items : List (Str × Expr)) :
    blurR (outcome E env (items.map fun p => (p.1, unquoted p.2))) = blurR (outcome E env items) := by
  unfold outcome denote
  rw [henv, overflowsSpec_unquoted]
  split
  · rfl
  · rcases blurE_cases (checkSpec_unquoted items fun _ => none) with ⟨p, h1, h2⟩ | ⟨x, y, h1, h2, h3⟩
    · rw [h1, h2]
    · rw [h1, h2]; simp only [blurR, h3]

theorem copyOf_unquoted {W : World} {env : Env} (henv : env.funcs = builtinFuncs) {sv : Service} {block : List Stmt} (items : List (Str × Expr)) :
    blurR (copyOf W env sv block (items.map fun p => (p.1, unquoted p.2))) = blurR (copyOf W env sv block items) := by
  unfold copyOf
  rcases blurR_cases (outcome_unquoted henv items) with h | ⟨x, y, h1, h2, h3⟩
  · rw [h]
  · rw [h1, h2]; simp only [blurR, h3]

theorem joinAll_blur {rs rs' : List (Res Toks)} (h : All2 (fun r r' => blurR r = blurR r') rs rs') : blurR (joinAll rs) = blurR (joinAll rs') := by
  induction h with
  | nil => rfl
  | @cons r r' rs rs' h hs ih =>
    rcases blurR_cases h with rfl | ⟨x, y, rfl, rfl, h3⟩
    · cases r with
      | ok ts =>
        simp only [joinAll]
        rcases blurR_cases ih with h | ⟨x, y, h1, h2, h3⟩
        · rw [h]
        · rw [h1, h2]; simp only [Res.map, blurR, h3]
      | err e => rfl
      | panic => rfl
    · simp only [joinAll, blurR, h3]

theorem expansion_unquoted {W : World} {env : Env} (henv : env.funcs = builtinFuncs) {sv : Service} (a : RawAst Str Expr (List Stmt)) :
    blurR (expansion W env sv (a.map (fun n => n) unquoted)) = blurR (expansion W env sv a) := by
  unfold expansion
  have hi : iterations (a.map (fun n => n) unquoted) = (iterations a).map (·.map (·.map fun p => (p.1, unquoted p.2))) := by
    unfold iterations
    rw [expand_map]
    cases expand a with
    | ok l => simp [Res.map, Function.comp_def, BlockRewrite.map, AliasSpec.map, mapItems]
    | err e => rfl
    | panic => rfl
  rw [hi]
  cases iterations a with
  | err e => rfl
  | panic => rfl
  | ok its =>
    simp only [Res.map]
    refine joinAll_blur ?_
    rw [List.map_map]
    have hb : (a.map (fun n => n) unquoted).block = a.block := rfl
    rw [hb]
    induction its with
    | nil => exact .nil
    | cons i its ih => exact .cons (copyOf_unquoted henv i) ih

/-! ## Arguments -/

theorem pieces_nil {ts : Toks} (h : pieces ts = []) : ts = [] := by
  cases ts with
  | nil => rfl
  | cons t ts =>
    rw [pieces_cons _ (by simp)] at h
    cases h

theorem pieces_step (s : Tok) {ts ts' : Toks} (h : pieces ts = pieces ts') : pieces (s :: ts) = pieces (s :: ts') := by
  cases s with
  | punct c j =>
    by_cases hc : c = ','
    · subst hc; simp only [pieces, h]
    · have h2 : ∀ ts, pieces (.punct c j :: ts) = match pieces ts with | [] => [[.punct c j]] | p :: ps => (.punct c j :: p) :: ps := by
        intro ts
        rw [pieces]
        all_goals first | rfl | simp [hc]
      rw [h2, h2, h]
  | _ => simp only [pieces, h]

/-- A comma after the last argument does not matter. -/
theorem pieces_comma (u : Toks) {t : Tok} (ht : ∀ j, t ≠ .punct ',' j) (j : Bool) : pieces (u ++ [t] ++ [.punct ',' j]) = pieces (u ++ [t]) := by
  induction u with
  | nil =>
    cases t with
    | punct c j =>
      have hc : c ≠ ',' := fun h => ht j (by rw [h])
      have h2 : ∀ ts, pieces (.punct c j :: ts) = match pieces ts with | [] => [[.punct c j]] | p :: ps => (.punct c j :: p) :: ps := by
        intro ts
        rw [pieces]
        all_goals first | rfl | simp [hc]
      simp only [List.nil_append, List.cons_append]
      rw [h2, h2]
      simp [pieces]
    | _ => simp [pieces]
  | cons s u ih => exact pieces_step s ih

mutual
theorem rewrites_reads {known : Str → Bool} {Y : Syn} : ∀ {ts ts' : Toks}, Rewrites known ts ts' → ∀ {e : Expr} {r : Toks}, ReadsExpr known Y ts e r →
    ∃ e', ReadsExpr known Y ts' e' r ∧ unquoted e'.erase = unquoted e.erase
  | _, _, .same _, _, _, h => ⟨_, h, rfl⟩
  | _, _, @Rewrites.call _ n raw raw' rest hk hn hr hz hp, e, r, h => by
    have ih := rewritesL_reads (Y := Y) hp
    have hc := CallAt.of (known := known) raw rest hk hn
    have hc' := CallAt.of (known := known) raw' rest hk hn
    have hq : ¬ (n = S "raw" ∨ n = S "normalize") := fun h => h.elim hr hz
    cases h with
    | call id rid h ha =>
      obtain ⟨rfl, rfl, rfl⟩ := callAt_unique hc h
      obtain ⟨es', h1, h2⟩ := ih.1 ha
      exact ⟨_, .call id rid hc' h1, by simp [Expr.erase, unquoted, hq, h2]⟩
    | dropped id rid h hm he =>
      obtain ⟨rfl, rfl, rfl⟩ := callAt_unique hc h
      obtain ⟨p', e', t, l, h1, h2⟩ := ih.2 hm he
      exact ⟨_, .dropped id rid hc' h1 h2, by simp [Expr.erase, unquoted, hq]⟩
    | value id hno h => exact (hno _ _ _ hc).elim
theorem rewritesL_reads {known : Str → Bool} {Y : Syn} : ∀ {ps ps' : List Toks}, RewritesL known ps ps' →
    (∀ {es : List Expr}, ReadsPieces known Y ps es → ∃ es', ReadsPieces known Y ps' es' ∧ unquotedL (Expr.eraseL es') = unquotedL (Expr.eraseL es)) ∧
    ∀ {p : Toks} {e : Expr} {t : Tok} {l : Toks}, p ∈ ps → ReadsExpr known Y p e (t :: l) →
      ∃ p' e' t' l', p' ∈ ps' ∧ ReadsExpr known Y p' e' (t' :: l')
  | _, _, .nil => ⟨fun h => by cases h; exact ⟨_, .nil, rfl⟩, fun hm => by cases hm⟩
  | _, _, .cons h hs => by
    have ih1 := fun {e r} => rewrites_reads (Y := Y) h (e := e) (r := r)
    have ih2 := rewritesL_reads (Y := Y) hs
    constructor
    · intro es h'
      cases h' with
      | cons g gs =>
        obtain ⟨e', h1, h2⟩ := ih1 g
        obtain ⟨es', h3, h4⟩ := ih2.1 gs
        exact ⟨_, .cons h1 h3, by simp [Expr.eraseL, unquotedL, h2, h4]⟩
    · intro p e t l hm g
      rcases List.mem_cons.1 hm with rfl | hm
      · obtain ⟨e', h1, _⟩ := ih1 g
        exact ⟨_, _, _, _, List.mem_cons_self, h1⟩
      · obtain ⟨p', e', t', l', h1, h2⟩ := ih2.2 hm g
        exact ⟨_, _, _, _, List.mem_cons_of_mem _ h1, h2⟩
end

mutual
theorem Spec.Rewrites.symm {known : Str → Bool} : ∀ {ts ts' : Toks}, Rewrites known ts ts' → Rewrites known ts' ts
  | _, _, .same _ => .same _
  | _, _, .call rest hk hn hr hz h => .call rest hk hn hr hz h.symm
theorem Spec.RewritesL.symm {known : Str → Bool} : ∀ {ps ps' : List Toks}, RewritesL known ps ps' → RewritesL known ps' ps
  | _, _, .nil => .nil
  | _, _, .cons h hs => .cons h.symm hs.symm
end

theorem rewritesL_refl (known : Str → Bool) (ps : List Toks) : RewritesL known ps ps := by
  induction ps with
  | nil => exact .nil
  | cons p ps ih => exact .cons (.same p) ih

/-! ## Definitions -/

/-- What is compared of a definition. -/
def itemText (i : PItem) : Str × Expr := (i.alias.2, unquoted i.expr.erase)

theorem call_reads {known : Str → Bool} {Y : Syn} {v v' : Toks} (h : RewritesCall known v v') {rest r : Toks} {e : Expr}
    (hr : ReadsExpr known Y (v ++ rest) e r) : r = rest ∧ ∀ rest', ∃ e', ReadsExpr known Y (v' ++ rest') e' rest' ∧ unquoted e'.erase = unquoted e.erase := by
  cases h with
  | @mk n raw raw' hk hn hq h =>
    have hc := CallAt.of (known := known) raw rest hk hn
    have h0 : r = rest ∧ ∀ rest', ReadsExpr known Y (.ident n :: .group .paren raw :: rest') e rest' := by
      cases hr with
      | call id rid h ha =>
        obtain ⟨rfl, rfl, rfl⟩ := callAt_unique hc h
        exact ⟨rfl, fun rest' => .call id rid (CallAt.of _ rest' hk hn) ha⟩
      | dropped id rid h hm he =>
        obtain ⟨rfl, rfl, rfl⟩ := callAt_unique hc h
        exact ⟨rfl, fun rest' => .dropped id rid (CallAt.of _ rest' hk hn) hm he⟩
      | value id hno h => exact (hno _ _ _ hc).elim
    refine ⟨h0.1, fun rest' => ?_⟩
    rcases hq with rfl | ⟨hq1, hq2⟩
    · exact ⟨_, h0.2 rest', rfl⟩
    · exact rewrites_reads (.call rest' hk hn hq1 hq2 h) (h0.2 rest')

theorem item_reads {known : Str → Bool} {Y : Syn} {v v' : Toks} (h : RewritesCall known v v') {n : Str} {j : Bool} {rest r : Toks} {i : PItem}
    (hr : ReadsItem known Y (.ident n :: .punct '=' j :: v ++ rest) i r) :
    r = rest ∧ ∀ rest', (rest' = [] ∨ ∃ b t q, rest' = t :: q ∧ IsSep b t) →
      ∃ i', ReadsItem known Y (.ident n :: .punct '=' j :: v' ++ rest') i' rest' ∧ itemText i' = itemText i := by
  cases hr with
  | mk id aid vid ha hn he _ =>
    obtain ⟨h1, h2⟩ := (First.here (t := .ident n) (rest := .punct '=' j :: v ++ rest) (by simp)).unique ha
    cases h1
    simp only [List.cons_append, List.cons.injEq] at h2
    obtain ⟨h2, rfl⟩ := h2
    obtain ⟨h3, h4⟩ := call_reads h he
    refine ⟨h3, fun rest' hs => ?_⟩
    obtain ⟨e', h5, h6⟩ := h4 rest'
    exact ⟨_, .mk id aid vid (.here (by simp)) hn h5 hs, by simp [itemText, h6]⟩

theorem defs_first {known : Str → Bool} {Y : Syn} {ts ts' : Toks} (h : RewritesDefs known Y ts ts') :
    ts' = ts ∨ ∃ n r r', n ∉ keywords ∧ ts = .ident n :: r ∧ ts' = .ident n :: r' := by
  cases h with
  | same => exact .inl rfl
  | cons hn => exact .inr ⟨_, _, _, hn, rfl, rfl⟩
  | value hn => exact .inr ⟨_, _, _, hn, rfl, rfl⟩
  | last hn => exact .inr ⟨_, _, _, hn, rfl, rfl⟩

theorem value_reads {known : Str → Bool} {Y : Syn} (h1 : StopsBeforeComma Y.path) (h2 : StopsBeforeComma Y.type) (h3 : StopsBeforeComma Y.expr)
    {v : Toks} {ts ts' : Toks} {j' : Bool} (hv : ∃ e, ReadsExpr known Y (v ++ .punct ',' j' :: ts) e (.punct ',' j' :: ts))
    (hv' : ∃ e, ReadsExpr known Y (v ++ .punct ',' j' :: ts') e (.punct ',' j' :: ts')) {n : Str} {j : Bool} {r : Toks} {i : PItem}
    (hr : ReadsItem known Y (.ident n :: .punct '=' j :: v ++ .punct ',' j' :: ts) i r) :
    r = .punct ',' j' :: ts ∧ ∃ i', ReadsItem known Y (.ident n :: .punct '=' j :: v ++ .punct ',' j' :: ts') i' (.punct ',' j' :: ts') ∧
      itemText i' = itemText i := by
  cases hr with
  | mk id aid vid ha hn he _ =>
    obtain ⟨h4, h5⟩ := (First.here (t := .ident n) (rest := .punct '=' j :: v ++ .punct ',' j' :: ts) (by simp)).unique ha
    cases h4
    simp only [List.cons_append, List.cons.injEq] at h5
    obtain ⟨h5, rfl⟩ := h5
    obtain ⟨e, hv⟩ := hv
    obtain ⟨e', hv'⟩ := hv'
    obtain ⟨h6, h7⟩ := (parseE_exact Y known (fun x => x) _).unique (Nat.le_refl _) hv he
    have h8 := Props.expr_context h1 h2 h3 hv hv'
    refine ⟨h6, _, .mk id aid vid (.here (by simp)) hn hv' (.inr ⟨_, _, _, rfl, .comma j'⟩), ?_⟩
    simp [itemText, h8, h7]

theorem items_reads {known : Str → Bool} {Y : Syn} (h1 : StopsBeforeComma Y.path) (h2 : StopsBeforeComma Y.type) (h3 : StopsBeforeComma Y.expr) {ts ts' : Toks} (h : RewritesDefs known Y ts ts') {is : List PItem} {bs : List Bool} {r : Toks}
    (hr : ReadsItems known Y ts is bs r) : ∃ is', ReadsItems known Y ts' is' bs r ∧ is'.map itemText = is.map itemText := by
  induction h generalizing is bs r with
  | same ts => exact ⟨_, hr, rfl⟩
  | @cons n j v v' b sep ts ts' hn hv hs h ih =>
    have hsep : ∀ q : Toks, sep :: q = [] ∨ ∃ b t q', sep :: q = t :: q' ∧ IsSep b t := fun q => .inr ⟨_, _, _, rfl, hs⟩
    cases hr with
    | last g => cases (item_reads hv g).1
    | lastSep g hb hno =>
      obtain ⟨h1, h2⟩ := item_reads hv g
      cases h1
      obtain ⟨i', h3, h4⟩ := h2 _ (hsep ts')
      rcases defs_first h with rfl | ⟨n, q, q', hk, rfl, rfl⟩
      · exact ⟨_, .lastSep h3 hb hno, by simp [h4]⟩
      · exact (hk (hno n q (.here (by simp)))).elim
    | cons g hb hm hk hr =>
      obtain ⟨h1, h2⟩ := item_reads hv g
      cases h1
      obtain ⟨i', h3, h4⟩ := h2 _ (hsep ts')
      obtain ⟨is', h5, h6⟩ := ih hr
      have hf : ∃ m q, First ts' (.ident m) q ∧ m ∉ keywords := by
        rcases defs_first h with rfl | ⟨n, q, q', hk, rfl, rfl⟩
        · exact ⟨_, _, hm, hk⟩
        · exact ⟨_, _, .here (by simp), hk⟩
      obtain ⟨m, q, h7, h8⟩ := hf
      exact ⟨_, .cons h3 hb h7 h8 h5, by simp [h4, h6]⟩
  | @value n j j' v ts ts' hn hv hv' h ih =>
    cases hr with
    | last g => cases (value_reads h1 h2 h3 hv hv' g).1
    | lastSep g hb hno =>
      obtain ⟨h1, i', h3, h4⟩ := value_reads h1 h2 h3 hv hv' g
      cases h1
      rcases defs_first h with rfl | ⟨n, q, q', hk, rfl, rfl⟩
      · exact ⟨_, .lastSep h3 hb hno, by simp [h4]⟩
      · exact (hk (hno n q (.here (by simp)))).elim
    | cons g hb hm hk hr =>
      obtain ⟨h1, i', h3, h4⟩ := value_reads h1 h2 h3 hv hv' g
      cases h1
      obtain ⟨is', h5, h6⟩ := ih hr
      have hf : ∃ m q, First ts' (.ident m) q ∧ m ∉ keywords := by
        rcases defs_first h with rfl | ⟨n, q, q', hk, rfl, rfl⟩
        · exact ⟨_, _, hm, hk⟩
        · exact ⟨_, _, .here (by simp), hk⟩
      obtain ⟨m, q, h7, h8⟩ := hf
      exact ⟨_, .cons h3 hb h7 h8 h5, by simp [h4, h6]⟩
  | @last n j v v' hn hv =>
    have hr' : ReadsItems known Y (.ident n :: .punct '=' j :: v ++ []) is bs r := by simpa using hr
    cases hr' with
    | last g =>
      obtain ⟨i', h3, h4⟩ := (item_reads hv g).2 [] (.inl rfl)
      exact ⟨_, .last (by simpa using h3), by simp [h4]⟩
    | lastSep g => cases (item_reads hv g).1
    | cons g => cases (item_reads hv g).1

/-! ## Lists -/

/-- A comma after the tokens does not matter for `R`. -/
structure Steady {α : Type} (R : Toks → α → Toks → Prop) : Prop where
  more : ∀ {ts a r} (j : Bool), R ts a r → R (ts ++ [.punct ',' j]) a (r ++ [.punct ',' j])
  less : ∀ {ts a r} (j : Bool), R (ts ++ [.punct ',' j]) a r → ∃ r', r = r' ++ [.punct ',' j] ∧ R ts a r'
  after : ∀ {ts a r}, R ts a r → After ts r

theorem first_more {ts : Toks} {j : Bool} {t : Tok} {r : Toks} (h : First (ts ++ [.punct ',' j]) t r) (ht : ∀ j, t ≠ .punct ',' j) :
    ∃ r', r = r' ++ [.punct ',' j] ∧ First ts t r' := by
  rcases first_append h with ⟨s, h1, h2⟩ | ⟨-, h⟩
  · exact ⟨s, h1, h2⟩
  · cases h with
    | here => exact (ht _ rfl).elim

theorem commaList_more {α : Type} {R : Toks → α → Toks → Prop} (hR : Steady R) {t : Tok} (ht : ∀ d, t ≠ .group .none d) (hc : ∀ j, t ≠ .punct ',' j)
    (j : Bool) {c : Toks} {as : List α} (h : CommaList R c as) (hn : ∃ u, c = u ++ [t]) : CommaList R (c ++ [.punct ',' j]) as := by
  induction h with
  | nil => obtain ⟨u, h⟩ := hn; simp at h
  | last hne h => exact .cons (by simp) (hR.more j h) .nil
  | @cons ts a as j' rest hne h hs ih =>
    obtain ⟨u, rfl⟩ := hn
    refine .cons (by simp) (hR.more j h) (ih ?_)
    obtain ⟨u', h1⟩ := (hR.after h).snoc ht (by simp)
    cases u' with
    | nil => cases h1; exact (hc _ rfl).elim
    | cons s u' => cases h1; exact ⟨u', rfl⟩

theorem commaList_less {α : Type} {R : Toks → α → Toks → Prop} (hR : Steady R) {t : Tok} (ht : ∀ d, t ≠ .group .none d) (hc : ∀ j, t ≠ .punct ',' j)
    (j : Bool) {c : Toks} {as : List α} (hn : ∃ u, c = u ++ [t]) (h : CommaList R (c ++ [.punct ',' j]) as) : CommaList R c as := by
  generalize hd : c ++ [.punct ',' j] = d at h
  induction h generalizing c with
  | nil => simp at hd
  | @last ts a hne h =>
    subst hd
    obtain ⟨r', h1, -⟩ := hR.less j h
    simp at h1
  | @cons ts a as j' rest hne h hs ih =>
    subst hd
    obtain ⟨u, rfl⟩ := hn
    obtain ⟨r', h1, h2⟩ := hR.less j h
    cases r' with
    | nil =>
      cases h1
      cases hs with
      | nil => exact .last (by simp) h2
      | last h => exact (h rfl).elim
      | cons h => exact (h rfl).elim
    | cons s r' =>
      cases h1
      refine .cons (by simp) h2 (ih ?_ rfl)
      obtain ⟨u', h1⟩ := (hR.after h2).snoc ht (by simp)
      cases u' with
      | nil => cases h1; exact (hc _ rfl).elim
      | cons s u' => cases h1; exact ⟨u', rfl⟩

theorem commaList_final {α : Type} {R : Toks → α → Toks → Prop} (hR : Steady R) {c c' : Toks} (h : FinalComma c c') {as : List α}
    (hc : CommaList R c as) : CommaList R c' as := by
  cases h with
  | same => exact hc
  | added j h => obtain ⟨u, t, rfl, h1, h2⟩ := h; exact commaList_more hR h1 h2 j hc ⟨u, rfl⟩
  | dropped j h => obtain ⟨u, t, rfl, h1, h2⟩ := h; exact commaList_less hR h1 h2 j ⟨u, rfl⟩ hc

theorem steady_alias : Steady ReadsAlias where
  more j h := by cases h with | mk id h hn => exact .mk id (h.append _) hn
  less j h := by
    cases h with
    | mk id h hn =>
      obtain ⟨r', h1, h2⟩ := first_more h (by simp)
      exact ⟨r', h1, .mk id h2 hn⟩
  after h := by cases h with | mk id h hn => exact h.after_rest

theorem not_first_more {ts : Toks} {j : Bool} {d : Delim} (h : ∀ c r, ¬ First ts (.group d c) r) (c r : Toks) :
    ¬ First (ts ++ [.punct ',' j]) (.group d c) r := fun h' => by
  obtain ⟨r', -, h2⟩ := first_more h' (by simp)
  exact h _ _ h2

theorem steady_tup {α : Type} {R : Toks → α → Toks → Prop} (hR : Steady R) : Steady (ReadsTup R) where
  more j h := by
    cases h with
    | val id hp h => exact .val id (not_first_more hp) (hR.more j h)
    | tup id tid hp h => exact .tup id tid (hp.append _) h
  less j h := by
    cases h with
    | val id hp h =>
      obtain ⟨r', h1, h2⟩ := hR.less j h
      exact ⟨r', h1, .val id (fun c r h => hp c _ (h.append _)) h2⟩
    | tup id tid hp h =>
      obtain ⟨r', h1, h2⟩ := first_more hp (by simp)
      exact ⟨r', h1, .tup id tid h2 h⟩
  after h := by
    cases h with
    | val id hp h => exact hR.after h
    | tup id tid hp h => exact hp.after_rest

theorem steady_elem {α : Type} {R : Toks → α → Toks → Prop} (hR : Steady R) : Steady (ReadsElem R) where
  more j h := by
    cases h with
    | tuple id hp h => exact .tuple id (hp.append _) h
    | simple hn h =>
      refine .simple (fun c r as h' => ?_) (hR.more j h)
      obtain ⟨r', -, h2⟩ := first_more h' (by simp)
      exact hn c r' as h2
  less j h := by
    cases h with
    | tuple id hp h =>
      obtain ⟨r', h1, h2⟩ := first_more hp (by simp)
      exact ⟨r', h1, .tuple id h2 h⟩
    | simple hn h =>
      obtain ⟨r', h1, h2⟩ := hR.less j h
      exact ⟨r', h1, .simple (fun c r as h => hn c _ as (h.append _)) h2⟩
  after h := by
    cases h with
    | tuple id hp h => exact hp.after_rest
    | simple hn h => exact hR.after h

theorem ends_more {r : Toks} {j : Bool} : Ends (r ++ [.punct ',' j]) ↔ Ends r := by
  cases r with
  | nil => exact ⟨fun _ => .nil, fun _ => .comma _ _⟩
  | cons t r =>
    constructor <;> intro h
    · cases h; exact .comma _ _
    · cases h; exact .comma _ _

section
variable {Y : Syn} (h1 : IgnoresComma Y.path) (h2 : IgnoresComma Y.type) (h3 : IgnoresComma Y.expr)
include h1 h2 h3

theorem readsAs_more {i : Nat} {ts : Toks} {v : VKind} {used r : Toks} (j : Bool) (h : ReadsAs Y i ts v used r) :
    ReadsAs Y i (ts ++ [.punct ',' j]) v used (r ++ [.punct ',' j]) := by
  cases h with
  | int h => exact .int (h.append _)
  | negInt h h' => exact .negInt (h.append _) (h'.append _)
  | str h => exact .str (h.append _)
  | underscore h => exact .underscore (h.append _)
  | ident h hn => exact .ident (h.append _) hn
  | path _ n h =>
    have := ReadsAs.path (Y := Y) (ts ++ [.punct ',' j]) n (by rw [(h1 ts j).1, h])
    rwa [List.take_append_of_le_length ((h1 ts j).2 n h), List.drop_append_of_le_length ((h1 ts j).2 n h)] at this
  | type _ n h =>
    have := ReadsAs.type (Y := Y) (ts ++ [.punct ',' j]) n (by rw [(h2 ts j).1, h])
    rwa [List.take_append_of_le_length ((h2 ts j).2 n h), List.drop_append_of_le_length ((h2 ts j).2 n h)] at this
  | expr _ n h =>
    have := ReadsAs.expr (Y := Y) (ts ++ [.punct ',' j]) n (by rw [(h3 ts j).1, h])
    rwa [List.take_append_of_le_length ((h3 ts j).2 n h), List.drop_append_of_le_length ((h3 ts j).2 n h)] at this

theorem readsAs_less {i : Nat} {ts : Toks} {v : VKind} {used r : Toks} (j : Bool) (h : ReadsAs Y i (ts ++ [.punct ',' j]) v used r) :
    ∃ r', r = r' ++ [.punct ',' j] ∧ ReadsAs Y i ts v used r' := by
  cases h with
  | int h => obtain ⟨r', rfl, g⟩ := first_more h (by simp); exact ⟨r', rfl, .int g⟩
  | negInt h h' =>
    obtain ⟨q, rfl, g⟩ := first_more h (by simp)
    obtain ⟨r', rfl, g'⟩ := first_more h' (by simp)
    exact ⟨r', rfl, .negInt g g'⟩
  | str h => obtain ⟨r', rfl, g⟩ := first_more h (by simp); exact ⟨r', rfl, .str g⟩
  | underscore h => obtain ⟨r', rfl, g⟩ := first_more h (by simp); exact ⟨r', rfl, .underscore g⟩
  | ident h hn => obtain ⟨r', rfl, g⟩ := first_more h (by simp); exact ⟨r', rfl, .ident g hn⟩
  | path _ n h =>
    rw [(h1 ts j).1] at h
    rw [List.take_append_of_le_length ((h1 ts j).2 n h), List.drop_append_of_le_length ((h1 ts j).2 n h)]
    exact ⟨_, rfl, .path ts n h⟩
  | type _ n h =>
    rw [(h2 ts j).1] at h
    rw [List.take_append_of_le_length ((h2 ts j).2 n h), List.drop_append_of_le_length ((h2 ts j).2 n h)]
    exact ⟨_, rfl, .type ts n h⟩
  | expr _ n h =>
    rw [(h3 ts j).1] at h
    rw [List.take_append_of_le_length ((h3 ts j).2 n h), List.drop_append_of_le_length ((h3 ts j).2 n h)]
    exact ⟨_, rfl, .expr ts n h⟩

theorem steady_value : Steady (ReadsValue Y) where
  more j h := by
    cases h with
    | longest i _ used _ h he hmax =>
      refine .longest i _ used _ (readsAs_more h1 h2 h3 j h) (ends_more.2 he) fun k v' used' rest' hk hke => ?_
      obtain ⟨r', rfl, g⟩ := readsAs_less h1 h2 h3 j hk
      exact hmax k v' used' r' g (ends_more.1 hke)
    | tokens used _ hnone h hc he =>
      refine .tokens used _ (fun i v u r g ge => ?_) (by rw [h, List.append_assoc]) hc (ends_more.2 he)
      obtain ⟨r', rfl, g'⟩ := readsAs_less h1 h2 h3 j g
      exact hnone i v u r' g' (ends_more.1 ge)
  less {ts a r} j h := by
    cases h with
    | longest i _ used _ h he hmax =>
      obtain ⟨r', rfl, g⟩ := readsAs_less h1 h2 h3 j h
      exact ⟨r', rfl, .longest i _ used _ g (ends_more.1 he) fun k v' used' rest' hk hke =>
        hmax k v' used' _ (readsAs_more h1 h2 h3 j hk) (ends_more.2 hke)⟩
    | tokens used _ hnone h hc he =>
      rcases List.eq_nil_or_concat r with rfl | ⟨q, t, rfl⟩
      · rw [List.append_nil] at h
        exact (hc j (by rw [← h]; simp)).elim
      · rw [List.concat_eq_append, ← List.append_assoc] at h
        obtain ⟨h4, h5⟩ := List.append_inj' h rfl
        cases h5
        refine ⟨q, by simp, .tokens used q (fun i v u r g ge => ?_) h4 hc (ends_more.1 (by simpa using he))⟩
        exact hnone i v u _ (readsAs_more h1 h2 h3 j g) (ends_more.2 ge)
  after h := by
    cases h with
    | longest i _ used _ h he hmax =>
      cases h with
      | int h => exact h.after_rest
      | negInt h h' => exact h.after_rest.trans h'.after_rest
      | str h => exact h.after_rest
      | underscore h => exact h.after_rest
      | ident h => exact h.after_rest
      | path _ n h => exact .drop _ _
      | type _ n h => exact .drop _ _
      | expr _ n h => exact .drop _ _
    | tokens used _ hnone h hc he => rw [h]; exact .of_suffix (List.suffix_append ..)

omit h1 h2 h3 in
theorem callAt_less {known : Str → Bool} {ts : Toks} {j : Bool} {n : Str} {raw rest : Toks} (h : CallAt known (ts ++ [.punct ',' j]) n raw rest) :
    ∃ r', rest = r' ++ [.punct ',' j] ∧ CallAt known ts n raw r' := by
  cases h with
  | mk h hk hn h' =>
    obtain ⟨q, rfl, g⟩ := first_more h (by simp)
    obtain ⟨r', rfl, g'⟩ := first_more h' (by simp)
    exact ⟨r', rfl, .mk g hk hn g'⟩

omit h1 h2 h3 in
theorem callAt_more {known : Str → Bool} {ts : Toks} (j : Bool) {n : Str} {raw rest : Toks} (h : CallAt known ts n raw rest) :
    CallAt known (ts ++ [.punct ',' j]) n raw (rest ++ [.punct ',' j]) := by
  cases h with
  | mk h hk hn h' => exact .mk (h.append _) hk hn (h'.append _)

theorem steady_expr {known : Str → Bool} : Steady (ReadsExpr known Y) where
  more j h := by
    cases h with
    | call id rid h ha => exact .call id rid (callAt_more j h) ha
    | dropped id rid h hp he => exact .dropped id rid (callAt_more j h) hp he
    | value id hn h =>
      refine .value id (fun n raw rest h' => ?_) ((steady_value h1 h2 h3).more j h)
      obtain ⟨r', -, g⟩ := callAt_less h'
      exact hn _ _ _ g
  less j h := by
    cases h with
    | call id rid h ha => obtain ⟨r', rfl, g⟩ := callAt_less h; exact ⟨r', rfl, .call id rid g ha⟩
    | dropped id rid h hp he => obtain ⟨r', rfl, g⟩ := callAt_less h; exact ⟨r', rfl, .dropped id rid g hp he⟩
    | value id hn h =>
      obtain ⟨r', rfl, g⟩ := (steady_value h1 h2 h3).less j h
      exact ⟨r', rfl, .value id (fun n raw rest h' => hn _ _ _ (callAt_more j h')) g⟩
  after h := by
    cases h with
    | call id rid h ha => cases h with | mk h _ _ h' => exact h.after_rest.trans h'.after_rest
    | dropped id rid h hp he => cases h with | mk h _ _ h' => exact h.after_rest.trans h'.after_rest
    | value id hn h => exact (steady_value h1 h2 h3).after h
end

/-! ## Loops -/

/-- `l` is the loop `for t in [c]`. -/
def LoopOf (known : Str → Bool) (Y : Syn) (x : Tok × Toks) (l : PLoop) : Prop :=
  ReadsElem ReadsAlias [x.1] l.alias [] ∧ CommaList (ReadsElem (ReadsExpr known Y)) x.2 l.values

theorem elem_one {t : Tok} (ht : ∀ d, t ≠ .group .none d) {rest r : Toks} {a : PLoopElem Alias} :
    ReadsElem ReadsAlias (t :: rest) a r ↔ r = rest ∧ ReadsElem ReadsAlias [t] a [] := by
  have hf : ∀ {u r' rest'}, First (t :: rest') u r' → u = t ∧ r' = rest' := fun h => (First.here ht).unique h
  constructor
  · intro h
    cases h with
    | tuple id hp h =>
      obtain ⟨rfl, rfl⟩ := hf hp
      exact ⟨rfl, .tuple id (.here ht) h⟩
    | simple hn h =>
      cases h with
      | mk id h hk =>
        obtain ⟨rfl, rfl⟩ := hf h
        exact ⟨rfl, .simple (fun c r as h' => by have := hf h'; simp at this) (.mk id (.here ht) hk)⟩
  · rintro ⟨rfl, h⟩
    cases h with
    | tuple id hp h =>
      obtain ⟨rfl, -⟩ := hf hp
      exact .tuple id (.here ht) h
    | simple hn h =>
      cases h with
      | mk id h hk =>
        obtain ⟨rfl, -⟩ := hf h
        exact .simple (fun c r as h' => by have := hf h'; simp at this) (.mk id (.here ht) hk)

theorem loop_one {known : Str → Bool} {Y : Syn} {t : Tok} (ht : ∀ d, t ≠ .group .none d) {c rest r : Toks} {l : PLoop} :
    ReadsLoop known Y (.ident (S "for") :: t :: .ident (S "in") :: .group .bracket c :: rest) l r ↔ r = rest ∧ LoopOf known Y (t, c) l := by
  constructor
  · intro h
    cases h with
    | mk id lid ha hb hv =>
      obtain ⟨h1, h2⟩ := (elem_one ht).1 ha
      cases h1
      obtain ⟨h3, rfl⟩ := (First.here (t := .group .bracket c) (by simp)).unique hb
      cases h3
      exact ⟨rfl, h2, hv⟩
  · rintro ⟨rfl, h1, h2⟩
    exact .mk _ _ ((elem_one ht).2 ⟨rfl, h1⟩) (.here (by simp)) h2

theorem loops_text {known : Str → Bool} {Y : Syn} {ls : List (Tok × Toks)} (hl : ∀ x ∈ ls, ∀ d, x.1 ≠ .group .none d) {ts mid : Toks} {l : List PLoop} :
    ReadsLoops known Y (loopsText ls ++ ts) l mid ↔ ∃ l1 l2, l = l1 ++ l2 ∧ All2 (LoopOf known Y) ls l1 ∧ ReadsLoops known Y ts l2 mid := by
  induction ls generalizing l with
  | nil =>
    constructor
    · exact fun h => ⟨[], l, rfl, .nil, h⟩
    · rintro ⟨l1, l2, rfl, h1, h2⟩
      cases h1
      exact h2
  | cons x ls ih =>
    have hx := hl x List.mem_cons_self
    replace ih := fun l => ih (fun y hy => hl y (List.mem_cons_of_mem _ hy)) (l := l)
    obtain ⟨t, c⟩ := x
    simp only [loopsText, List.cons_append]
    constructor
    · intro h
      cases h with
      | nil h => exact (h _ rfl).elim
      | cons h hs =>
        obtain ⟨rfl, h1⟩ := (loop_one hx).1 h
        obtain ⟨l1, l2, rfl, h2, h3⟩ := (ih _).1 hs
        exact ⟨_ :: l1, l2, rfl, .cons h1 h2, h3⟩
    · rintro ⟨l1, l2, rfl, h1, h2⟩
      cases h1 with
      | cons h1 h3 => exact .cons ((loop_one hx).2 ⟨rfl, h1⟩) ((ih _).2 ⟨_, _, rfl, h3, h2⟩)

theorem rewritesLoops_none {ls ls' : List (Tok × Toks)} (h : RewritesLoops ls ls') :
    (∀ x ∈ ls, ∀ d, x.1 ≠ .group .none d) ∧ ∀ x ∈ ls', ∀ d, x.1 ≠ .group .none d := by
  induction h with
  | nil => simp
  | cons h hs ih =>
    cases h with
    | simple t ht h => exact ⟨by simp [ht]; exact fun a b h => ih.1 (a, b) h, by simp [ht]; exact fun a b h => ih.2 (a, b) h⟩
    | tuple hx h => exact ⟨by simp; exact fun a b h => ih.1 (a, b) h, by simp; exact fun a b h => ih.2 (a, b) h⟩

section
variable {known : Str → Bool} {Y : Syn} (h1 : IgnoresComma Y.path) (h2 : IgnoresComma Y.type) (h3 : IgnoresComma Y.expr)
include h1 h2 h3

theorem loopOf_rewrites {x x' : Tok × Toks} (h : RewritesLoop x x') {l : PLoop} (hl : LoopOf known Y x l) : LoopOf known Y x' l := by
  have hv := fun {c c'} (h : FinalComma c c') => commaList_final (steady_elem (steady_expr (known := known) h1 h2 h3)) h (as := l.values)
  cases h with
  | simple t ht h => exact ⟨hl.1, hv h hl.2⟩
  | tuple hx h =>
    refine ⟨?_, hv h hl.2⟩
    obtain ⟨ha, -⟩ := hl
    generalize l.alias = a at ha ⊢
    cases ha with
    | tuple id hp h =>
      obtain ⟨h5, -⟩ := (First.here (t := .group .paren _) (by simp)).unique hp
      cases h5
      exact .tuple id (.here (by simp)) (commaList_final (steady_tup steady_alias) hx h)
    | simple hn h =>
      cases h with
      | mk id h hk => exact absurd ((First.here (t := .group .paren _) (by simp)).unique h).1 (by simp)

theorem loops_rewrites {ls ls' : List (Tok × Toks)} (h : RewritesLoops ls ls') {l : List PLoop} (hl : All2 (LoopOf known Y) ls l) :
    All2 (LoopOf known Y) ls' l := by
  induction h generalizing l with
  | nil => exact hl
  | cons h hs ih =>
    cases hl with
    | cons g gs => exact .cons (loopOf_rewrites h1 h2 h3 h g) (ih gs)

/-! ## Whole inputs -/

/-- What is compared of the definitions. -/
def specText (s : PSpec) : List (Str × Expr) × Option Bool := (s.items.map itemText, s.comma)

theorem header_rewrites (g1 : StopsBeforeComma Y.path) (g2 : StopsBeforeComma Y.type) (g3 : StopsBeforeComma Y.expr)
    {ls ls' : List (Tok × Toks)} (hl : RewritesLoops ls ls') {ts ts' : Toks} (hd : RewritesDefs known Y ts ts')
    {o : Option PLoops} {s : Option PSpec} {rest : Toks} (h : ReadsHeader known Y (loopsText ls ++ ts) (o, s) rest) :
    ∃ s', ReadsHeader known Y (loopsText ls' ++ ts') (o, s') rest ∧ s'.map specText = s.map specText := by
  cases h with
  | @mk mid _ _ _ ho hs =>
    -- what comes after the loops
    have hm : ∃ mid', RewritesDefs known Y mid mid' ∧ ((o = none ∧ mid' = loopsText ls' ++ ts' ∧ ∀ r, loopsText ls' ++ ts' ≠ .ident (S "for") :: r) ∨
        ∃ id l, o = some ⟨id, l⟩ ∧ l ≠ [] ∧ ReadsLoops known Y (loopsText ls' ++ ts') l mid') := by
      have hstop : ∀ {l2 m}, ReadsLoops known Y ts l2 m → ∃ m', RewritesDefs known Y m m' ∧ ReadsLoops known Y ts' l2 m' := by
        intro l2 m hr
        rcases defs_first hd with rfl | ⟨n, r, r', hn, rfl, rfl⟩
        · exact ⟨m, .same m, hr⟩
        · have hne : n ≠ S "for" := fun h => hn (by rw [h]; decide)
          cases hr with
          | nil h => exact ⟨_, hd, .nil fun r h => by simp at h; exact hne h.1⟩
          | cons h _ => cases h; exact (hne rfl).elim
      rcases ho with ⟨rfl, rfl, hno⟩ | ⟨id, l, rfl, hne, hr⟩
      · have hls : ls = [] := by
          cases ls with
          | nil => rfl
          | cons x ls => exact (hno _ rfl).elim
        subst hls
        cases hl
        obtain ⟨m', h4, h5⟩ := hstop (l2 := []) (m := ts) (.nil hno)
        cases h5 with
        | nil h => exact ⟨_, h4, .inl ⟨rfl, rfl, h⟩⟩
      · obtain ⟨l1, l2, rfl, h4, h5⟩ := (loops_text (rewritesLoops_none hl).1).1 hr
        obtain ⟨m', h6, h7⟩ := hstop h5
        exact ⟨m', h6, .inr ⟨id, _, rfl, hne, (loops_text (rewritesLoops_none hl).2).2 ⟨l1, l2, rfl, loops_rewrites h1 h2 h3 hl h4, h7⟩⟩⟩
    obtain ⟨mid', hd', ho'⟩ := hm
    rcases hs with ⟨rfl, rfl, hno⟩ | ⟨s', rfl, ⟨n, r, hf, hn⟩, hr⟩
    · rcases defs_first hd' with rfl | ⟨n, r, r', hn, rfl, rfl⟩
      · exact ⟨none, .mk ho' (.inl ⟨rfl, rfl, hno⟩), rfl⟩
      · exact (hn (hno n r (.here (by simp)))).elim
    · cases hr with
      | mk id h hb =>
        obtain ⟨is', h4, h5⟩ := items_reads g1 g2 g3 hd' h
        refine ⟨some ⟨id, is', _⟩, .mk ho' (.inr ⟨_, rfl, ?_, .mk id h4 hb⟩), by simp [specText, h5]⟩
        rcases defs_first hd' with rfl | ⟨m, q, q', hm, rfl, rfl⟩
        · exact ⟨n, r, hf, hn⟩
        · exact ⟨m, q', .here (by simp), hm⟩

theorem input_rewrites (g1 : StopsBeforeComma Y.path) (g2 : StopsBeforeComma Y.type) (g3 : StopsBeforeComma Y.expr)
    {ls ls' : List (Tok × Toks)} (hl : RewritesLoops ls ls') {ts ts' : Toks} (hd : RewritesDefs known Y ts ts')
    {a : PAst} (h : ReadsInput known Y (loopsText ls ++ ts) a) :
    ∃ a', ReadsInput known Y (loopsText ls' ++ ts') a' ∧ a'.loops = a.loops ∧ a'.block = a.block ∧ a'.spec.map specText = a.spec.map specText := by
  cases h with
  | @mk _ _ _ _ s _ id h hm hb ht =>
    obtain ⟨s', h4, h5⟩ := header_rewrites h1 h2 h3 g1 g2 g3 hl hd h
    refine ⟨_, .mk id h4 hm hb ?_, rfl, rfl, h5⟩
    rcases ht with ht | ⟨c, t, ht, hs, hc⟩
    · exact .inl ht
    · refine .inr ⟨c, t, ht, hs, ?_⟩
      rintro s1 rfl
      cases s with
      | none => cases h5
      | some s =>
        rw [← hc s rfl]
        simp [specText] at h5
        exact h5.2

theorem attr_rewrites (g1 : StopsBeforeComma Y.path) (g2 : StopsBeforeComma Y.type) (g3 : StopsBeforeComma Y.expr)
    {ls ls' : List (Tok × Toks)} (hl : RewritesLoops ls ls') {ts ts' : Toks} (hd : RewritesDefs known Y ts ts')
    {a : PAst} (h : ReadsAttr known Y (loopsText ls ++ ts) a) :
    ∃ a', ReadsAttr known Y (loopsText ls' ++ ts') a' ∧ a'.loops = a.loops ∧ a'.block = a.block ∧ a'.spec.map specText = a.spec.map specText := by
  cases h with
  | @mk _ _ s id h ht =>
    obtain ⟨s', h4, h5⟩ := header_rewrites h1 h2 h3 g1 g2 g3 hl hd h
    refine ⟨_, .mk id h4 ?_, rfl, rfl, h5⟩
    rcases ht with ht | ⟨hi, ht⟩
    · exact .inl ht
    · refine .inr ⟨?_, ht⟩
      cases s with
      | none => cases hi
      | some s =>
        cases s' with
        | none => cases h5
        | some s' => rfl
end

theorem rewritesCall_symm {known : Str → Bool} {v v' : Toks} (h : RewritesCall known v v') : RewritesCall known v' v := by
  cases h with
  | mk hk hn hr h => exact .mk hk hn (hr.imp Eq.symm id) h.symm

theorem rewritesDefs_symm {known : Str → Bool} {Y : Syn} {ts ts' : Toks} (h : RewritesDefs known Y ts ts') : RewritesDefs known Y ts' ts := by
  induction h with
  | same ts => exact .same ts
  | cons hn hv hs _ ih => exact .cons hn (rewritesCall_symm hv) hs ih
  | value hn hv hv' _ ih => exact .value hn hv' hv ih
  | last hn hv => exact .last hn (rewritesCall_symm hv)

theorem finalComma_symm {c c' : Toks} (h : FinalComma c c') : FinalComma c' c := by
  cases h with
  | same c => exact .same c
  | added j h => exact .dropped j h
  | dropped j h => exact .added j h

theorem rewritesLoops_symm {ls ls' : List (Tok × Toks)} (h : RewritesLoops ls ls') : RewritesLoops ls' ls := by
  induction h with
  | nil => exact .nil
  | cons h _ ih =>
    refine .cons ?_ ih
    cases h with
    | simple t ht h => exact .simple t ht (finalComma_symm h)
    | tuple hx h => exact .tuple (finalComma_symm hx) (finalComma_symm h)

theorem tree_unquoted {a a' : PAst} (hl : a'.loops = a.loops) (hb : a'.block = a.block) (hs : a'.spec.map specText = a.spec.map specText) :
    (tree a').map (fun n => n) unquoted = (tree a).map (fun n => n) unquoted := by
  simp only [tree, PAst.conv, RawAst.map, hl, hb]
  congr 1
  cases h : a.spec with
  | none =>
    rw [h] at hs
    cases h' : a'.spec with
    | none => rfl
    | some s => rw [h'] at hs; cases hs
  | some s =>
    rw [h] at hs
    cases h' : a'.spec with
    | none => rw [h'] at hs; cases hs
    | some s' =>
      rw [h'] at hs
      simp only [Option.map_some, Option.some.injEq, specText, Prod.mk.injEq] at hs
      simp only [Option.map_some, AliasSpec.map, mapItems, List.map_map, Function.comp_def, hs.2]
      have := hs.1
      unfold itemText at this
      rw [this]

end Verif
