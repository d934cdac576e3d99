import Verif.Spec.Leafmap
/-!
# Reading tokens in which names and strings were replaced
-/

set_option linter.unusedSectionVars false

namespace Verif.Spec
namespace Leafmap
variable {m : Leafmap}

theorem toks_map (ts : Toks) : m.toks ts = ts.map m.tok := by
  induction ts with
  | nil => rfl
  | cons t ts ih => simp [toks, ih]

theorem toks_append (a b : Toks) : m.toks (a ++ b) = m.toks a ++ m.toks b := by simp [toks_map]

theorem toks_eq_nil {ts : Toks} : m.toks ts = [] ↔ ts = [] := by simp [toks_map]

theorem toks_eq_cons {ts r : Toks} {t : Tok} (h : m.toks ts = t :: r) : ∃ t' r', ts = t' :: r' ∧ m.tok t' = t ∧ m.toks r' = r := by
  cases ts with
  | nil => cases h
  | cons a b => cases h; exact ⟨a, b, rfl, rfl, rfl⟩

theorem tok_group {t : Tok} {d : Delim} {c : Toks} (h : m.tok t = .group d c) : ∃ c', t = .group d c' ∧ m.toks c' = c := by
  cases t with
  | group d' c' => simp only [tok, Tok.group.injEq] at h; obtain ⟨rfl, rfl⟩ := h; exact ⟨c', rfl, rfl⟩
  | ident _ => cases h
  | punct _ _ => cases h
  | lit l => cases l <;> cases h

theorem tok_ident {t : Tok} {n : Str} (h : m.tok t = .ident n) : ∃ n', t = .ident n' ∧ m.name n' = n := by
  cases t with
  | group d' c' => cases h
  | ident n' => cases h; exact ⟨n', rfl, rfl⟩
  | punct _ _ => cases h
  | lit l => cases l <;> cases h

theorem tok_punct {t : Tok} {c : Char} {j : Bool} (h : m.tok t = .punct c j) : t = .punct c j := by
  cases t with
  | group d' c' => cases h
  | ident n' => cases h
  | punct _ _ => cases h; rfl
  | lit l => cases l <;> cases h

theorem tok_int {t : Tok} {r : Str} {n : Nat} (h : m.tok t = .lit (.int r n)) : t = .lit (.int r n) := by
  cases t with
  | group d' c' => cases h
  | ident n' => cases h
  | punct _ _ => cases h
  | lit l => cases l <;> first | (cases h; done) | (cases h; rfl)

theorem tok_str {t : Tok} {r v : Str} (h : m.tok t = .lit (.str r v)) : ∃ r' v', t = .lit (.str r' v') ∧ m.text r' v' = (r, v) := by
  cases t with
  | group d' c' => cases h
  | ident n' => cases h
  | punct _ _ => cases h
  | lit l =>
    cases l with
    | str r' v' => cases h; exact ⟨r', v', rfl, rfl⟩
    | int _ _ => cases h
    | other _ => cases h

theorem tok_sep {t : Tok} {b : Bool} : IsSep b (m.tok t) ↔ IsSep b t := by
  constructor
  · intro h
    generalize e : m.tok t = t' at h
    cases h with
    | comma j => rw [tok_punct e]; exact .comma j
    | semi j => rw [tok_punct e]; exact .semi j
  · intro h
    cases h with
    | comma j => exact .comma j
    | semi j => exact .semi j

theorem ends_iff {ts : Toks} : Ends (m.toks ts) ↔ Ends ts := by
  constructor
  · intro h
    generalize e : m.toks ts = ts' at h
    cases h with
    | nil => rw [toks_eq_nil.1 e]; exact .nil
    | comma j r => obtain ⟨t, r', rfl, h1, -⟩ := toks_eq_cons e; rw [tok_punct h1]; exact .comma j r'
  · intro h
    cases h with
    | nil => exact .nil
    | comma j r => exact .comma j _

theorem blank_to {ts : Toks} (h : Blank ts) : Blank (m.toks ts) := by
  induction h with
  | nil => exact .nil
  | cons _ _ ih1 ih2 => exact .cons ih1 ih2

theorem blank_of {ts : Toks} (h : Blank (m.toks ts)) : Blank ts := by
  generalize e : m.toks ts = ts' at h
  induction h generalizing ts with
  | nil => rw [toks_eq_nil.1 e]; exact .nil
  | cons _ _ ih1 ih2 =>
    obtain ⟨t, r, rfl, h1, h2⟩ := toks_eq_cons e
    obtain ⟨c', rfl, h3⟩ := tok_group h1
    exact .cons (ih1 h3) (ih2 h2)

theorem first_to {ts : Toks} {t : Tok} {rest : Toks} (h : First ts t rest) : First (m.toks ts) (m.tok t) (m.toks rest) := by
  induction h with
  | here h => exact .here fun c e => by obtain ⟨c', h', -⟩ := tok_group e; exact h _ h'
  | inside _ ih => rw [toks_append]; exact .inside ih
  | skip hc _ ih => exact .skip (blank_to hc) ih

theorem first_of {ts : Toks} {t : Tok} {rest : Toks} (h : First (m.toks ts) t rest) :
    ∃ t' rest', First ts t' rest' ∧ m.tok t' = t ∧ m.toks rest' = rest := by
  generalize e : m.toks ts = ts' at h
  induction h generalizing ts with
  | here h =>
    obtain ⟨t', r, rfl, h1, h2⟩ := toks_eq_cons e
    refine ⟨t', r, .here fun c e => ?_, h1, h2⟩
    subst e
    exact h _ h1.symm
  | inside _ ih =>
    obtain ⟨t', r, rfl, h1, h2⟩ := toks_eq_cons e
    obtain ⟨c', rfl, h3⟩ := tok_group h1
    obtain ⟨t2, r2, h4, h5, h6⟩ := ih h3
    exact ⟨t2, _, .inside h4, h5, by rw [toks_append, h6, h2]⟩
  | skip hc _ ih =>
    obtain ⟨t', r, rfl, h1, h2⟩ := toks_eq_cons e
    obtain ⟨c', rfl, rfl⟩ := tok_group h1
    obtain ⟨t2, r2, h4, h5, h6⟩ := ih h2
    exact ⟨t2, r2, .skip (blank_of hc) h4, h5, h6⟩

theorem first_group_of {ts : Toks} {d : Delim} {c rest : Toks} (h : First (m.toks ts) (.group d c) rest) :
    ∃ c' rest', First ts (.group d c') rest' ∧ m.toks c' = c ∧ m.toks rest' = rest := by
  obtain ⟨t', rest', h1, h2, h3⟩ := first_of h
  obtain ⟨c', rfl, h4⟩ := tok_group h2
  exact ⟨c', rest', h1, h4, h3⟩

theorem first_ident_of {ts : Toks} {n : Str} {rest : Toks} (h : First (m.toks ts) (.ident n) rest) :
    ∃ n' rest', First ts (.ident n') rest' ∧ m.name n' = n ∧ m.toks rest' = rest := by
  obtain ⟨t', rest', h1, h2, h3⟩ := first_of h
  obtain ⟨c', rfl, h4⟩ := tok_ident h2
  exact ⟨c', rest', h1, h4, h3⟩

theorem pieces_toks (ts : Toks) : pieces (m.toks ts) = (pieces ts).map m.toks := by
  fun_induction pieces ts with
  | case1 => rfl
  | case2 j ts ih => simp [toks, tok, pieces, ih]
  | case3 t ts h e ih =>
    have : ∀ c j, m.tok t = .punct c j → c ≠ ',' := by
      intro c j e1 e2
      subst e2
      exact h j (tok_punct e1)
    rw [toks, pieces, ih, e]
    · rfl
    · intro j e1; exact this _ _ e1 rfl
  | case4 t ts h p ps e ih =>
    have : ∀ c j, m.tok t = .punct c j → c ≠ ',' := by
      intro c j e1 e2
      subst e2
      exact h j (tok_punct e1)
    rw [toks, pieces, ih, e]
    · rfl
    · intro j e1; exact this _ _ e1 rfl

mutual
theorem flatTok_length : ∀ t : Tok, (flatTok (m.tok t)).length = (flatTok t).length
  | .group d ts => by simpa [tok, flatTok] using flat_toks_length ts
  | .ident _ => rfl
  | .punct _ _ => rfl
  | .lit (.str _ _) => rfl
  | .lit (.int _ _) => rfl
  | .lit (.other _) => rfl
theorem flat_toks_length : ∀ ts : Toks, (flat (m.toks ts)).length = (flat ts).length
  | [] => rfl
  | t :: ts => by simp [toks, flat, flatTok_length t, flat_toks_length ts]
end

/-- What is asked of the replacement and of the grammar. -/
structure Blind (m : Leafmap) (known : Str → Bool) (Y : Syn) : Prop where
  kw : m.Keeps (· ∈ keywords)
  fn : m.Keeps (known · = true)
  path : ∀ ts, Y.path (m.toks ts) = Y.path ts
  type : ∀ ts, Y.type (m.toks ts) = Y.type ts
  expr : ∀ ts, Y.expr (m.toks ts) = Y.expr ts

theorem Keeps.iff {special : Str → Prop} (h : m.Keeps special) (n : Str) : special (m.name n) ↔ special n := by
  constructor
  · intro h1
    exact Classical.byContradiction fun h2 => h.others n h2 h1
  · intro h1
    rw [h.same n h1]
    exact h1

theorem Keeps.eq {special : Str → Prop} (h : m.Keeps special) {n : Str} (hn : special (m.name n)) : m.name n = n := h.same n ((h.iff n).1 hn)

section
variable {known : Str → Bool} {Y : Syn} (hb : Blind m known Y)
include hb

theorem readsAs_to {i : Nat} {ts : Toks} {v : VKind} {used rest : Toks} (h : ReadsAs Y i ts v used rest) :
    ReadsAs Y i (m.toks ts) (m.kind v) (m.toks used) (m.toks rest) := by
  cases h with
  | int h => exact .int (first_to h)
  | negInt h h' => exact .negInt (first_to h) (first_to h')
  | str h => exact .str (first_to h)
  | underscore h =>
    have e : m.name (S "_") = S "_" := hb.kw.same _ (by decide)
    have := first_to (m := m) h
    simp only [kind, toks, tok, e] at this ⊢
    exact .underscore this
  | ident h hn => exact .ident (first_to h) (hb.kw.others _ hn)
  | path _ n h =>
    have := ReadsAs.path (Y := Y) (m.toks ts) n ((hb.path ts).trans h)
    simpa [kind, toks_map] using this
  | type _ n h =>
    have := ReadsAs.type (Y := Y) (m.toks ts) n ((hb.type ts).trans h)
    simpa [kind, toks_map] using this
  | expr _ n h =>
    have := ReadsAs.expr (Y := Y) (m.toks ts) n ((hb.expr ts).trans h)
    simpa [kind, toks_map] using this

theorem readsAs_of {i : Nat} {ts : Toks} {v : VKind} {used rest : Toks} (h : ReadsAs Y i (m.toks ts) v used rest) :
    ∃ v' used' rest', ReadsAs Y i ts v' used' rest' ∧ m.kind v' = v ∧ m.toks used' = used ∧ m.toks rest' = rest := by
  cases h with
  | int h =>
    obtain ⟨t, r, h1, h2, h3⟩ := first_of h
    rw [tok_int h2] at h1
    exact ⟨_, _, r, .int h1, rfl, rfl, h3⟩
  | negInt h h' =>
    obtain ⟨t, r, h1, h2, rfl⟩ := first_of h
    rw [tok_punct h2] at h1
    obtain ⟨t', r', h1', h2', h3'⟩ := first_of h'
    rw [tok_int h2'] at h1'
    exact ⟨_, _, r', .negInt h1 h1', rfl, rfl, h3'⟩
  | str h =>
    obtain ⟨t, r, h1, h2, h3⟩ := first_of h
    obtain ⟨r', v', rfl, h4⟩ := tok_str h2
    exact ⟨_, _, r, .str h1, by simp [kind, h4], by simp [toks, tok, h4], h3⟩
  | underscore h =>
    obtain ⟨n, r, h1, h2, h3⟩ := first_ident_of h
    have e : m.name n = n := hb.kw.eq (by rw [h2]; decide)
    rw [h2] at e
    subst e
    exact ⟨_, _, r, .underscore h1, by simp [kind, h2], by simp [toks, tok, h2], h3⟩
  | ident h hn =>
    obtain ⟨n, r, h1, rfl, h3⟩ := first_ident_of h
    exact ⟨_, _, r, .ident h1 fun h => hn ((hb.kw.iff n).2 h), rfl, rfl, h3⟩
  | path _ n h => exact ⟨_, _, _, .path ts n ((hb.path ts).symm.trans h), by simp [kind, toks_map], by simp [toks_map], by simp [toks_map]⟩
  | type _ n h => exact ⟨_, _, _, .type ts n ((hb.type ts).symm.trans h), by simp [kind, toks_map], by simp [toks_map], by simp [toks_map]⟩
  | expr _ n h => exact ⟨_, _, _, .expr ts n ((hb.expr ts).symm.trans h), by simp [kind, toks_map], by simp [toks_map], by simp [toks_map]⟩

theorem readsValue_to {ts : Toks} {v : VKind} {rest : Toks} (h : ReadsValue Y ts v rest) : ReadsValue Y (m.toks ts) (m.kind v) (m.toks rest) := by
  cases h with
  | longest i _ used _ h he hmax =>
    refine .longest i _ (m.toks used) _ (readsAs_to hb h) (ends_iff.2 he) fun j v' used' rest' h' he' => ?_
    obtain ⟨v2, u2, r2, h2, -, rfl, rfl⟩ := readsAs_of hb h'
    rw [flat_toks_length, flat_toks_length]
    exact hmax j v2 u2 r2 h2 (ends_iff.1 he')
  | tokens used _ hnone h hc he =>
    refine .tokens _ _ (fun i v u r h' he' => ?_) (by rw [h, toks_append]) (fun j hj => ?_) (ends_iff.2 he)
    · obtain ⟨v2, u2, r2, h2, -, -, rfl⟩ := readsAs_of hb h'
      exact hnone i v2 u2 r2 h2 (ends_iff.1 he')
    · rw [toks_map, List.mem_map] at hj
      obtain ⟨t, h1, h2⟩ := hj
      rw [tok_punct h2] at h1
      exact hc j h1

theorem readsValue_of {ts : Toks} {v : VKind} {rest : Toks} (h : ReadsValue Y (m.toks ts) v rest) :
    ∃ v' rest', ReadsValue Y ts v' rest' ∧ m.kind v' = v ∧ m.toks rest' = rest := by
  cases h with
  | longest i _ used _ h he hmax =>
    obtain ⟨v2, u2, r2, h2, h3, rfl, rfl⟩ := readsAs_of hb h
    refine ⟨v2, r2, .longest i _ u2 _ h2 (ends_iff.1 he) fun j v' used' rest' h' he' => ?_, h3, rfl⟩
    have := hmax j _ _ _ (readsAs_to hb h') (ends_iff.2 he')
    rwa [flat_toks_length, flat_toks_length] at this
  | tokens used _ hnone h hc he =>
    rw [toks_map, List.map_eq_append_iff] at h
    obtain ⟨u, r, rfl, rfl, rfl⟩ := h
    rw [← toks_map] at he
    refine ⟨_, r, .tokens u r (fun i v u' r' h' he' => ?_) rfl (fun j hj => ?_) (ends_iff.1 he), by simp [kind, toks_map], by rw [toks_map]⟩
    · exact hnone i _ _ _ (readsAs_to hb h') (ends_iff.2 he')
    · exact hc j (List.mem_map.2 ⟨_, hj, rfl⟩)

theorem callAt_to {ts : Toks} {n : Str} {raw rest : Toks} (h : CallAt known ts n raw rest) : CallAt known (m.toks ts) n (m.toks raw) (m.toks rest) := by
  cases h with
  | mk h hk hn h' =>
    have := first_to (m := m) h
    simp only [tok, hb.fn.same n hk] at this
    exact .mk this hk hn (first_to h')

theorem callAt_of {ts : Toks} {n : Str} {raw rest : Toks} (h : CallAt known (m.toks ts) n raw rest) :
    ∃ raw' rest', CallAt known ts n raw' rest' ∧ m.toks raw' = raw ∧ m.toks rest' = rest := by
  cases h with
  | mk h hk hn h' =>
    obtain ⟨n', r, h1, rfl, rfl⟩ := first_ident_of h
    obtain ⟨c, r', h2, h3, h4⟩ := first_group_of h'
    have e := hb.fn.eq (n := n') hk
    rw [e] at hk hn ⊢
    exact ⟨c, r', .mk h1 hk hn h2, h3, h4⟩

mutual
theorem readsExpr_to {ts : Toks} {e : Expr} {rest : Toks} (h : ReadsExpr known Y ts e rest) :
    ReadsExpr known Y (m.toks ts) (m.expr e) (m.toks rest) := by
  match h with
  | .call id rid h ha =>
    have ih := readsPieces_to ha
    rw [← pieces_toks] at ih
    exact .call id rid (callAt_to hb h) ih
  | .dropped (p := p) id rid h hp he =>
    have ih := readsExpr_to he
    exact .dropped id rid (callAt_to hb h) (p := m.toks p) (by rw [pieces_toks]; exact List.mem_map.2 ⟨p, hp, rfl⟩) ih
  | .value id hn h =>
    refine .value id (fun n raw rest h' => ?_) (readsValue_to hb h)
    obtain ⟨raw', rest', h2, -, -⟩ := callAt_of hb h'
    exact hn _ _ _ h2
theorem readsPieces_to {ps : List Toks} {es : List Expr} (h : ReadsPieces known Y ps es) : ReadsPieces known Y (ps.map m.toks) (m.exprs es) := by
  match h with
  | .nil => exact .nil
  | .cons h hs => exact .cons (readsExpr_to h) (readsPieces_to hs)
end

mutual
theorem readsExpr_of {ts ts' : Toks} (e0 : m.toks ts = ts') {e : Expr} {rest : Toks} (h : ReadsExpr known Y ts' e rest) :
    ∃ e' rest', ReadsExpr known Y ts e' rest' ∧ m.expr e' = e ∧ m.toks rest' = rest := by
  match h with
  | .call id rid h ha =>
    rw [← e0] at h
    obtain ⟨raw', rest', h1, h2, h3⟩ := callAt_of hb h
    have ih := readsPieces_of (ps := pieces raw') (by rw [← h2, pieces_toks]) ha
    obtain ⟨args', h4, h5⟩ := ih
    exact ⟨_, rest', .call id rid h1 h4, by simp [expr, h5, h2], h3⟩
  | .dropped (p := p) id rid h hp he =>
    rw [← e0] at h
    obtain ⟨raw', rest', h1, h2, h3⟩ := callAt_of hb h
    rw [← h2, pieces_toks, List.mem_map] at hp
    obtain ⟨p', hp', h4⟩ := hp
    obtain ⟨e', r', h5, h6, h7⟩ := readsExpr_of h4 he
    obtain ⟨t, l, rfl, h8, h9⟩ := toks_eq_cons h7
    exact ⟨_, rest', .dropped id rid h1 hp' h5, by simp [expr, exprs, h2], h3⟩
  | .value id hn h =>
    rw [← e0] at h hn
    obtain ⟨v', rest', h1, h2, h3⟩ := readsValue_of hb h
    exact ⟨_, rest', .value id (fun n raw rest h' => hn _ _ _ (callAt_to hb h')) h1, by simp [expr, h2], h3⟩
theorem readsPieces_of {ps ps' : List Toks} (e0 : ps.map m.toks = ps') {es : List Expr} (h : ReadsPieces known Y ps' es) :
    ∃ es', ReadsPieces known Y ps es' ∧ m.exprs es' = es := by
  match h with
  | .nil =>
    rw [List.map_eq_nil_iff] at e0
    subst e0
    exact ⟨[], .nil, rfl⟩
  | .cons h hs =>
    rw [List.map_eq_cons_iff] at e0
    obtain ⟨p, ps1, rfl, h1, h2⟩ := e0
    obtain ⟨e', r', h3, h4, h5⟩ := readsExpr_of h1 h
    obtain ⟨es', h6, h7⟩ := readsPieces_of h2 hs
    rw [toks_eq_nil] at h5
    subst h5
    exact ⟨_, .cons h3 h6, by simp [exprs, h4, h7]⟩
end
end

/-! ## Lists, tuples, loops -/

/-- Reading with `R` before and after the replacement; `f` replaces in the trees. -/
structure Same {α : Type} (m : Leafmap) (f : α → α) (R : Toks → α → Toks → Prop) : Prop where
  to : ∀ ts a rest, R ts a rest → R (m.toks ts) (f a) (m.toks rest)
  of : ∀ ts a rest, R (m.toks ts) a rest → ∃ a' rest', R ts a' rest' ∧ f a' = a ∧ m.toks rest' = rest

section
variable {α : Type} {f : α → α} {R : Toks → α → Toks → Prop}

theorem commaList_to {ts : Toks} {as : List α} (h : CommaList R ts as) (hR : ∀ ts a rest, R ts a rest → R (m.toks ts) (f a) (m.toks rest)) :
    CommaList R (m.toks ts) (as.map f) := by
  induction h with
  | nil => exact .nil
  | last hne h => exact .last (fun e => hne (toks_eq_nil.1 e)) (hR _ _ _ h)
  | cons hne h _ ih => exact .cons (fun e => hne (toks_eq_nil.1 e)) (hR _ _ _ h) ih

theorem commaList_of {ts ts' : Toks} (e0 : m.toks ts = ts') {as : List α} (h : CommaList R ts' as)
    (hR : ∀ ts a rest, R (m.toks ts) a rest → ∃ a' rest', R ts a' rest' ∧ f a' = a ∧ m.toks rest' = rest) :
    ∃ as', CommaList R ts as' ∧ as'.map f = as := by
  induction h generalizing ts with
  | nil => rw [toks_eq_nil.1 e0]; exact ⟨[], .nil, rfl⟩
  | last hne h =>
    subst e0
    obtain ⟨a', r', h1, h2, h3⟩ := hR _ _ _ h
    rw [toks_eq_nil] at h3
    subst h3
    exact ⟨[a'], .last (fun e => hne (toks_eq_nil.2 e)) h1, by simp [h2]⟩
  | cons hne h _ ih =>
    subst e0
    obtain ⟨a', r', h1, h2, h3⟩ := hR _ _ _ h
    obtain ⟨t, r, rfl, h4, h5⟩ := toks_eq_cons h3
    obtain ⟨as', h6, h7⟩ := ih h5
    rw [tok_punct h4] at h1
    exact ⟨_, .cons (fun e => hne (toks_eq_nil.2 e)) h1 h6, by simp [h2, h7]⟩

theorem tups_map (ts : List (PTup α)) : tups f ts = ts.map (tup f) := by
  induction ts with
  | nil => simp [tups]
  | cons t ts ih => simp [tups, ih]

variable (hR : Same m f R)
include hR

mutual
theorem readsTup_to {ts : Toks} {t : PTup α} {rest : Toks} (h : ReadsTup R ts t rest) : ReadsTup R (m.toks ts) (tup f t) (m.toks rest) := by
  match h with
  | .val id hp h =>
    rw [tup]
    refine .val id (fun c r h' => ?_) (hR.to _ _ _ h)
    obtain ⟨c', r', h1, -, -⟩ := first_group_of h'
    exact hp _ _ h1
  | .tup id tid hp h =>
    have ih := readsTups_to h
    rw [tup]
    exact .tup id tid (first_to hp) ih
theorem readsTups_to {ts : Toks} {as : List (PTup α)} (h : CommaList (ReadsTup R) ts as) : CommaList (ReadsTup R) (m.toks ts) (tups f as) := by
  match h with
  | .nil => rw [tups]; exact .nil
  | .last hne h =>
    have ih := readsTup_to h
    rw [tups, tups]
    exact .last (fun e => hne (toks_eq_nil.1 e)) ih
  | .cons hne h hs =>
    have ih := readsTup_to h
    have ih' := readsTups_to hs
    rw [tups]
    exact .cons (fun e => hne (toks_eq_nil.1 e)) ih ih'
end

mutual
theorem readsTup_of {ts ts' : Toks} (e0 : m.toks ts = ts') {t : PTup α} {rest : Toks} (h : ReadsTup R ts' t rest) :
    ∃ t' rest', ReadsTup R ts t' rest' ∧ tup f t' = t ∧ m.toks rest' = rest := by
  match h with
  | .val id hp h =>
    rw [← e0] at h hp
    obtain ⟨a', r', h1, h2, h3⟩ := hR.of _ _ _ h
    exact ⟨_, r', .val id (fun c r h' => hp _ _ (first_to h')) h1, by rw [tup, h2], h3⟩
  | .tup id tid hp h =>
    rw [← e0] at hp
    obtain ⟨c', r', h1, h2, h3⟩ := first_group_of hp
    obtain ⟨as', h4, h5⟩ := readsTups_of h2 h
    exact ⟨_, r', .tup id tid h1 h4, by rw [tup, h5], h3⟩
theorem readsTups_of {ts ts' : Toks} (e0 : m.toks ts = ts') {as : List (PTup α)} (h : CommaList (ReadsTup R) ts' as) :
    ∃ as', CommaList (ReadsTup R) ts as' ∧ tups f as' = as := by
  match h with
  | .nil => rw [toks_eq_nil.1 e0]; exact ⟨[], .nil, by rw [tups]⟩
  | .last hne h =>
    obtain ⟨a', r', h1, h2, h3⟩ := readsTup_of e0 h
    rw [toks_eq_nil] at h3
    subst h3
    exact ⟨[a'], .last (fun e => hne (by rw [← e0, e]; rfl)) h1, by rw [tups, tups, h2]⟩
  | .cons hne h hs =>
    obtain ⟨a', r', h1, h2, h3⟩ := readsTup_of e0 h
    obtain ⟨t, r, rfl, h4, h5⟩ := toks_eq_cons h3
    obtain ⟨as', h6, h7⟩ := readsTups_of h5 hs
    rw [tok_punct h4] at h1
    exact ⟨_, .cons (fun e => hne (by rw [← e0, e]; rfl)) h1 h6, by rw [tups, h2, h7]⟩
end

theorem readsElem_same : Same m (elem f) (ReadsElem R) where
  to ts a rest h := by
    cases h with
    | tuple id hp h => exact .tuple id (first_to hp) (readsTups_to hR h)
    | simple hn h =>
      refine .simple (fun c r as h1 h2 => ?_) (hR.to _ _ _ h)
      obtain ⟨c', r', h3, h4, -⟩ := first_group_of h1
      obtain ⟨as', h5, -⟩ := readsTups_of hR h4 h2
      exact hn _ _ _ h3 h5
  of ts a rest h := by
    cases h with
    | tuple id hp h =>
      obtain ⟨c', r', h3, h4, h4'⟩ := first_group_of hp
      obtain ⟨as', h5, h6⟩ := readsTups_of hR h4 h
      exact ⟨_, r', .tuple id h3 h5, by rw [elem, h6], h4'⟩
    | simple hn h =>
      obtain ⟨a', r', h1, h2, h3⟩ := hR.of _ _ _ h
      exact ⟨_, r', .simple (fun c r as h1 h2 => hn _ _ _ (first_to h1) (readsTups_to hR h2)) h1, by rw [elem, h2], h3⟩
end

section
variable {known : Str → Bool} {Y : Syn} (hb : Blind m known Y)
include hb

theorem readsExpr_same : Same m m.expr (ReadsExpr known Y) := ⟨fun _ _ _ h => readsExpr_to hb h, fun _ _ _ h => readsExpr_of hb rfl h⟩

theorem readsAlias_same : Same m m.alias ReadsAlias where
  to ts a rest h := by
    cases h with
    | mk id h hn => exact .mk id (first_to h) (hb.kw.others _ hn)
  of ts a rest h := by
    cases h with
    | mk id h hn =>
      obtain ⟨n, r, h1, rfl, h3⟩ := first_ident_of h
      exact ⟨_, r, .mk id h1 fun h => hn ((hb.kw.iff n).2 h), rfl, h3⟩

theorem kw_of {t : Tok} {s : Str} (hs : s ∈ keywords) (h : m.tok t = .ident s) : t = .ident s := by
  obtain ⟨n, rfl, h1⟩ := tok_ident h
  rw [← hb.kw.eq (n := n) (by rw [h1]; exact hs), h1]

theorem readsLoop_same : Same m m.loop (ReadsLoop known Y) where
  to ts a rest h := by
    cases h with
    | mk id lid ha hb' hv =>
      have h1 := (readsElem_same (readsAlias_same hb)).to _ _ _ ha
      have e1 : m.tok (.ident (S "in")) = .ident (S "in") := by rw [tok, hb.kw.same _ (by decide)]
      have e2 : m.tok (.ident (S "for")) = .ident (S "for") := by rw [tok, hb.kw.same _ (by decide)]
      rw [toks, e1] at h1
      rw [toks, e2]
      exact .mk id lid h1 (first_to hb') (commaList_to hv (readsElem_same (readsExpr_same hb)).to)
  of ts a rest h := by
    generalize e : m.toks ts = ts' at h
    cases h with
    | mk id lid ha hb' hv =>
      obtain ⟨t, r, rfl, h1, rfl⟩ := toks_eq_cons e
      rw [kw_of hb (by decide) h1]
      obtain ⟨a', r', h2, h3, h4⟩ := (readsElem_same (readsAlias_same hb)).of _ _ _ ha
      obtain ⟨t2, r2, rfl, h5, rfl⟩ := toks_eq_cons h4
      rw [kw_of hb (by decide) h5] at h2
      obtain ⟨c, r3, h6, h7, h8⟩ := first_group_of hb'
      obtain ⟨vs', h9, h10⟩ := commaList_of h7 hv (readsElem_same (readsExpr_same hb)).of
      exact ⟨⟨id, a', lid, vs'⟩, r3, .mk id lid h2 h6 h9, by simp [loop, h3, h10], h8⟩

theorem no_for {ts : Toks} : (∀ r, m.toks ts ≠ .ident (S "for") :: r) ↔ ∀ r, ts ≠ .ident (S "for") :: r := by
  constructor
  · intro h r e
    refine h (m.toks r) ?_
    rw [e, toks, tok, hb.kw.same _ (by decide)]
  · intro h r e
    obtain ⟨t, r', rfl, h1, -⟩ := toks_eq_cons e
    exact h r' (by rw [kw_of hb (by decide) h1])

theorem readsLoops_same : Same m (List.map m.loop) (ReadsLoops known Y) where
  to ts a rest h := by
    induction h with
    | nil h => exact .nil ((no_for hb).2 h)
    | cons h _ ih => exact .cons ((readsLoop_same hb).to _ _ _ h) ih
  of ts a rest h := by
    generalize e : m.toks ts = ts' at h
    induction h generalizing ts with
    | nil h => subst e; exact ⟨[], ts, .nil ((no_for hb).1 h), rfl, rfl⟩
    | cons h _ ih =>
      subst e
      obtain ⟨l', r', h1, h2, h3⟩ := (readsLoop_same hb).of _ _ _ h
      obtain ⟨ls', r2, h4, h5, h6⟩ := ih _ h3
      exact ⟨_, r2, .cons h1 h4, by simp [h2, h5], h6⟩

/-! ## Definitions -/

theorem sep_next {rest : Toks} : (m.toks rest = [] ∨ ∃ b t r, m.toks rest = t :: r ∧ IsSep b t) ↔ (rest = [] ∨ ∃ b t r, rest = t :: r ∧ IsSep b t) := by
  constructor
  · rintro (h | ⟨b, t, r, h1, h2⟩)
    · exact .inl (toks_eq_nil.1 h)
    · obtain ⟨t', r', rfl, rfl, rfl⟩ := toks_eq_cons h1
      exact .inr ⟨b, t', r', rfl, tok_sep.1 h2⟩
  · rintro (rfl | ⟨b, t, r, rfl, h2⟩)
    · exact .inl rfl
    · exact .inr ⟨b, _, _, rfl, tok_sep.2 h2⟩

theorem readsItem_same : Same m m.item (ReadsItem known Y) where
  to ts a rest h := by
    cases h with
    | mk id aid vid ha hn h he =>
      exact .mk id aid vid (first_to ha) (hb.kw.others _ hn) (readsExpr_to hb h) ((sep_next hb).2 he)
  of ts a rest h := by
    cases h with
    | mk id aid vid ha hn h he =>
      obtain ⟨n, r, h1, rfl, h3⟩ := first_ident_of ha
      obtain ⟨t, r', rfl, h4, rfl⟩ := toks_eq_cons h3
      rw [tok_punct h4] at h1
      obtain ⟨e', r2, h5, rfl, rfl⟩ := readsExpr_of hb rfl h
      exact ⟨_, r2, .mk id aid vid h1 (fun h => hn ((hb.kw.iff n).2 h)) h5 ((sep_next hb).1 he), rfl, rfl⟩

theorem no_name {ts : Toks} : (∀ n r, First (m.toks ts) (.ident n) r → n ∈ keywords) ↔ ∀ n r, First ts (.ident n) r → n ∈ keywords := by
  constructor
  · intro h n r h1
    exact (hb.kw.iff n).1 (h _ _ (first_to h1))
  · intro h n r h1
    obtain ⟨n', r', h2, rfl, -⟩ := first_ident_of h1
    exact (hb.kw.iff n').2 (h _ _ h2)

theorem readsItems_to {ts : Toks} {is : List PItem} {bs : List Bool} {rest : Toks} (h : ReadsItems known Y ts is bs rest) :
    ReadsItems known Y (m.toks ts) (is.map m.item) bs (m.toks rest) := by
  induction h with
  | last h => exact .last ((readsItem_same hb).to _ _ _ h)
  | lastSep h hs hn => exact .lastSep ((readsItem_same hb).to _ _ _ h) (tok_sep.2 hs) ((no_name hb).2 hn)
  | cons h hs hm hn _ ih => exact .cons ((readsItem_same hb).to _ _ _ h) (tok_sep.2 hs) (first_to hm) (hb.kw.others _ hn) ih

theorem readsItems_of {ts ts' : Toks} (e : m.toks ts = ts') {is : List PItem} {bs : List Bool} {rest : Toks} (h : ReadsItems known Y ts' is bs rest) :
    ∃ is' rest', ReadsItems known Y ts is' bs rest' ∧ is'.map m.item = is ∧ m.toks rest' = rest := by
  induction h generalizing ts with
  | last h =>
    subst e
    obtain ⟨i', r', h1, rfl, h3⟩ := (readsItem_same hb).of _ _ _ h
    rw [toks_eq_nil] at h3
    subst h3
    exact ⟨[i'], [], .last h1, rfl, rfl⟩
  | lastSep h hs hn =>
    subst e
    obtain ⟨i', r', h1, rfl, h3⟩ := (readsItem_same hb).of _ _ _ h
    obtain ⟨t, r, rfl, rfl, rfl⟩ := toks_eq_cons h3
    exact ⟨[i'], r, .lastSep h1 (tok_sep.1 hs) ((no_name hb).1 hn), rfl, rfl⟩
  | cons h hs hm hn _ ih =>
    subst e
    obtain ⟨i', r', h1, rfl, h3⟩ := (readsItem_same hb).of _ _ _ h
    obtain ⟨t, r, rfl, rfl, rfl⟩ := toks_eq_cons h3
    obtain ⟨is', r2, h4, rfl, h6⟩ := ih rfl
    obtain ⟨n', r3, h7, rfl, -⟩ := first_ident_of hm
    exact ⟨_, r2, .cons h1 (tok_sep.1 hs) h7 (fun h => hn ((hb.kw.iff n').2 h)) h4, rfl, h6⟩

theorem readsSpec_same : Same m m.spec (ReadsSpec known Y) where
  to ts a rest h := by
    cases h with
    | mk id h hbs => exact .mk id (readsItems_to hb h) hbs
  of ts a rest h := by
    cases h with
    | mk id h hbs =>
      obtain ⟨is', r', h1, rfl, h3⟩ := readsItems_of hb rfl h
      exact ⟨_, r', .mk id h1 hbs, rfl, h3⟩

/-- Loops and definitions with the replacement made. -/
def _root_.Verif.Spec.Leafmap.header (m : Leafmap) (h : Option PLoops × Option PSpec) : Option PLoops × Option PSpec := (h.1.map m.loops, h.2.map m.spec)

theorem readsHeader_same : Same m m.header (ReadsHeader known Y) where
  to ts a rest h := by
    cases h with
    | @mk mid _ ls s hl hs =>
      refine .mk (mid := m.toks mid) ?_ ?_
      · rcases hl with ⟨rfl, rfl, h⟩ | ⟨id, l, rfl, h1, h2⟩
        · exact .inl ⟨rfl, rfl, (no_for hb).2 h⟩
        · exact .inr ⟨id, _, rfl, by simpa using h1, (readsLoops_same hb).to _ _ _ h2⟩
      · rcases hs with ⟨rfl, rfl, h⟩ | ⟨s', rfl, ⟨n, r, h1, h2⟩, h3⟩
        · exact .inl ⟨rfl, rfl, (no_name hb).2 h⟩
        · exact .inr ⟨_, rfl, ⟨_, _, first_to h1, hb.kw.others _ h2⟩, (readsSpec_same hb).to _ _ _ h3⟩
  of ts a rest h := by
    cases h with
    | @mk mid _ ls s hl hs =>
      have : ∃ ls' mid', ls'.map m.loops = ls ∧ m.toks mid' = mid ∧
          ((ls' = none ∧ mid' = ts ∧ ∀ r, ts ≠ .ident (S "for") :: r) ∨ ∃ id l, ls' = some ⟨id, l⟩ ∧ l ≠ [] ∧ ReadsLoops known Y ts l mid') := by
        rcases hl with ⟨rfl, rfl, h⟩ | ⟨id, l, rfl, h1, h2⟩
        · exact ⟨none, ts, rfl, rfl, .inl ⟨rfl, rfl, (no_for hb).1 h⟩⟩
        · obtain ⟨l', r', h3, rfl, h5⟩ := (readsLoops_same hb).of _ _ _ h2
          exact ⟨some ⟨id, l'⟩, r', rfl, h5, .inr ⟨id, l', rfl, by simpa using h1, h3⟩⟩
      obtain ⟨ls', mid', rfl, rfl, hl'⟩ := this
      rcases hs with ⟨rfl, rfl, h⟩ | ⟨s', rfl, ⟨n, r, h1, h2⟩, h3⟩
      · exact ⟨(ls', none), mid', .mk hl' (.inl ⟨rfl, rfl, (no_name hb).1 h⟩), rfl, rfl⟩
      · obtain ⟨n', r', h4, rfl, -⟩ := first_ident_of h1
        obtain ⟨s2, r2, h5, rfl, h6⟩ := (readsSpec_same hb).of _ _ _ h3
        exact ⟨(ls', some s2), r2, .mk hl' (.inr ⟨s2, rfl, ⟨n', r', h4, fun h => h2 ((hb.kw.iff n').2 h)⟩, h5⟩), rfl, h6⟩
end
end Leafmap
end Verif.Spec
