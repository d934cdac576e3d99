import Verif.Spec.SpanReads
import Verif.Proofs.Spans
import Verif.Proofs.Run
/-! # Where the nodes of the parsed input stand -/

namespace Verif
open Spec

variable {σ : Type}

/-! ## The first token -/

theorem First.lift {ts : Toks} {t : Tok} {rest : Toks} (h : First ts t rest) : ∀ {sts : SToks σ}, STok.eraseL sts = ts →
    ∃ st srest, FirstS sts st srest ∧ st.erase = t ∧ STok.eraseL srest = rest := by
  induction h with
  | @here t rest h =>
    intro sts e
    match sts, e with
    | st :: srest, e =>
      simp only [eraseL_cons, List.cons.injEq] at e
      refine ⟨st, srest, .here ?_, e.1, e.2⟩
      rintro c sp rfl
      exact h (STok.eraseL c) (by rw [← e.1]; simp)
  | @inside c t r rest h ih =>
    intro sts e
    match sts, e with
    | .group d sc sp :: srest, e =>
      simp only [eraseL_cons, erase_group, List.cons.injEq, Tok.group.injEq] at e
      obtain ⟨⟨rfl, rfl⟩, rfl⟩ := e
      obtain ⟨st, sr, h1, h2, rfl⟩ := ih rfl
      exact ⟨st, sr ++ srest, .inside h1, h2, by simp⟩
    | .ident _ _ :: _, e => simp at e
    | .punct _ _ _ :: _, e => simp at e
    | .lit _ _ :: _, e => simp at e
  | @skip c t ts rest hc h ih =>
    intro sts e
    match sts, e with
    | .group d sc sp :: srest, e =>
      simp only [eraseL_cons, erase_group, List.cons.injEq, Tok.group.injEq] at e
      obtain ⟨⟨rfl, rfl⟩, rfl⟩ := e
      obtain ⟨st, sr, h1, h2, rfl⟩ := ih rfl
      exact ⟨st, sr, .skip hc h1, h2, rfl⟩
    | .ident _ _ :: _, e => simp at e
    | .punct _ _ _ :: _, e => simp at e
    | .lit _ _ :: _, e => simp at e

theorem erase_eq_ident {t : STok σ} {n : Str} (h : t.erase = .ident n) : ∃ sp, t = .ident n sp := by
  cases t <;> simp at h; exact ⟨_, by rw [h]⟩
theorem erase_eq_punct {t : STok σ} {c : Char} {j : Bool} (h : t.erase = .punct c j) : ∃ sp, t = .punct c j sp := by
  cases t <;> simp at h; exact ⟨_, by rw [h.1, h.2]⟩
theorem erase_eq_lit {t : STok σ} {l : Lit} (h : t.erase = .lit l) : ∃ sp, t = .lit l sp := by
  cases t <;> simp at h; exact ⟨_, by rw [h]⟩
theorem erase_eq_group {t : STok σ} {d : Delim} {c : Toks} (h : t.erase = .group d c) : ∃ sc sp, t = .group d sc sp ∧ STok.eraseL sc = c := by
  cases t <;> simp at h; exact ⟨_, _, by rw [h.1], h.2⟩
theorem eraseL_eq_cons {ts : SToks σ} {t : Tok} {rest : Toks} (h : STok.eraseL ts = t :: rest) :
    ∃ st srest, ts = st :: srest ∧ st.erase = t ∧ STok.eraseL srest = rest := by
  match ts, h with
  | st :: srest, h => simp only [eraseL_cons, List.cons.injEq] at h; exact ⟨st, srest, rfl, h.1, h.2⟩
theorem eraseL_eq_nil {ts : SToks σ} (h : STok.eraseL ts = []) : ts = [] := by
  match ts, h with
  | [], _ => rfl
theorem eraseL_eq_append {ts : SToks σ} {us vs : Toks} (h : STok.eraseL ts = us ++ vs) :
    ∃ sus svs, ts = sus ++ svs ∧ STok.eraseL sus = us ∧ STok.eraseL svs = vs := by
  refine ⟨ts.take us.length, ts.drop us.length, by simp, ?_, ?_⟩
  · rw [eraseL_eq_map, List.map_take, ← eraseL_eq_map, h]; simp
  · rw [eraseL_eq_map, List.map_drop, ← eraseL_eq_map, h]; simp

theorem eraseL_take (ts : SToks σ) (n : Nat) : STok.eraseL (ts.take n) = (STok.eraseL ts).take n := by simp [eraseL_eq_map]
theorem eraseL_drop (ts : SToks σ) (n : Nat) : STok.eraseL (ts.drop n) = (STok.eraseL ts).drop n := by simp [eraseL_eq_map]

theorem First.lift_ident {sts : SToks σ} {n : Str} {rest : Toks} (h : First (STok.eraseL sts) (.ident n) rest) :
    ∃ sp srest, FirstS sts (.ident n sp) srest ∧ STok.eraseL srest = rest := by
  obtain ⟨st, sr, h1, h2, h3⟩ := First.lift h rfl
  obtain ⟨sp, rfl⟩ := erase_eq_ident h2
  exact ⟨sp, sr, h1, h3⟩
theorem First.lift_punct {sts : SToks σ} {c : Char} {j : Bool} {rest : Toks} (h : First (STok.eraseL sts) (.punct c j) rest) :
    ∃ sp srest, FirstS sts (.punct c j sp) srest ∧ STok.eraseL srest = rest := by
  obtain ⟨st, sr, h1, h2, h3⟩ := First.lift h rfl
  obtain ⟨sp, rfl⟩ := erase_eq_punct h2
  exact ⟨sp, sr, h1, h3⟩
theorem First.lift_lit {sts : SToks σ} {l : Lit} {rest : Toks} (h : First (STok.eraseL sts) (.lit l) rest) :
    ∃ sp srest, FirstS sts (.lit l sp) srest ∧ STok.eraseL srest = rest := by
  obtain ⟨st, sr, h1, h2, h3⟩ := First.lift h rfl
  obtain ⟨sp, rfl⟩ := erase_eq_lit h2
  exact ⟨sp, sr, h1, h3⟩
theorem First.lift_group {sts : SToks σ} {d : Delim} {c rest : Toks} (h : First (STok.eraseL sts) (.group d c) rest) :
    ∃ sc sp srest, FirstS sts (.group d sc sp) srest ∧ STok.eraseL sc = c ∧ STok.eraseL srest = rest := by
  obtain ⟨st, sr, h1, h2, h3⟩ := First.lift h rfl
  obtain ⟨sc, sp, rfl, rfl⟩ := erase_eq_group h2
  exact ⟨sc, sp, sr, h1, rfl, h3⟩

/-! ## Values -/

theorem ReadsValue.lift {Y : Syn} {P : SpanOps σ} {sts : SToks σ} {v : VKind} {rest : Toks} (h : ReadsValue Y (STok.eraseL sts) v rest) :
    ∃ sv srest, StandsVal Y P sts sv srest ∧ sv.erase = v ∧ STok.eraseL srest = rest := by
  cases h with
  | longest i v used rest h _ _ =>
    cases h with
    | int h => obtain ⟨sp, sr, h1, h2⟩ := First.lift_lit h; exact ⟨_, sr, .int h1, rfl, h2⟩
    | negInt h h' =>
      obtain ⟨sp, sr, h1, rfl⟩ := First.lift_punct h
      obtain ⟨sq, sr', h3, h4⟩ := First.lift_lit h'
      exact ⟨_, sr', .negInt h1 h3, rfl, h4⟩
    | str h => obtain ⟨sp, sr, h1, h2⟩ := First.lift_lit h; exact ⟨_, sr, .str h1, rfl, h2⟩
    | underscore h => obtain ⟨sp, sr, h1, h2⟩ := First.lift_ident h; exact ⟨_, sr, .ident h1, rfl, h2⟩
    | ident h => obtain ⟨sp, sr, h1, h2⟩ := First.lift_ident h; exact ⟨_, sr, .ident h1, rfl, h2⟩
    | path _ n h => exact ⟨_, _, .path sts n h, by simp [SVal.erase, eraseL_take], by simp [eraseL_drop]⟩
    | type _ n h => exact ⟨_, _, .type sts n h, by simp [SVal.erase, eraseL_take], by simp [eraseL_drop]⟩
    | expr _ n h => exact ⟨_, _, .expr sts n h, by simp [SVal.erase, eraseL_take], by simp [eraseL_drop]⟩
  | tokens used rest _ h _ _ =>
    obtain ⟨su, sr, rfl, rfl, rfl⟩ := eraseL_eq_append h
    exact ⟨_, _, .tokens su sr, rfl, rfl⟩

theorem StandsVal.not_raw {Y : Syn} {P : SpanOps σ} {sts : SToks σ} {v : SVal σ} {rest : SToks σ} (h : StandsVal Y P sts v rest) : v.erase.ty ≠ .raw := by
  cases h <;> simp [SVal.erase, VKind.ty]

/-! ## Marks -/

/-- What a source should say about some nodes. -/
abbrev Mark (σ : Type) := List (Nat × (SVal σ ⊕ σ))

/-- The source says so. -/
def Mark.Holds (m : Mark σ) (src : Source σ) : Prop :=
  (∀ id v, (id, .inl v) ∈ m → src.vals id = v) ∧ ∀ id sp, (id, .inr sp) ∈ m → src.calls id = sp

theorem Mark.Holds.left {m m' : Mark σ} {src : Source σ} (h : Mark.Holds (m ++ m') src) : Mark.Holds m src :=
  ⟨fun id v hm => h.1 id v (List.mem_append_left _ hm), fun id v hm => h.2 id v (List.mem_append_left _ hm)⟩
theorem Mark.Holds.right {m m' : Mark σ} {src : Source σ} (h : Mark.Holds (m ++ m') src) : Mark.Holds m' src :=
  ⟨fun id v hm => h.1 id v (List.mem_append_right _ hm), fun id v hm => h.2 id v (List.mem_append_right _ hm)⟩

/-- A source for marks at different nodes. -/
theorem Mark.exists_source (P : SpanOps σ) {m : Mark σ} (hN : (m.map (·.1)).Nodup) : ∃ src, Mark.Holds m src := by
  refine ⟨⟨fun id => match m.lookup id with | some (.inl v) => v | _ => .raw [], fun id => match m.lookup id with | some (.inr sp) => sp | _ => P.callSite⟩, ?_⟩
  have key : ∀ (m : Mark σ), (m.map (·.1)).Nodup → ∀ id x, (id, x) ∈ m → m.lookup id = some x := by
    intro m
    induction m with
    | nil => intro _ _ _ h; cases h
    | cons y ys ih =>
      intro hN id x hm
      simp only [List.map_cons, List.nodup_cons] at hN
      rcases List.mem_cons.1 hm with e | hm
      · rw [← e]; simp [List.lookup]
      · have hne : id ≠ y.1 := fun e => hN.1 (e ▸ List.mem_map.2 ⟨_, hm, rfl⟩)
        have : (id == y.1) = false := by simp [hne]
        simp only [List.lookup, this]
        exact ih hN.2 id x hm
  exact ⟨fun id v h => by simp [key m hN _ _ h], fun id v h => by simp [key m hN _ _ h]⟩

/-- `R` for all sources that agree with some marks at the nodes `l`. -/
def Lifts (l : List Nat) (R : Source σ → Prop) : Prop := ∃ m : Mark σ, AtMost (m.map (·.1)) l ∧ ∀ src, m.Holds src → R src

theorem Lifts.pure {l : List Nat} {R : Source σ → Prop} (h : ∀ src, R src) : Lifts l R :=
  ⟨[], .of_sublist (List.nil_sublist _), fun src _ => h src⟩

theorem Lifts.imp {l : List Nat} {R R' : Source σ → Prop} (h : Lifts l R) (hi : ∀ src, R src → R' src) : Lifts l R' := by
  obtain ⟨m, h1, h2⟩ := h
  exact ⟨m, h1, fun src hs => hi src (h2 src hs)⟩

theorem Lifts.mono {l l' : List Nat} {R : Source σ → Prop} (h : Lifts l R) (hl : AtMost l l') : Lifts l' R := by
  obtain ⟨m, h1, h2⟩ := h
  exact ⟨m, h1.trans hl, h2⟩

theorem Lifts.and {l l' : List Nat} {R R' : Source σ → Prop} (h : Lifts l R) (h' : Lifts l' R') : Lifts (l ++ l') fun src => R src ∧ R' src := by
  obtain ⟨m, h1, h2⟩ := h
  obtain ⟨m', h3, h4⟩ := h'
  refine ⟨m ++ m', ?_, fun src hs => ⟨h2 src hs.left, h4 src hs.right⟩⟩
  rw [List.map_append]
  exact h1.append h3

theorem Lifts.val (id : Nat) (v : SVal σ) : Lifts [id] fun src => src.vals id = v :=
  ⟨[(id, .inl v)], .refl _, fun src h => h.1 id v (by simp)⟩
theorem Lifts.call (id : Nat) (sp : σ) : Lifts [id] fun src => src.calls id = sp :=
  ⟨[(id, .inr sp)], .refl _, fun src h => h.2 id sp (by simp)⟩

/-! ## Expressions -/

theorem piecesS_erase (ts : SToks σ) : (piecesS ts).map STok.eraseL = pieces (STok.eraseL ts) := by
  fun_induction piecesS ts with
  | case1 => rfl
  | case2 j sp ts ih => simp [pieces, ih]
  | case3 t ts hc hp ih =>
    rw [hp] at ih
    rw [eraseL_cons, pieces, ← ih]
    · simp
    · intro j e; obtain ⟨sp, rfl⟩ := erase_eq_punct e; exact hc _ _ rfl
  | case4 t ts hc p ps hp ih =>
    rw [hp] at ih
    rw [eraseL_cons, pieces, ← ih]
    · simp
    · intro j e; obtain ⟨sp, rfl⟩ := erase_eq_punct e; exact hc _ _ rfl

variable {known : Str → Bool} {Y : Syn} {P : SpanOps σ}

mutual
theorem ReadsExpr.lift : ∀ (e : Expr) {sts : SToks σ} {rest : Toks}, ReadsExpr known Y (STok.eraseL sts) e rest →
    ∃ srest, STok.eraseL srest = rest ∧ Lifts (ids e) fun src => Stands Y P src sts e srest
  | .value id v, sts, rest, h => by
    cases h with
    | value _ _ h =>
      obtain ⟨sv, sr, h1, rfl, h3⟩ := ReadsValue.lift (P := P) h
      exact ⟨sr, h3, (Lifts.val id sv).imp fun src hs => .value h1 hs⟩
  | .call id n args raw, sts, rest, h => by
    have ih := fun (sps : List (SToks σ)) (h : ReadsPieces known Y (sps.map STok.eraseL) args) => ReadsPieces.lift args h
    cases h with
    | call _ rid h ha =>
      cases h with
      | mk h hk hn h' =>
        obtain ⟨sp, sr, h1, rfl⟩ := First.lift_ident h
        obtain ⟨sc, sq, sr', h2, rfl, h3⟩ := First.lift_group h'
        rw [← piecesS_erase] at ha
        refine ⟨sr', h3, (((Lifts.call id sp).and (Lifts.val rid (.raw sc))).and (ih _ ha)).imp fun src hs => .call h1 h2 hs.1.1 hs.1.2 hs.2⟩
    | dropped _ rid h hp he =>
      cases h with
      | mk h hk hn h' =>
        obtain ⟨sp, sr, h1, rfl⟩ := First.lift_ident h
        obtain ⟨sc, sq, sr', h2, rfl, h3⟩ := First.lift_group h'
        refine ⟨sr', h3, (((Lifts.call id sp).and (Lifts.val rid (.raw sc))).imp fun src hs => Stands.dropped h1 h2 hs.1 hs.2).mono ?_⟩
        exact .of_sublist (by simp [ids])
theorem ReadsPieces.lift : ∀ (es : List Expr) {sps : List (SToks σ)}, ReadsPieces known Y (sps.map STok.eraseL) es →
    Lifts (idsL es) fun src => StandsL Y P src sps es
  | [], sps, h => by
    generalize hp : sps.map STok.eraseL = ps at h
    cases h
    cases sps with
    | nil => exact .pure fun _ => .nil
    | cons _ _ => cases hp
  | e :: es, sps, h => by
    have ih1 := fun (sts : SToks σ) (h : ReadsExpr known Y (STok.eraseL sts) e []) => ReadsExpr.lift e h
    have ih2 := fun (sps : List (SToks σ)) (h : ReadsPieces known Y (sps.map STok.eraseL) es) => ReadsPieces.lift es h
    generalize hp : sps.map STok.eraseL = ps at h
    cases h with
    | cons h hs =>
      match sps, hp with
      | sp :: sps, hp =>
        simp only [List.map_cons, List.cons.injEq] at hp
        obtain ⟨rfl, rfl⟩ := hp
        obtain ⟨sr, h1, h2⟩ := ih1 _ h
        cases eraseL_eq_nil h1
        exact (h2.and (ih2 _ hs)).imp fun src hs => .cons hs.1 hs.2
end

/-! ## Lists, tuples, loops -/

section
variable {α : Type} {R : Toks → α → Toks → Prop} {Q : Source σ → SToks σ → α → SToks σ → Prop} {f : α → List Nat}

/-- What is read by `R` stands where `Q` says. -/
def LiftsTo (R : Toks → α → Toks → Prop) (Q : Source σ → SToks σ → α → SToks σ → Prop) (f : α → List Nat) (a : α) : Prop :=
  ∀ (sts : SToks σ) (rest : Toks), R (STok.eraseL sts) a rest → ∃ srest, STok.eraseL srest = rest ∧ Lifts (f a) fun src => Q src sts a srest

theorem CommaList.lift : ∀ (as : List α) {sts : SToks σ}, (∀ a ∈ as, LiftsTo R Q f a) → CommaList R (STok.eraseL sts) as →
    Lifts (as.flatMap f) fun src => CommaListS (Q src) sts as
  | [], sts, _, h => by
    generalize e : STok.eraseL sts = ts at h
    cases h
    cases eraseL_eq_nil e
    exact .pure fun _ => .nil
  | a :: as, sts, hR, h => by
    rw [List.flatMap_cons]
    generalize e : STok.eraseL sts = ts at h
    cases h with
    | last hne h =>
      subst e
      obtain ⟨sr, h1, h2⟩ := hR a List.mem_cons_self _ _ h
      cases eraseL_eq_nil h1
      exact (h2.imp fun src h => CommaListS.last h).mono (.of_sublist (by simp))
    | cons hne h hs =>
      subst e
      obtain ⟨sr, h1, h2⟩ := hR a List.mem_cons_self _ _ h
      obtain ⟨st, sr, rfl, h3, rfl⟩ := eraseL_eq_cons h1
      obtain ⟨sp, rfl⟩ := erase_eq_punct h3
      exact (h2.and (CommaList.lift as (fun b hb => hR b (List.mem_cons_of_mem _ hb)) hs)).imp fun src h => .cons h.1 h.2

theorem tupIdsL_flatMap (ts : List (PTup α)) : tupIdsL f ts = ts.flatMap (tupIds f) := by
  induction ts with
  | nil => simp [tupIdsL]
  | cons t ts ih => simp [tupIdsL, ih]

mutual
theorem ReadsTup.lift (hR : ∀ a, LiftsTo R Q f a) : ∀ (t : PTup α), LiftsTo (ReadsTup R) (fun src => StandsTup (Q src)) (tupIds f) t
  | .val id a => by
    intro sts rest h
    cases h with
    | val _ _ h =>
      obtain ⟨sr, h1, h2⟩ := hR a _ _ h
      exact ⟨sr, h1, (h2.imp fun src h => .val id h).mono (.of_sublist (by simp [tupIds]))⟩
  | .tup id tid ts => by
    intro sts rest h
    have ih := ReadsTup.liftL hR ts
    cases h with
    | tup _ _ hp h =>
      obtain ⟨sc, sp, sr, h1, rfl, h2⟩ := First.lift_group hp
      refine ⟨sr, h2, ((CommaList.lift ts ih h).imp fun src h => .tup id tid h1 h).mono (.of_sublist ?_)⟩
      rw [tupIds, tupIdsL_flatMap]
      exact ((List.Sublist.refl _).cons _).cons _
theorem ReadsTup.liftL (hR : ∀ a, LiftsTo R Q f a) : ∀ (ts : List (PTup α)), ∀ t ∈ ts, LiftsTo (ReadsTup R) (fun src => StandsTup (Q src)) (tupIds f) t
  | [], _, h => by cases h
  | t :: ts, u, h => by
    have h1 := ReadsTup.lift hR t
    have h2 := ReadsTup.liftL hR ts u
    rcases List.mem_cons.1 h with rfl | h
    · exact h1
    · exact h2 h
end

theorem ReadsElem.lift (hR : ∀ a, LiftsTo R Q f a) (e : PLoopElem α) : LiftsTo (ReadsElem R) (fun src => StandsElem (Q src)) (elemIds f) e := by
  intro sts rest h
  cases h with
  | tuple id hp h =>
    obtain ⟨sc, sp, sr, h1, rfl, h2⟩ := First.lift_group hp
    refine ⟨sr, h2, ((CommaList.lift _ (ReadsTup.liftL hR _) h).imp fun src h => .tuple id h1 h).mono (.of_sublist ?_)⟩
    rw [elemIds, tupIdsL_flatMap]
    exact (List.Sublist.refl _).cons _
  | simple _ h =>
    obtain ⟨sr, h1, h2⟩ := hR _ _ _ h
    exact ⟨sr, h1, h2.imp fun src h => .simple h⟩

end

theorem liftsTo_alias (a : Alias) : LiftsTo (σ := σ) ReadsAlias (fun _ => StandsAlias) (fun a => [a.1]) a := by
  intro sts rest h
  cases h with
  | mk id h _ =>
    obtain ⟨sp, sr, h1, h2⟩ := First.lift_ident h
    exact ⟨sr, h2, .pure fun _ => .mk id h1⟩

theorem liftsTo_expr (e : Expr) : LiftsTo (σ := σ) (ReadsExpr known Y) (fun src => Stands Y P src) ids e := fun _ _ h => ReadsExpr.lift e h

theorem ReadsLoop.lift (l : PLoop) : LiftsTo (σ := σ) (ReadsLoop known Y) (fun src => StandsLoop Y P src) loopIds l := by
  intro sts rest h
  generalize e : STok.eraseL sts = ts at h
  cases h with
  | mk id lid ha hb hv =>
    obtain ⟨st, sr, rfl, h1, rfl⟩ := eraseL_eq_cons e
    obtain ⟨sp, rfl⟩ := erase_eq_ident h1
    obtain ⟨sr1, h2, h3⟩ := ReadsElem.lift liftsTo_alias _ _ _ ha
    obtain ⟨st, sr1, rfl, h4, rfl⟩ := eraseL_eq_cons h2
    obtain ⟨sq, rfl⟩ := erase_eq_ident h4
    obtain ⟨sc, sr', sr2, h5, rfl, h6⟩ := First.lift_group hb
    have h7 := CommaList.lift _ (fun e _ => ReadsElem.lift (liftsTo_expr (P := P)) e) hv
    refine ⟨sr2, h6, ((h3.and h7).imp fun src h => .mk id lid h.1 h5 h.2).mono (.of_sublist ?_)⟩
    exact ((List.Sublist.refl _).cons _).cons _

theorem ReadsLoops.lift {ts : Toks} {ls : List PLoop} {rest : Toks} (h : ReadsLoops known Y ts ls rest) : ∀ {sts : SToks σ}, STok.eraseL sts = ts →
    ∃ srest, STok.eraseL srest = rest ∧ Lifts (ls.flatMap loopIds) fun src => StandsLoops Y P src sts ls srest := by
  induction h with
  | nil _ => rintro sts rfl; exact ⟨sts, rfl, .pure fun _ => .nil⟩
  | cons h _ ih =>
    rintro sts rfl
    obtain ⟨sr, h1, h2⟩ := ReadsLoop.lift (P := P) _ _ _ h
    obtain ⟨sr', h3, h4⟩ := ih h1
    exact ⟨sr', h3, (h2.and h4).imp fun src h => .cons h.1 h.2⟩

/-! ## Definitions -/

theorem ReadsItem.lift (i : PItem) : LiftsTo (σ := σ) (ReadsItem known Y) (fun src => StandsItem Y P src) itemIds i := by
  intro sts rest h
  cases h with
  | mk id aid vid ha hn h he =>
    obtain ⟨sp, sr, h1, h2⟩ := First.lift_ident ha
    obtain ⟨st, sr, rfl, h3, rfl⟩ := eraseL_eq_cons h2
    obtain ⟨sq, rfl⟩ := erase_eq_punct h3
    obtain ⟨sr', h4, h5⟩ := ReadsExpr.lift (P := P) _ h
    refine ⟨sr', h4, (h5.imp fun src h => .mk id aid vid h1 h).mono (.of_sublist ?_)⟩
    exact (((List.Sublist.refl _).cons _).cons _).cons _

theorem ReadsItems.lift {ts : Toks} {is : List PItem} {bs : List Bool} {rest : Toks} (h : ReadsItems known Y ts is bs rest) :
    ∀ {sts : SToks σ}, STok.eraseL sts = ts →
    ∃ srest, STok.eraseL srest = rest ∧ Lifts (is.flatMap itemIds) fun src => StandsItems Y P src sts is bs srest := by
  induction h with
  | last h =>
    rintro sts rfl
    obtain ⟨sr, h1, h2⟩ := ReadsItem.lift (P := P) _ _ _ h
    cases eraseL_eq_nil h1
    exact ⟨[], rfl, (h2.imp fun src h => StandsItems.last h).mono (.of_sublist (by simp))⟩
  | lastSep h _ _ =>
    rintro sts rfl
    obtain ⟨sr, h1, h2⟩ := ReadsItem.lift (P := P) _ _ _ h
    obtain ⟨st, sr, rfl, h3, rfl⟩ := eraseL_eq_cons h1
    exact ⟨sr, rfl, (h2.imp fun src h => StandsItems.lastSep h).mono (.of_sublist (by simp))⟩
  | cons h _ _ _ _ ih =>
    rintro sts rfl
    obtain ⟨sr, h1, h2⟩ := ReadsItem.lift (P := P) _ _ _ h
    obtain ⟨st, sr, rfl, h3, h4⟩ := eraseL_eq_cons h1
    obtain ⟨sr', h5, h6⟩ := ih h4
    exact ⟨sr', h5, (h2.and h6).imp fun src h => .cons h.1 h.2⟩

theorem ReadsHeader.lift {sts : SToks σ} {x : Option PLoops × Option PSpec} {rest : Toks} (h : ReadsHeader known Y (STok.eraseL sts) x rest) :
    ∃ srest, STok.eraseL srest = rest ∧ Lifts (headerIds x) fun src => StandsHeader Y P src sts x srest := by
  cases h with
  | @mk mid _ ls s hl hs =>
    have h1 : ∃ sm, STok.eraseL sm = mid ∧ Lifts (ls.toList.flatMap loopsIds) fun src => StandsOptLoops Y P src sts ls sm := by
      rcases hl with ⟨rfl, rfl, -⟩ | ⟨id, l, rfl, -, h⟩
      · exact ⟨sts, rfl, .pure fun _ => .none⟩
      · obtain ⟨sr, h1, h2⟩ := ReadsLoops.lift (P := P) h rfl
        exact ⟨sr, h1, (h2.imp fun src h => StandsOptLoops.some id h).mono (.of_sublist (by simp [loopsIds]))⟩
    obtain ⟨sm, rfl, h1⟩ := h1
    have h2 : ∃ sr, STok.eraseL sr = rest ∧ Lifts (s.toList.flatMap pspecIds) fun src => StandsOptSpec Y P src sm s sr := by
      rcases hs with ⟨rfl, rfl, -⟩ | ⟨s', rfl, -, h⟩
      · exact ⟨sm, rfl, .pure fun _ => .none⟩
      · cases h with
        | mk id h _ =>
          obtain ⟨sr, h1, h2⟩ := ReadsItems.lift (P := P) h rfl
          exact ⟨sr, h1, (h2.imp fun src h => StandsOptSpec.some id _ h).mono (.of_sublist (by simp [pspecIds]))⟩
    obtain ⟨sr, h3, h2⟩ := h2
    exact ⟨sr, h3, (h1.and h2).imp fun src h => .mk h.1 h.2⟩

theorem exists_source {sts : SToks σ} {a : PAst} (hN : (astIds a).Nodup)
    (h : ∃ rest, ReadsHeader known Y (STok.eraseL sts) (a.loops, a.spec) rest) : ∃ src, StandsInput Y P src sts a := by
  obtain ⟨rest, h⟩ := h
  obtain ⟨sr, -, m, h1, h2⟩ := ReadsHeader.lift (P := P) h
  obtain ⟨src, hs⟩ := Mark.exists_source P (h1.nodup (List.nodup_cons.1 hN).2)
  exact ⟨src, sr, h2 src hs⟩

/-! ## What stands in the input fits -/

variable {src : Source σ}

mutual
theorem Stands.fits : ∀ (e : Expr) {sts rest : SToks σ}, Stands Y P src sts e rest → Fits src e
  | .value id v, sts, rest, h => by
    cases h with
    | value h hv => exact .value (by rw [hv]) (StandsVal.not_raw h)
  | .call id n args raw, sts, rest, h => by
    have ih := fun (ps : List (SToks σ)) (h : StandsL Y P src ps args) => StandsL.fits args h
    cases h with
    | call _ _ _ hr ha => exact .call (ih _ ha) (by rw [hr]; rfl)
    | dropped _ _ _ hr => exact .call .nil (by rw [hr]; rfl)
theorem StandsL.fits : ∀ (es : List Expr) {ps : List (SToks σ)}, StandsL Y P src ps es → FitsL src es
  | [], _, _ => .nil
  | e :: es, ps, h => by
    have ih1 := fun (sts : SToks σ) (h : Stands Y P src sts e []) => Stands.fits e h
    have ih2 := fun (ps : List (SToks σ)) (h : StandsL Y P src ps es) => StandsL.fits es h
    cases h with
    | cons h hs => exact .cons (ih1 _ h) (ih2 _ hs)
end

theorem FitsL.of_mem : ∀ {es : List Expr}, (∀ e ∈ es, Fits src e) → FitsL src es
  | [], _ => .nil
  | _ :: _, h => .cons (h _ List.mem_cons_self) (FitsL.of_mem fun e he => h e (List.mem_cons_of_mem _ he))

/-- `Some ts e`: in the tokens `ts`, at some depth, `e` stands. -/
def Occurs (Y : Syn) (P : SpanOps σ) (src : Source σ) (ts : SToks σ) (e : Expr) : Prop :=
  ∃ us rest, (∀ sp ∈ spans us, sp ∈ spans ts) ∧ Stands Y P src us e rest

theorem Occurs.mono {ts us : SToks σ} {e : Expr} (h : Occurs Y P src us e) (hs : ∀ sp ∈ spans us, sp ∈ spans ts) : Occurs Y P src ts e := by
  obtain ⟨vs, rest, h1, h2⟩ := h
  exact ⟨vs, rest, fun sp h => hs sp (h1 sp h), h2⟩

theorem spansTok_group (d : Delim) (ts : SToks σ) (sp : σ) : spansTok (.group d ts sp) = sp :: spans ts := by rw [spansTok]

theorem Spec.FirstS.inside_spans {ts : SToks σ} {t : STok σ} {rest : SToks σ} (h : FirstS ts t rest) :
    (∀ sp ∈ spansTok t, sp ∈ spans ts) ∧ ∀ sp ∈ spans rest, sp ∈ spans ts := by
  induction h with
  | here _ => exact ⟨fun sp h => by simp [h], fun sp h => by simp [h]⟩
  | inside _ ih =>
    refine ⟨fun sp h => by simp [spansTok_group, ih.1 sp h], fun sp h => ?_⟩
    rw [spans_append, List.mem_append] at h
    rcases h with h | h
    · simp [spansTok_group, ih.2 sp h]
    · simp [h]
  | skip _ _ ih => exact ⟨fun sp h => by simp [ih.1 sp h], fun sp h => by simp [ih.2 sp h]⟩

theorem piecesS_spans : ∀ {ts p : SToks σ}, p ∈ piecesS ts → ∀ sp ∈ spans p, sp ∈ spans ts := by
  intro ts
  fun_induction piecesS ts with
  | case1 => intro p h; cases h
  | case2 j sp ts ih =>
    intro p h sp hs
    rcases List.mem_cons.1 h with rfl | h
    · simp at hs
    · simp [ih h sp hs]
  | case3 t ts hc hp ih =>
    intro p h sp hs
    simp only [List.mem_singleton] at h
    subst h
    simp at hs
    simp [hs]
  | case4 t ts hc q ps hp ih =>
    intro p h sp hs
    rcases List.mem_cons.1 h with rfl | h
    · rw [spans_cons, List.mem_append] at hs
      rcases hs with hs | hs
      · simp [hs]
      · simp [ih (p := q) (by simp [hp]) sp hs]
    · simp [ih (p := p) (by simp [hp, h]) sp hs]

theorem Spec.StandsVal.inside_spans {ts : SToks σ} {v : SVal σ} {rest : SToks σ} (h : StandsVal Y P ts v rest) :
    (∀ sp ∈ spans v.toTokens, Reach P (spans ts) sp) ∧ ∀ sp ∈ spans rest, sp ∈ spans ts := by
  have htd : ∀ (n : Nat), (∀ sp ∈ Spec.spans (ts.take n), Reach P (Spec.spans ts) sp) ∧ ∀ sp ∈ Spec.spans (ts.drop n), sp ∈ Spec.spans ts := by
    intro n
    have : Spec.spans ts = Spec.spans (ts.take n) ++ Spec.spans (ts.drop n) := by rw [← spans_append, List.take_append_drop]
    exact ⟨fun sp h => .mem (by rw [this]; exact List.mem_append_left _ h), fun sp h => by rw [this]; exact List.mem_append_right _ h⟩
  cases h with
  | int h => exact ⟨fun sp hs => .mem (h.inside_spans.1 sp (by simpa [SVal.toTokens] using hs)), h.inside_spans.2⟩
  | negInt h h' =>
    refine ⟨fun sp hs => ?_, fun sp hs => h.inside_spans.2 sp (h'.inside_spans.2 sp hs)⟩
    simp only [SVal.toTokens, if_true, spans_append, spans_cons, spansTok_punct, spansTok_lit, spans_nil, List.append_nil, List.mem_append, List.mem_singleton, or_self] at hs
    subst hs
    exact .join (.mem (h.inside_spans.1 _ (by simp))) (.mem (h.inside_spans.2 _ (h'.inside_spans.1 _ (by simp))))
  | str h => exact ⟨fun sp hs => .mem (h.inside_spans.1 sp (by simpa [SVal.toTokens] using hs)), h.inside_spans.2⟩
  | ident h => exact ⟨fun sp hs => .mem (h.inside_spans.1 sp (by simpa [SVal.toTokens] using hs)), h.inside_spans.2⟩
  | path _ n h => exact htd n
  | type _ n h => exact htd n
  | expr _ n h => exact htd n
  | tokens used rest => exact ⟨fun sp hs => .mem (by simp [show sp ∈ Spec.spans used from hs]), fun sp hs => by simp [hs]⟩

theorem Spec.Stands.rest_spans {ts : SToks σ} {e : Expr} {rest : SToks σ} (h : Stands Y P src ts e rest) : ∀ sp ∈ spans rest, sp ∈ spans ts := by
  cases h with
  | value h _ => exact h.inside_spans.2
  | call h h' => exact fun sp hs => h.inside_spans.2 sp (h'.inside_spans.2 sp hs)
  | dropped h h' => exact fun sp hs => h.inside_spans.2 sp (h'.inside_spans.2 sp hs)

theorem Spec.Reach.mono {ps qs : List σ} (h : ∀ sp ∈ ps, sp ∈ qs) {sp : σ} (hr : Reach P ps sp) : Reach P qs sp := by
  induction hr with
  | mem hm => exact .mem (h _ hm)
  | callSite => exact .callSite
  | join _ _ ih ih' => exact .join ih ih'

/-! ### The expressions of the input -/

section
variable {α : Type} {R : SToks σ → α → SToks σ → Prop}

theorem Spec.CommaListS.mem {ts : SToks σ} {as : List α} (h : CommaListS R ts as)
    (hR : ∀ a ∈ as, ∀ ts rest, R ts a rest → ∀ sp ∈ spans rest, sp ∈ spans ts) :
    ∀ a ∈ as, ∃ us rest, (∀ sp ∈ spans us, sp ∈ spans ts) ∧ R us a rest := by
  induction h with
  | nil => intro a h; cases h
  | last h =>
    intro a ha
    cases List.mem_singleton.1 ha
    exact ⟨_, _, fun _ h => h, h⟩
  | cons h _ ih =>
    intro a ha
    rcases List.mem_cons.1 ha with rfl | ha
    · exact ⟨_, _, fun _ h => h, h⟩
    · obtain ⟨us, rest, h1, h2⟩ := ih (fun a ha => hR a (List.mem_cons_of_mem _ ha)) a ha
      refine ⟨us, rest, fun sp hs => hR _ List.mem_cons_self _ _ h sp ?_, h2⟩
      simp [h1 sp hs]

theorem Spec.StandsTup.rest_spans (hR : ∀ a ts rest, R ts a rest → ∀ sp ∈ spans rest, sp ∈ spans ts) {t : PTup α} {ts rest : SToks σ}
    (h : StandsTup R ts t rest) : ∀ sp ∈ spans rest, sp ∈ spans ts := by
  cases h with
  | val _ h => exact hR _ _ _ h
  | tup _ _ hp _ => exact hp.inside_spans.2

theorem Spec.StandsElem.rest_spans (hR : ∀ a ts rest, R ts a rest → ∀ sp ∈ spans rest, sp ∈ spans ts) {t : PLoopElem α} {ts rest : SToks σ}
    (h : StandsElem R ts t rest) : ∀ sp ∈ spans rest, sp ∈ spans ts := by
  cases h with
  | simple h => exact hR _ _ _ h
  | tuple _ hp _ => exact hp.inside_spans.2

theorem Spec.FirstS.content {ts c rest : SToks σ} {d : Delim} {sp : σ} (h : FirstS ts (.group d c sp) rest) : ∀ sp ∈ Spec.spans c, sp ∈ Spec.spans ts :=
  fun sp hs => h.inside_spans.1 sp (by simp [spansTok_group, hs])

mutual
theorem StandsTup.mem (hR : ∀ a ts rest, R ts a rest → ∀ sp ∈ spans rest, sp ∈ spans ts) : ∀ (t : PTup α) {ts rest : SToks σ},
    StandsTup R ts t rest → ∀ a ∈ inOrder (t.conv fun x => x), ∃ us rest, (∀ sp ∈ spans us, sp ∈ spans ts) ∧ R us a rest
  | .val id b, ts, rest, h, a, ha => by
    simp only [PTup.conv, inOrder, List.mem_singleton] at ha
    subst ha
    cases h with
    | val _ h => exact ⟨_, _, fun _ h => h, h⟩
  | .tup id tid us, ts, rest, h, a, ha => by
    simp only [PTup.conv, inOrder] at ha
    have ih := fun vs => StandsTup.memL hR us (vs := vs) a ha
    cases h with
    | tup _ _ hp h =>
      obtain ⟨vs, rest, h1, h2⟩ := ih _ (h.mem fun t _ ts rest h => StandsTup.rest_spans hR h)
      exact ⟨vs, rest, fun sp hs => hp.content sp (h1 sp hs), h2⟩
theorem StandsTup.memL (hR : ∀ a ts rest, R ts a rest → ∀ sp ∈ spans rest, sp ∈ spans ts) : ∀ (ts : List (PTup α)) {vs : SToks σ},
    ∀ a ∈ inOrderL (PTup.convL (fun x => x) ts), (∀ t ∈ ts, ∃ us rest, (∀ sp ∈ spans us, sp ∈ spans vs) ∧ StandsTup R us t rest) →
    ∃ us rest, (∀ sp ∈ spans us, sp ∈ spans vs) ∧ R us a rest
  | [], vs, a, ha, h => by simp [PTup.convL, inOrderL] at ha
  | t :: ts, vs, a, ha, h => by
    have ih1 := fun us rest h ha => StandsTup.mem hR t (ts := us) (rest := rest) h a ha
    have ih2 := fun ha h => StandsTup.memL hR ts (vs := vs) a ha h
    simp only [PTup.convL, inOrderL, List.mem_append] at ha
    rcases ha with ha | ha
    · obtain ⟨us, rest, h1, h2⟩ := h t List.mem_cons_self
      obtain ⟨us', rest', h3, h4⟩ := ih1 us rest h2 ha
      exact ⟨us', rest', fun sp hs => h1 sp (h3 sp hs), h4⟩
    · exact ih2 ha fun t ht => h t (List.mem_cons_of_mem _ ht)
end

theorem Spec.StandsElem.mem (hR : ∀ a ts rest, R ts a rest → ∀ sp ∈ spans rest, sp ∈ spans ts) {t : PLoopElem α} {ts rest : SToks σ}
    (h : StandsElem R ts t rest) : ∀ a ∈ exprsOfValue (t.value fun x => x), ∃ us rest, (∀ sp ∈ spans us, sp ∈ spans ts) ∧ R us a rest := by
  intro a ha
  cases h with
  | simple h =>
    simp only [PLoopElem.value, exprsOfValue, List.mem_singleton] at ha
    subst ha
    exact ⟨_, _, fun _ h => h, h⟩
  | tuple _ hp h =>
    simp only [PLoopElem.value, exprsOfValue] at ha
    obtain ⟨vs, rest, h1, h2⟩ := StandsTup.memL hR _ a ha (h.mem fun t _ ts rest h => StandsTup.rest_spans hR h)
    exact ⟨vs, rest, fun sp hs => hp.content sp (h1 sp hs), h2⟩

end

theorem Spec.StandsAlias.rest_spans {a : Alias} {ts rest : SToks σ} (h : StandsAlias ts a rest) : ∀ sp ∈ spans rest, sp ∈ spans ts := by
  cases h with
  | mk _ h => exact h.inside_spans.2

theorem Spec.StandsLoop.mem {l : PLoop} {ts rest : SToks σ} (h : StandsLoop Y P src ts l rest) : (∀ sp ∈ spans rest, sp ∈ spans ts) ∧
    ∀ v ∈ l.values, ∀ e ∈ exprsOfValue (v.value fun x => x), Occurs Y P src ts e := by
  cases h with
  | mk id lid ha hb hv =>
    have h1 := ha.rest_spans fun _ _ _ h => h.rest_spans
    refine ⟨fun sp hs => ?_, fun v hm e he => ?_⟩
    · have := h1 sp (by simp [hb.inside_spans.2 sp hs])
      simp [this]
    · obtain ⟨us, r, h2, h3⟩ := hv.mem (fun _ _ _ _ h => h.rest_spans fun _ _ _ h => h.rest_spans) v hm
      obtain ⟨us', r', h4, h5⟩ := h3.mem (fun _ _ _ h => h.rest_spans) e he
      refine ⟨us', r', fun sp hs => ?_, h5⟩
      have := h1 sp (by simp [hb.content sp (h2 sp (h4 sp hs))])
      simp [this]

theorem Spec.StandsLoops.mem {ls : List PLoop} {ts rest : SToks σ} (h : StandsLoops Y P src ts ls rest) : (∀ sp ∈ spans rest, sp ∈ spans ts) ∧
    ∀ l ∈ ls, ∀ v ∈ l.values, ∀ e ∈ exprsOfValue (v.value fun x => x), Occurs Y P src ts e := by
  induction h with
  | nil => exact ⟨fun _ h => h, fun l h => by cases h⟩
  | cons h _ ih =>
    refine ⟨fun sp hs => h.mem.1 sp (ih.1 sp hs), fun l hl v hv e he => ?_⟩
    rcases List.mem_cons.1 hl with rfl | hl
    · exact h.mem.2 v hv e he
    · exact (ih.2 l hl v hv e he).mono h.mem.1

theorem Spec.StandsItem.mem {i : PItem} {ts rest : SToks σ} (h : StandsItem Y P src ts i rest) : (∀ sp ∈ spans rest, sp ∈ spans ts) ∧
    Occurs Y P src ts i.expr := by
  cases h with
  | mk _ _ _ ha h =>
    refine ⟨fun sp hs => ha.inside_spans.2 sp (by simp [h.rest_spans sp hs]), _, _, fun sp hs => ha.inside_spans.2 sp ?_, h⟩
    simp [hs]

theorem Spec.StandsItems.mem {is : List PItem} {bs : List Bool} {ts rest : SToks σ} (h : StandsItems Y P src ts is bs rest) :
    ∀ i ∈ is, Occurs Y P src ts i.expr := by
  induction h with
  | last h => intro i hi; cases List.mem_singleton.1 hi; exact h.mem.2
  | lastSep h => intro i hi; cases List.mem_singleton.1 hi; exact h.mem.2
  | cons h _ ih =>
    intro i hi
    rcases List.mem_cons.1 hi with rfl | hi
    · exact h.mem.2
    · exact (ih i hi).mono fun sp hs => h.mem.1 sp (by simp [hs])

theorem Spec.StandsInput.mem {a : PAst} {ts : SToks σ} (h : StandsInput Y P src ts a) : ∀ e ∈ exprsIn a.forget, Occurs Y P src ts e := by
  obtain ⟨rest, h⟩ := h
  obtain ⟨id, loops, spec, block⟩ := a
  intro e he
  cases h with
  | @mk mid _ _ _ hl hs =>
    have hl' : ∀ sp ∈ spans mid, sp ∈ spans ts := by
      cases hl with
      | none => exact fun _ h => h
      | some _ h => exact h.mem.1
    simp only [exprsIn, PAst.forget, PAst.conv, List.mem_append] at he
    rcases he with he | he
    · cases hl with
      | none => simp at he
      | some _ h =>
        simp only [Option.map_some, Option.getD_some, List.mem_flatMap, List.mem_map] at he
        obtain ⟨-, ⟨l, hl, rfl⟩, w, hw, he⟩ := he
        obtain ⟨v, hv, rfl⟩ := List.mem_map.1 hw
        exact h.mem.2 l hl v hv e he
    · cases hs with
      | none => simp at he
      | some _ _ h =>
        simp only [Option.map_some, Option.toList_some, List.flatMap_cons, List.flatMap_nil, List.append_nil, List.map_map, List.mem_map] at he
        obtain ⟨i, hi, rfl⟩ := he
        exact (h.mem i hi).mono hl'

/-- The definitions in force in each copy fit the source. -/
theorem Spec.StandsInput.fits {a : PAst} {ts : SToks σ} (h : StandsInput Y P src ts a) {brs : List (BlockRewrite Alias Expr (List Stmt))}
    (hx : expand a.forget = .ok brs) : ∀ br ∈ brs, FitsL src (br.spec.items.map (·.2)) := by
  intro br hbr
  refine FitsL.of_mem fun e he => ?_
  obtain ⟨d, hd, rfl⟩ := List.mem_map.1 he
  obtain ⟨us, rest, -, h1⟩ := h.mem _ (expand_mem hx br hbr d hd)
  exact Stands.fits _ h1

/-! ## Nowhere else -/

mutual
theorem Stands.points {given : Str → Option (SVal σ)} {ps : List σ} (hg : ∀ n v, given n = some v → ∀ sp ∈ spans v.toTokens, Reach P ps sp) :
    ∀ (e : Expr) {te : TExpr} {ts us rest : SToks σ}, Stands Y P src ts e rest → (∀ sp ∈ spans ts, sp ∈ ps) → Points P src given e te us →
    ∀ sp ∈ spans us, Reach P ps sp
  | .value id k, te, ts, us, rest, h, hs, hp => by
    cases hp with
    | written _ =>
      cases h with
      | value h hv => rw [hv]; exact fun sp hm => (h.inside_spans.1 sp hm).mono hs
    | alias hq => exact hg _ _ hq
  | .call id n args raw, te, ts, us, rest, h, hs, hp => by
    have ih := fun (tes : List TExpr) (pss : List (SToks σ)) (tss : List (SToks σ)) (h : StandsL Y P src pss args)
      (hs : ∀ p ∈ pss, ∀ sp ∈ spans p, sp ∈ ps) (hp : PointsL P src given args tes tss) => StandsL.points hg args h hs hp
    have hcall : src.calls id ∈ ps := by
      cases h with
      | call h _ hc _ _ => rw [hc]; exact hs _ (h.inside_spans.1 _ (by simp))
      | dropped h _ hc _ => rw [hc]; exact hs _ (h.inside_spans.1 _ (by simp))
    have hargs : ∀ tes tss, PointsL P src given args tes tss → ∀ us ∈ tss, ∀ sp ∈ spans us, Reach P ps sp := by
      intro tes tss hq
      cases h with
      | call h h' _ _ ha => exact ih _ _ _ ha (fun p hp sp hm => hs sp (h.inside_spans.2 sp (h'.content sp (piecesS_spans hp sp hm)))) hq
      | dropped _ _ _ _ => cases hq; intro us h; cases h
    cases hp with
    | letters _ hq he => rw [he]; exact hargs _ _ (.cons hq .nil) _ List.mem_cons_self
    | made _ hq => intro sp hm; rw [hq sp hm]; exact .mem hcall
    | concat _ _ hq => intro sp hm; rw [hq sp hm]; exact .mem hcall
    | mixed _ hq => intro sp hm; rw [hq sp hm]; exact .callSite
    | pasted _ hq =>
      intro sp hm
      rw [← List.flatMap_id, mem_spans_flatMap] at hm
      obtain ⟨us, hu, hm⟩ := hm
      exact hargs _ _ hq us hu sp hm
    | passed _ hq he => rw [he]; exact hargs _ _ (.cons hq .nil) _ List.mem_cons_self
    | parsed _ => intro sp hm; simp at hm; subst hm; exact .callSite
    | joined hq he =>
      intro sp hm
      rw [he sp hm]
      have := hargs _ _ (.cons hq .nil) _ List.mem_cons_self
      exact .join (this _ (by simp)) (this _ (by simp))
    | raw =>
      cases h with
      | call h h' _ hr _ => rw [hr]; exact fun sp hm => .mem (hs sp (h.inside_spans.2 sp (h'.content sp hm)))
      | dropped h h' _ hr => rw [hr]; exact fun sp hm => .mem (hs sp (h.inside_spans.2 sp (h'.content sp hm)))
theorem StandsL.points {given : Str → Option (SVal σ)} {ps : List σ} (hg : ∀ n v, given n = some v → ∀ sp ∈ spans v.toTokens, Reach P ps sp) :
    ∀ (es : List Expr) {tes : List TExpr} {pss tss : List (SToks σ)}, StandsL Y P src pss es → (∀ p ∈ pss, ∀ sp ∈ spans p, sp ∈ ps) →
    PointsL P src given es tes tss → ∀ us ∈ tss, ∀ sp ∈ spans us, Reach P ps sp
  | [], tes, pss, tss, h, hs, hp => by cases hp; intro us h; cases h
  | e :: es, tes, pss, tss, h, hs, hp => by
    have ih1 := fun (te : TExpr) (ts us rest : SToks σ) (h : Stands Y P src ts e rest) (hs : ∀ sp ∈ spans ts, sp ∈ ps) (hp : Points P src given e te us) =>
      Stands.points hg e h hs hp
    have ih2 := fun (tes : List TExpr) (pss tss : List (SToks σ)) (h : StandsL Y P src pss es) (hs : ∀ p ∈ pss, ∀ sp ∈ spans p, sp ∈ ps)
      (hp : PointsL P src given es tes tss) => StandsL.points hg es h hs hp
    cases hp with
    | cons hp hps =>
      cases h with
      | cons h hss =>
        intro us hu
        rcases List.mem_cons.1 hu with rfl | hu
        · exact ih1 _ _ _ _ h (hs _ List.mem_cons_self) hp
        · exact ih2 _ _ _ hss (fun p hp => hs p (List.mem_cons_of_mem _ hp)) hps us hu
end

theorem Spec.Traced.reach {ps : List σ} {ts : SToks σ} (hs : ∀ sp ∈ spans ts, sp ∈ ps) {given : Str → Option (SVal σ)} {items : List (Alias × Expr)}
    {tes : List (Str × TExpr)} {vs : List (Str × SVal σ)} (ht : Traced P src given items tes vs)
    (hg : ∀ n v, given n = some v → ∀ sp ∈ spans v.toTokens, Reach P ps sp) (h : ∀ d ∈ items, Occurs Y P src ts d.2) :
    ∀ x ∈ vs, ∀ sp ∈ spans x.2.toTokens, Reach P ps sp := by
  induction ht with
  | nil => intro x h; cases h
  | @cons _ alias _ _ _ _ _ _ hp _ ih =>
    obtain ⟨us, rest, h1, h2⟩ := h _ List.mem_cons_self
    have h3 := Stands.points hg _ h2 (fun sp hm => hs sp (h1 sp hm)) hp
    intro x hx
    rcases List.mem_cons.1 hx with rfl | hx
    · exact h3
    · refine ih (fun n v => ?_) (fun d hd => h d (List.mem_cons_of_mem _ hd)) x hx
      simp only
      by_cases hn : n = alias.2
      · rw [if_pos hn]; rintro ⟨⟩; exact h3
      · rw [if_neg hn]; exact hg n v

/-! ## The tokens and the tree say what the source is -/

theorem Spec.FirstS.not_blank {ts : SToks σ} {t : STok σ} {rest : SToks σ} (h : FirstS ts t rest) : ¬ Blank (STok.eraseL ts) := by
  induction h with
  | @here t rest h =>
    intro hb
    rw [eraseL_cons] at hb
    generalize e : t.erase = u at hb
    cases hb
    obtain ⟨sc, sp, rfl, -⟩ := erase_eq_group e
    exact h _ _ rfl
  | inside _ ih => intro hb; rw [eraseL_cons, erase_group] at hb; cases hb with | cons hc _ => exact ih hc
  | skip _ _ ih => intro hb; rw [eraseL_cons, erase_group] at hb; cases hb with | cons _ h => exact ih h

theorem Spec.FirstS.det {ts : SToks σ} {t t' : STok σ} {rest rest' : SToks σ} (h : FirstS ts t rest) : FirstS ts t' rest' → t = t' ∧ rest = rest' := by
  induction h generalizing t' rest' with
  | here h =>
    intro h'
    cases h' with
    | here _ => exact ⟨rfl, rfl⟩
    | inside _ => exact absurd rfl (h _ _)
    | skip _ _ => exact absurd rfl (h _ _)
  | inside h ih =>
    intro h'
    cases h' with
    | here h' => exact absurd rfl (h' _ _)
    | inside h' => obtain ⟨rfl, rfl⟩ := ih h'; exact ⟨rfl, rfl⟩
    | skip hc _ => exact absurd hc h.not_blank
  | skip hc h ih =>
    intro h'
    cases h' with
    | here h' => exact absurd rfl (h' _ _)
    | inside h' => exact absurd hc h'.not_blank
    | skip _ h' => exact ih h'

theorem Spec.StandsVal.det {ts : SToks σ} {v v' : SVal σ} {rest rest' : SToks σ} (h : StandsVal Y P ts v rest) (h' : StandsVal Y P ts v' rest')
    (e : v.erase = v'.erase) : v = v' ∧ rest = rest' := by
  cases h with
  | int h =>
    cases h' with
    | int h' => have := h.det h'; simp at this; obtain ⟨⟨⟨rfl, rfl⟩, rfl⟩, rfl⟩ := this; exact ⟨rfl, rfl⟩
    | _ => simp [SVal.erase] at e
  | negInt h1 h2 =>
    cases h' with
    | negInt h1' h2' =>
      have := h1.det h1'
      simp at this
      obtain ⟨⟨rfl, rfl⟩, rfl⟩ := this
      have := h2.det h2'
      simp at this
      obtain ⟨⟨⟨rfl, rfl⟩, rfl⟩, rfl⟩ := this
      exact ⟨rfl, rfl⟩
    | _ => simp [SVal.erase] at e
  | str h =>
    cases h' with
    | str h' => have := h.det h'; simp at this; obtain ⟨⟨⟨rfl, rfl⟩, rfl⟩, rfl⟩ := this; exact ⟨rfl, rfl⟩
    | _ => simp [SVal.erase] at e
  | ident h =>
    cases h' with
    | ident h' => have := h.det h'; simp at this; obtain ⟨⟨rfl, rfl⟩, rfl⟩ := this; exact ⟨rfl, rfl⟩
    | _ => simp [SVal.erase] at e
  | path _ n h =>
    cases h' with
    | path _ m h' => rw [h] at h'; cases h'; exact ⟨rfl, rfl⟩
    | _ => simp [SVal.erase] at e
  | type _ n h =>
    cases h' with
    | type _ m h' => rw [h] at h'; cases h'; exact ⟨rfl, rfl⟩
    | _ => simp [SVal.erase] at e
  | expr _ n h =>
    cases h' with
    | expr _ m h' => rw [h] at h'; cases h'; exact ⟨rfl, rfl⟩
    | _ => simp [SVal.erase] at e
  | tokens used rest =>
    generalize ht : used ++ rest = ts at h'
    cases h' with
    | tokens used' rest' =>
      simp only [SVal.erase, VKind.tokens.injEq] at e
      have hl : used.length = used'.length := by rw [← eraseL_len used, e, eraseL_len]
      obtain ⟨rfl, rfl⟩ := List.append_inj ht hl
      exact ⟨rfl, rfl⟩
    | _ => simp [SVal.erase] at e

mutual
theorem Stands.det {src src' : Source σ} : ∀ (e : Expr) {ts rest rest' : SToks σ}, Stands Y P src ts e rest → Stands Y P src' ts e rest' →
    SameAt src src' e ∧ rest = rest'
  | .value id k, ts, rest, rest', h, h' => by
    generalize hk : k = k' at h'
    cases h with
    | value h hv =>
      subst hk
      generalize hk : SVal.erase _ = k' at h'
      cases h' with
      | value h' hv' =>
        obtain ⟨e, rfl⟩ := h.det h' hk
        exact ⟨by rw [SameAt, hv, hv', e], rfl⟩
  | .call id n args raw, ts, rest, rest', h, h' => by
    have ih := fun (ps : List (SToks σ)) (h : StandsL Y P src ps args) (h' : StandsL Y P src' ps args) => StandsL.det args h h'
    have key : ∀ {src : Source σ} {rest : SToks σ}, Stands Y P src ts (.call id n args raw) rest → ∃ sp ts' sc sq rid, FirstS ts (.ident n sp) ts' ∧
        FirstS ts' (.group .paren sc sq) rest ∧ src.calls id = sp ∧ src.vals rid = .raw sc ∧ raw = some (rid, STok.eraseL sc) ∧
        (args = [] ∨ StandsL Y P src (piecesS sc) args) := by
      intro src rest hx
      cases hx with
      | call h1 h2 hc hr ha => exact ⟨_, _, _, _, _, h1, h2, hc, hr, rfl, .inr ha⟩
      | dropped h1 h2 hc hr => exact ⟨_, _, _, _, _, h1, h2, hc, hr, rfl, .inl rfl⟩
    obtain ⟨sp, ts', sc, sq, rid, h1, h2, h3, h4, rfl, h5⟩ := key h
    obtain ⟨sp', ts'', sc', sq', rid', h1', h2', h3', h4', h6, h5'⟩ := key h'
    have e1 := h1.det h1'
    simp only [STok.ident.injEq, true_and] at e1
    obtain ⟨rfl, rfl⟩ := e1
    have e2 := h2.det h2'
    simp only [STok.group.injEq, true_and] at e2
    obtain ⟨⟨rfl, rfl⟩, rfl⟩ := e2
    simp only [Option.some.injEq, Prod.mk.injEq, and_true] at h6
    subst h6
    refine ⟨?_, rfl⟩
    rw [SameAt]
    refine ⟨h3.trans h3'.symm, ?_, ?_⟩
    · rintro r hr; cases hr; exact h4.trans h4'.symm
    · rcases h5 with rfl | h5
      · rw [SameAtL]; trivial
      · rcases h5' with rfl | h5'
        · rw [SameAtL]; trivial
        · exact ih _ h5 h5'
theorem StandsL.det {src src' : Source σ} : ∀ (es : List Expr) {ps : List (SToks σ)}, StandsL Y P src ps es → StandsL Y P src' ps es → SameAtL src src' es
  | [], _, _, _ => by rw [SameAtL]; trivial
  | e :: es, ps, h, h' => by
    have ih1 := fun (ts : SToks σ) (h : Stands Y P src ts e []) (h' : Stands Y P src' ts e []) => (Stands.det e h h').1
    have ih2 := fun (ps : List (SToks σ)) (h : StandsL Y P src ps es) (h' : StandsL Y P src' ps es) => StandsL.det es h h'
    cases h with
    | cons h hs =>
      cases h' with
      | cons h' hs' => rw [SameAtL]; exact ⟨ih1 _ h h', ih2 _ hs hs'⟩
end

theorem inOrderL_all {α : Type} {Q : α → Prop} : ∀ (ts : List (PTup α)), (∀ t ∈ ts, ∀ a ∈ inOrder (t.conv fun x => x), Q a) → ∀ a ∈ inOrderL (PTup.convL (fun x => x) ts), Q a
  | [], _, a, ha => by simp [PTup.convL, inOrderL] at ha
  | t :: ts, h, a, ha => by
    have ih := inOrderL_all ts (fun t ht => h t (List.mem_cons_of_mem _ ht)) a
    simp only [PTup.convL, inOrderL, List.mem_append] at ha
    rcases ha with ha | ha
    · exact h t List.mem_cons_self a ha
    · exact ih ha

section
variable {α : Type} {R R' : SToks σ → α → SToks σ → Prop} {Q : α → Prop}

/-- Both say the same, and that `Q` holds. -/
def Settles (R R' : SToks σ → α → SToks σ → Prop) (Q : α → Prop) (a : α) : Prop := ∀ ts rest rest', R ts a rest → R' ts a rest' → Q a ∧ rest = rest'

theorem Spec.CommaListS.det {ts : SToks σ} {as : List α} (h : CommaListS R ts as) (hR : ∀ a ∈ as, Settles R R' Q a) : CommaListS R' ts as → ∀ a ∈ as, Q a := by
  induction h with
  | nil => intro _ a h; cases h
  | last h =>
    intro h'
    intro a ha
    cases List.mem_singleton.1 ha
    cases h' with
    | last h' => exact (hR _ List.mem_cons_self _ _ _ h h').1
    | cons h' hs => exact (hR _ List.mem_cons_self _ _ _ h h').1
  | cons h hs ih =>
    intro h' a ha
    cases h' with
    | last h' => cases (hR _ List.mem_cons_self _ _ _ h h').2
    | cons h' hs' =>
      have := hR _ List.mem_cons_self _ _ _ h h'
      simp only [List.cons.injEq, STok.punct.injEq, true_and] at this
      obtain ⟨hq, ⟨-, -⟩, rfl⟩ := this
      rcases List.mem_cons.1 ha with rfl | ha
      · exact hq
      · exact ih (fun b hb => hR b (List.mem_cons_of_mem _ hb)) hs' a ha

mutual
theorem StandsTup.det (hR : ∀ a, Settles R R' Q a) : ∀ (t : PTup α), Settles (StandsTup R) (StandsTup R') (fun t => ∀ a ∈ inOrder (t.conv fun x => x), Q a) t
  | .val id a => by
    intro ts rest rest' h h'
    cases h with
    | val _ h =>
      cases h' with
      | val _ h' =>
        obtain ⟨hq, e⟩ := hR a _ _ _ h h'
        exact ⟨fun b hb => by simp only [PTup.conv, inOrder, List.mem_singleton] at hb; exact hb ▸ hq, e⟩
  | .tup id tid us => by
    intro ts rest rest' h h'
    have ih := StandsTup.detL hR us
    cases h with
    | tup _ _ hp h =>
      cases h' with
      | tup _ _ hp' h' =>
        have := hp.det hp'
        simp only [STok.group.injEq, true_and] at this
        obtain ⟨⟨rfl, -⟩, rfl⟩ := this
        have hq := h.det ih h'
        refine ⟨fun a ha => ?_, rfl⟩
        simp only [PTup.conv, inOrder] at ha
        exact inOrderL_all us hq a ha
theorem StandsTup.detL (hR : ∀ a, Settles R R' Q a) : ∀ (ts : List (PTup α)), ∀ t ∈ ts, Settles (StandsTup R) (StandsTup R') (fun t => ∀ a ∈ inOrder (t.conv fun x => x), Q a) t
  | [], _, h => by cases h
  | t :: ts, u, h => by
    have h1 := StandsTup.det hR t
    have h2 := StandsTup.detL hR ts u
    rcases List.mem_cons.1 h with rfl | h
    · exact h1
    · exact h2 h
end

theorem StandsElem.det (hR : ∀ a, Settles R R' Q a) (t : PLoopElem α) :
    Settles (StandsElem R) (StandsElem R') (fun t => ∀ a ∈ exprsOfValue (t.value fun x => x), Q a) t := by
  intro ts rest rest' h h'
  cases h with
  | simple h =>
    cases h' with
    | simple h' =>
      obtain ⟨hq, e⟩ := hR _ _ _ _ h h'
      exact ⟨fun b hb => by simp only [PLoopElem.value, exprsOfValue, List.mem_singleton] at hb; exact hb ▸ hq, e⟩
  | tuple _ hp h =>
    cases h' with
    | tuple _ hp' h' =>
      have := hp.det hp'
      simp only [STok.group.injEq, true_and] at this
      obtain ⟨⟨rfl, -⟩, rfl⟩ := this
      have hq := h.det (StandsTup.detL hR _) h'
      exact ⟨fun a ha => inOrderL_all _ hq a (by simpa only [PLoopElem.value, exprsOfValue] using ha), rfl⟩

end

theorem settles_alias (a : Alias) : Settles (σ := σ) StandsAlias StandsAlias (fun _ => True) a := by
  intro ts rest rest' h h'
  cases h with
  | mk _ h =>
    cases h' with
    | mk _ h' => exact ⟨trivial, (h.det h').2⟩

variable {src' : Source σ}

theorem settles_expr (e : Expr) : Settles (Stands Y P src) (Stands Y P src') (SameAt src src') e := fun _ _ _ h h' => Stands.det e h h'

theorem StandsLoop.det (l : PLoop) : Settles (StandsLoop Y P src) (StandsLoop Y P src')
    (fun l => ∀ v ∈ l.values, ∀ e ∈ exprsOfValue (v.value fun x => x), SameAt src src' e) l := by
  intro ts rest rest' h h'
  cases h with
  | mk id lid ha hb hv =>
    cases h' with
    | mk _ _ ha' hb' hv' =>
      have h1 := (StandsElem.det settles_alias _ _ _ _ ha ha').2
      simp only [List.cons.injEq, STok.ident.injEq, true_and] at h1
      obtain ⟨-, rfl⟩ := h1
      have h2 := hb.det hb'
      simp only [STok.group.injEq, true_and] at h2
      obtain ⟨⟨rfl, -⟩, rfl⟩ := h2
      exact ⟨hv.det (fun e _ => StandsElem.det settles_expr e) hv', rfl⟩

theorem Spec.StandsLoops.det {ts rest rest' : SToks σ} {ls : List PLoop} (h : StandsLoops Y P src ts ls rest) : StandsLoops Y P src' ts ls rest' →
    (∀ l ∈ ls, ∀ v ∈ l.values, ∀ e ∈ exprsOfValue (v.value fun x => x), SameAt src src' e) ∧ rest = rest' := by
  induction h with
  | nil =>
    intro h'
    cases h' with
    | nil => exact ⟨fun l h => (by cases h), rfl⟩
  | cons h _ ih =>
    intro h'
    cases h' with
    | cons h' hs' =>
      obtain ⟨hq, rfl⟩ := StandsLoop.det _ _ _ _ h h'
      obtain ⟨hq', rfl⟩ := ih hs'
      refine ⟨fun l hl => ?_, rfl⟩
      rcases List.mem_cons.1 hl with rfl | hl
      · exact hq
      · exact hq' l hl

theorem StandsItem.det (i : PItem) : Settles (StandsItem Y P src) (StandsItem Y P src') (fun i => SameAt src src' i.expr) i := by
  intro ts rest rest' h h'
  cases h with
  | mk _ _ _ ha h =>
    cases h' with
    | mk _ _ _ ha' h' =>
      have h1 := (ha.det ha').2
      simp only [List.cons.injEq, STok.punct.injEq, true_and] at h1
      obtain ⟨-, rfl⟩ := h1
      exact Stands.det _ h h'

theorem Spec.StandsItems.det {ts rest rest' : SToks σ} {is : List PItem} {bs bs' : List Bool} (h : StandsItems Y P src ts is bs rest) :
    StandsItems Y P src' ts is bs' rest' → ∀ i ∈ is, SameAt src src' i.expr := by
  induction h generalizing bs' with
  | last h =>
    intro h' i hi
    cases List.mem_singleton.1 hi
    cases h' with
    | last h' => exact (StandsItem.det _ _ _ _ h h').1
    | lastSep h' => exact (StandsItem.det _ _ _ _ h h').1
    | cons h' _ => exact (StandsItem.det _ _ _ _ h h').1
  | lastSep h =>
    intro h' i hi
    cases List.mem_singleton.1 hi
    cases h' with
    | last h' => exact (StandsItem.det _ _ _ _ h h').1
    | lastSep h' => exact (StandsItem.det _ _ _ _ h h').1
    | cons h' _ => exact (StandsItem.det _ _ _ _ h h').1
  | @cons _ _ _ i0 _ _ _ is h hs ih =>
    intro h' i hi
    cases h' with
    | last h' => cases hs
    | lastSep h' => cases hs
    | cons h' hs' =>
      have := StandsItem.det i0 _ _ _ h h'
      simp only [List.cons.injEq] at this
      obtain ⟨hq, -, rfl⟩ := this
      rcases List.mem_cons.1 hi with rfl | hi
      · exact hq
      · exact ih hs' i hi

theorem Spec.StandsInput.det {a : PAst} {ts : SToks σ} (h : StandsInput Y P src ts a) (h' : StandsInput Y P src' ts a) :
    ∀ e ∈ exprsIn a.forget, SameAt src src' e := by
  obtain ⟨rest, h⟩ := h
  obtain ⟨rest', h'⟩ := h'
  obtain ⟨id, loops, spec, block⟩ := a
  intro e he
  simp only [exprsIn, PAst.forget, PAst.conv, List.mem_append] at he
  simp only at h h'
  cases h with
  | @mk mid _ _ _ hl hs =>
    cases h' with
    | @mk mid' _ _ _ hl' hs' =>
      have key : mid = mid' ∧ ∀ ls, loops = some ls → ∀ l ∈ ls.loops, ∀ v ∈ l.values, ∀ e ∈ exprsOfValue (v.value fun x => x), SameAt src src' e := by
        cases hl with
        | none => cases hl'; exact ⟨rfl, fun ls h => by cases h⟩
        | some _ h =>
          cases hl' with
          | some _ h' => exact ⟨(h.det h').2, fun ls e => by cases e; exact (h.det h').1⟩
      obtain ⟨rfl, key⟩ := key
      rcases he with he | he
      · cases loops with
        | none => simp at he
        | some ls =>
          simp only [Option.map_some, Option.getD_some, List.mem_flatMap, List.mem_map] at he
          obtain ⟨-, ⟨l, hl, rfl⟩, w, hw, he⟩ := he
          obtain ⟨v, hv, rfl⟩ := List.mem_map.1 hw
          exact key ls rfl l hl v hv e he
      · cases hs with
        | none => simp at he
        | some _ _ h =>
          cases hs' with
          | some _ _ h' =>
            simp only [Option.map_some, Option.toList_some, List.flatMap_cons, List.flatMap_nil, List.append_nil, List.map_map, List.mem_map] at he
            obtain ⟨i, hi, rfl⟩ := he
            exact h.det h' i hi

end Verif
