import Verif.Proofs.FaultPlaces
import Verif.Spec.Reports
/-! # The messages of a syntax error are those of `Verif.Spec.Messages` -/

namespace Verif
open Spec D

variable (ids : Nat → Nat)

theorem forget_dAlias : (dAlias ids).forget = parseAlias ids := forget_of (onlyParse_alias ids)

theorem forget_tupleValue (n : Nat) : (dTupleValue ids (dAlias ids) n).forget = parseTupleValue ids (parseAlias ids) n := by
  induction n with
  | zero => rfl
  | succ n ih =>
    simp only [dTupleValue, parseTupleValue, forget_bind, forget_look, forget_ite, forget_of (onlyParse_group _), forget_within, forget_terminated ih,
      forget_fresh, forget_pure, forget_dAlias]

theorem tupleValue_exact (n d : Nat) (h : d < n) : Exact ids d (ReadsTup ReadsAlias) (PTup.conv Prod.snd) (tupIds fun a => [a.1])
    (parseTupleValue ids (parseAlias ids) n) := parseTupleValue_exact (fun d => parseAlias_exact ids d) n d h

theorem faults_alias {ts : Toks} {k : Nat} {w : Why} {r : Toks} :
    (dAlias ids).Faults ts k w r ↔ (∀ n r, First ts (.ident n) r → n ∈ keywords) ∧ w = .name ∧ r = ts := by
  rw [dAlias, faults_of, errs_iff (parseAlias_exact ids (nestL ts)) (Nat.le_refl _)]
  constructor
  · rintro ⟨h, h'⟩
    refine ⟨fun n r hf => ?_, h'⟩
    by_cases hn : n ∈ keywords
    · exact hn
    · exact (h _ _ (.mk 0 hf hn)).elim
  · rintro ⟨h, h'⟩
    refine ⟨fun a r ha => ?_, h'⟩
    cases ha with
    | mk _ hf hn => exact hn (h _ _ hf)

theorem faults_members {n : Nat} (H : ∀ ts k w r, nestL ts < n → ((dTupleValue ids (dAlias ids) n).Faults ts k w r ↔ MemberFault ts w r)) (m : Nat) :
    ∀ ts k, tokCount ts < m → nestL ts < n → ∀ {w : Why} {r : Toks},
    (dTerminatedLoop (dTupleValue ids (dAlias ids) n) m).Faults ts k w r ↔ TupleFault ts w r := by
  induction m with
  | zero => intro _ _ h; omega
  | succ m ih =>
    intro ts k hm hn w r
    rw [dTerminatedLoop, look_bind]
    by_cases hne : ts = []
    · subst hne
      simp only [List.isEmpty_nil, if_true, faults_pure, false_iff]
      intro h
      cases h with
      | here h => exact h rfl
      | comma h => exact h rfl
      | later h => exact h rfl
    · have : ts.isEmpty = false := by cases ts <;> simp_all
      simp only [this, Bool.false_eq_true, if_false]
      rw [faults_bind, H _ _ _ _ hn]
      simp only [ok_forget, forget_tupleValue]
      rw [oks_iff (tupleValue_exact ids n (nestL ts) hn) (Nat.le_refl _)
        (Ψ := fun _ rest => ∃ t r1, rest = t :: r1 ∧ (((∀ j, t ≠ .punct ',' j) ∧ w = .comma ∧ r = rest) ∨
          ∃ j, t = .punct ',' j ∧ TupleFault r1 w r)) ?_ (fun _ _ _ _ h => h)]
      · constructor
        · rintro (h | ⟨v, _, hv, t, r1, rfl, (⟨h1, rfl, rfl⟩ | ⟨j, rfl, h1⟩)⟩)
          · exact .here hne h
          · exact .comma hne hv h1
          · exact .later hne hv h1
        · intro h
          cases h with
          | here _ h => exact .inl h
          | comma _ hv ht => exact .inr ⟨_, _, hv, _, _, rfl, .inl ⟨ht, rfl, rfl⟩⟩
          | later _ hv hs => exact .inr ⟨_, _, hv, _, _, rfl, .inr ⟨_, rfl, hs⟩⟩
      · intro v rest k1 ha hv
        rw [look_bind]
        cases rest with
        | nil => simp
        | cons t r1 =>
          have hc := ha.count
          have hd := ha.nest
          have hd' : nestL r1 ≤ nestL (t :: r1) := nestL_tail
          have h5 : tokCount r1 + 1 ≤ tokCount (t :: r1) := tokCount_cons
          simp only [List.isEmpty_cons, Bool.false_eq_true, if_false]
          rw [faults_bind, faults_of, err_punct]
          simp only [ok_of, ok_punct]
          constructor
          · rintro (⟨h, rfl, rfl⟩ | ⟨u, r', k', ⟨⟨j, he⟩, rfl⟩, h⟩)
            · exact ⟨_, _, rfl, .inl ⟨fun j e => h j r1 (by rw [e]), rfl, rfl⟩⟩
            · cases he
              rw [faults_bind, ih _ _ (by omega) (by omega)] at h
              simp only [faults_pure, and_false, exists_false, or_false] at h
              exact ⟨_, _, rfl, .inr ⟨j, rfl, h⟩⟩
          · rintro ⟨t', r', he, (⟨h1, rfl, rfl⟩ | ⟨j, rfl, h1⟩)⟩
            · cases he
              exact .inl ⟨fun j r e => h1 j (by cases e; rfl), rfl, rfl⟩
            · cases he
              refine .inr ⟨(), _, _, ⟨⟨j, rfl⟩, rfl⟩, ?_⟩
              rw [faults_bind, ih _ _ (by omega) (by omega)]
              exact .inl h1

theorem members_end {n : Nat} {ts : Toks} (hn : nestL ts < n) {k : Nat} {vs : List (PTup Alias)} {r : Toks} {k' : Nat}
    (h : dTerminated (dTupleValue ids (dAlias ids) n) ts k = (.ok vs r, k')) : r = [] := by
  rw [ok_forget, forget_terminated (forget_tupleValue ids n)] at h
  exact ((parseTerminated_exact (tupleValue_exact ids n (nestL ts) hn) ts k (Nat.le_refl _)).of_ok h).reads.1

theorem faults_content {n : Nat} (H : ∀ ts k w r, nestL ts < n → ((dTupleValue ids (dAlias ids) n).Faults ts k w r ↔ MemberFault ts w r))
    {c ts : Toks} (hc : nestL c < n) {k : Nat} {w : Why} {r : Toks} :
    (D.within c (dTerminated (dTupleValue ids (dAlias ids) n))).Faults ts k w r ↔ TupleFault c w r := by
  rw [faults_within]
  constructor
  · rintro (h | ⟨a, t, r', k', h, -⟩)
    · exact (faults_members ids H _ c k (by omega) hc).1 h
    · cases members_end ids hc h
  · intro h
    exact .inl ((faults_members ids H _ c k (Nat.lt_succ_self _) hc).2 h)

theorem faults_tupleValue (n : Nat) : ∀ ts k w r, nestL ts < n → ((dTupleValue ids (dAlias ids) n).Faults ts k w r ↔ MemberFault ts w r) := by
  induction n with
  | zero => intro _ _ _ _ h; omega
  | succ n ih =>
    intro ts k w r hn
    rw [dTupleValue, look_bind]
    cases hp : peekParen ts with
    | true =>
      obtain ⟨c, r', hf⟩ := peekParen_iff.mp hp
      have h1 := @nestL_group .paren c r'
      have h2 := hf.after.nest
      have hg : parseGroup .paren ts k = (.ok (c, r'), k) := ok_group.2 ⟨hf, rfl⟩
      simp only [if_true]
      rw [faults_bind, faults_of]
      simp only [ok_of, hg, Prod.mk.injEq, reduceCtorEq, false_and, exists_false, false_or, Res.ok.injEq]
      constructor
      · rintro ⟨_, _, _, ⟨⟨rfl, rfl⟩, rfl⟩, h⟩
        rw [faults_bind, faults_content ids ih (by omega)] at h
        rcases h with h | ⟨a, r2, k2, -, h⟩
        · exact .tuple hf h
        · rw [fresh_bind, fresh_bind] at h; simp at h
      · intro h
        refine ⟨_, _, _, ⟨⟨rfl, rfl⟩, rfl⟩, ?_⟩
        rw [faults_bind, faults_content ids ih (by omega)]
        cases h with
        | name hp _ => exact (hp _ _ hf).elim
        | tuple hf' h => obtain ⟨e, -⟩ := hf.unique hf'; cases e; exact .inl h
    | false =>
      have hnp : ∀ c r', ¬ First ts (.group .paren c) r' := fun c r' hf => by
        rw [peekParen_iff.mpr ⟨c, r', hf⟩] at hp; cases hp
      simp only [Bool.false_eq_true, if_false]
      rw [faults_bind, faults_alias]
      constructor
      · rintro (⟨h, rfl, rfl⟩ | ⟨a, r2, k2, -, h⟩)
        · exact .name hnp h
        · rw [fresh_bind] at h; simp at h
      · intro h
        cases h with
        | name _ hn => exact .inl ⟨hn, rfl, rfl⟩
        | tuple hf _ => exact (hnp _ _ hf).elim

theorem faults_tuple {ts c r' : Toks} (hf : First ts (.group .paren c) r') {k : Nat} {w : Why} {r : Toks} :
    (dTuple ids (dAlias ids)).Faults ts k w r ↔ TupleFault c w r := by
  have hg : parseGroup .paren ts k = (.ok (c, r'), k) := ok_group.2 ⟨hf, rfl⟩
  rw [dTuple, faults_bind, faults_of]
  simp only [ok_of, hg, Prod.mk.injEq, reduceCtorEq, false_and, exists_false, false_or, Res.ok.injEq]
  constructor
  · rintro ⟨_, _, _, ⟨⟨rfl, rfl⟩, rfl⟩, h⟩
    rw [faults_bind, faults_content ids (faults_tupleValue ids _) (Nat.lt_succ_self _)] at h
    rcases h with h | ⟨a, r2, k2, -, h⟩
    · exact h
    · rw [fresh_bind] at h; simp at h
  · intro h
    refine ⟨_, _, _, ⟨⟨rfl, rfl⟩, rfl⟩, ?_⟩
    rw [faults_bind, faults_content ids (faults_tupleValue ids _) (Nat.lt_succ_self _)]
    exact .inl h

theorem errorOf_faults {α : Type} {x : D α} {ts : Toks} {k : Nat} {w : Why} {r : Toks} (h : x.Faults ts k w r) : errorOf (x ts k) = [[(w, r)]] := by
  obtain ⟨k', h⟩ := h
  rw [h]
  rfl

/-- A tuple which cannot be read has a fault. -/
theorem tupleFault_exists {ts c r' : Toks} (hf : First ts (.group .paren c) r') (hn : ∀ as, ¬ CommaList (ReadsTup ReadsAlias) c as) :
    ∃ w p, TupleFault c w p := by
  have hx := parseTerminated_exact (tupleValue_exact (fun k => k) (nestL c + 1) (nestL c) (Nat.lt_succ_self _)) c 0 (Nat.le_refl _)
  rcases hx.cases with ⟨a, r, k', -, g⟩ | ⟨e, k', h, b⟩
  · exact (hn a g.reads.2).elim
  · rw [← forget_terminated (forget_tupleValue (fun k => k) _)] at h
    unfold D.forget at h
    split at h
    · cases h
    · rename_i w p _ hd
      exact ⟨w, p, (faults_members _ (faults_tupleValue _ _) _ c 0 (Nat.lt_succ_self _) (Nat.lt_succ_self _)).1 ⟨_, hd⟩⟩
    · cases h

theorem tupleFault_unique {ts c r' : Toks} (hf : First ts (.group .paren c) r') {w w' : Why} {p p' : Toks} (h : TupleFault c w p)
    (h' : TupleFault c w' p') : w' = w ∧ p' = p := by
  obtain ⟨k1, h1⟩ := (faults_tuple (fun k => k) hf (k := 0)).2 h
  obtain ⟨k2, h2⟩ := (faults_tuple (fun k => k) hf (k := 0)).2 h'
  rw [h1] at h2
  cases h2
  exact ⟨rfl, rfl⟩

/-! ## Where the two kinds of mistakes with several messages come from -/

section
variable {known : Str → Bool} {Y : Syn}

/-- A tuple of names which cannot be read is at the place. -/
def BadTuple (r : Toks) : Prop := ∃ c r', First r (.group .paren c) r' ∧ ∀ as, ¬ CommaList (ReadsTup ReadsAlias) c as

/-- There is something else than a separator at the place. -/
def NoSeparator (r : Toks) : Prop := ∃ t r', r = t :: r' ∧ ∀ b, ¬ IsSep b t

/-- What is known about the place of a mistake. -/
def PlaceOf (w : Why) (r : Toks) : Prop := (w = .loopAlias → BadTuple r) ∧ (w = .separator → NoSeparator r)

theorem itemsFault_place {b : Option Bool} {ts : Toks} {w : Why} {r : Toks} (h : ItemsFault known Y b ts w r) : PlaceOf w r := by
  induction h with
  | here h =>
    cases h with
    | equals => simp [PlaceOf]
    | separator _ _ _ ht => exact ⟨by simp, fun _ => ⟨_, _, rfl, ht⟩⟩
  | mixed => simp [PlaceOf]
  | later _ _ _ _ _ _ ih => exact ih

theorem headerFault_place {ts : Toks} {w : Why} {r : Toks} (h : HeaderFault known Y ts w r) : PlaceOf w r := by
  cases h with
  | loops h =>
    induction h with
    | here h =>
      cases h with
      | alias h =>
        cases h with
        | name => simp [PlaceOf]
        | tuple hp hn => exact ⟨fun _ => ⟨_, _, hp, hn⟩, by simp⟩
      | _ => simp [PlaceOf]
    | later _ _ ih => exact ih
  | items _ _ _ h => exact itemsFault_place h

theorem inputFault_place {ts : Toks} {w : Why} {r : Toks} (h : InputFault known Y ts w r) : PlaceOf w r := by
  cases h with
  | header h => exact headerFault_place h
  | _ => simp [PlaceOf]

theorem attrFault_place {ts : Toks} {w : Why} {r : Toks} (h : AttrFault known Y ts w r) : PlaceOf w r := by
  cases h with
  | header h => exact headerFault_place h
  | _ => simp [PlaceOf]

theorem syntaxFault_place {W : World} {inv : Invocation} {w : Why} {r : Toks} (h : SyntaxFault W inv w r) : PlaceOf w r := by
  cases h with
  | compose h => exact inputFault_place h
  | composeIdents h => exact inputFault_place h
  | attr h => exact attrFault_place h
  | item => simp [PlaceOf]

end

/-! ## The messages -/

theorem first_paren_not_ident {ts c r : Toks} (h : First ts (.group .paren c) r) : ∀ n r', First ts (.ident n) r' → n ∈ keywords := by
  intro n r' h'
  obtain ⟨e, -⟩ := h.unique h'
  cases e

theorem loopAlias_messages {k : Nat} {ts c r : Toks} (hf : First ts (.group .paren c) r) {w : Why} {p : Toks} (h : TupleFault c w p) :
    combineErrors .loopAlias ts (loopAliasErrors ids k ts) = some [(.loopAlias, ts), (w, p), (.name, ts)] := by
  have h1 : peekParen ts = true := peekParen_iff.mpr ⟨_, _, hf⟩
  have h2 := errorOf_faults ((faults_tuple ids hf (k := k)).2 h)
  have h3 : errorOf (dAlias ids ts k) = [[(.name, ts)]] := errorOf_faults ((faults_alias ids).2 ⟨first_paren_not_ident hf, rfl, rfl⟩)
  simp [loopAliasErrors, h1, h2, h3, combineErrors]

theorem separator_messages {k : Nat} {r : Toks} (h : NoSeparator r) :
    combineErrors .separator r (separatorErrors k r) = some [(.separator, r), (.comma, r), (.semicolon, r)] := by
  obtain ⟨t, r', rfl, ht⟩ := h
  have key : ∀ c w, (∀ j, t ≠ .punct c j) → errorOf (D.of (fun _ => w) (parsePunct c) (t :: r') k) = [[(w, t :: r')]] := by
    intro c w hc
    apply errorOf_faults
    rw [faults_of, err_punct]
    exact ⟨fun j r e => hc j (by cases e; rfl), rfl, rfl⟩
  have h1 := key ',' .comma (fun j e => ht true (by rw [e]; exact .comma j))
  have h2 := key ';' .semicolon (fun j e => ht false (by rw [e]; exact .semi j))
  simp [separatorErrors, h1, h2, combineErrors]

theorem messages_exist {w : Why} {r : Toks} (h : PlaceOf w r) : ∃ rs, Messages w r rs := by
  by_cases h1 : w = .loopAlias
  · subst h1
    obtain ⟨c, r', hf, hn⟩ := h.1 rfl
    obtain ⟨w, p, ht⟩ := tupleFault_exists hf hn
    exact ⟨_, .alias hf ht⟩
  by_cases h2 : w = .separator
  · subst h2
    exact ⟨_, .separator r⟩
  exact ⟨_, .one h1 h2⟩

theorem messages_unique {w : Why} {r : Toks} {rs rs' : List Report} (h : Messages w r rs) (h' : Messages w r rs') : rs' = rs := by
  cases h with
  | one h1 h2 =>
    cases h' with
    | one => rfl
    | alias => exact (h1 rfl).elim
    | separator => exact (h2 rfl).elim
  | alias hf ht =>
    cases h' with
    | one h1 => exact (h1 rfl).elim
    | alias hf' ht' =>
      obtain ⟨e, -⟩ := hf.unique hf'
      cases e
      obtain ⟨rfl, rfl⟩ := tupleFault_unique hf ht ht'
      rfl
  | separator =>
    cases h' with
    | one _ h2 => exact (h2 rfl).elim
    | separator => rfl

theorem reports_of {W : World} {k : Nat} {inv : Invocation} {w : Why} {r : Toks} {rs : List Report} (h : SyntaxFault W inv w r) (hm : Messages w r rs) :
    reports W.Y isBuiltin ids k inv = some rs := by
  have hp := syntaxFault_place h
  unfold reports
  rw [(syntaxError_iff W ids k inv w r).2 h]
  cases hm with
  | one h1 h2 => split <;> simp_all
  | alias hf ht => exact loopAlias_messages ids hf ht
  | separator => exact separator_messages (hp.2 rfl)

theorem reports_iff {W : World} {k : Nat} {inv : Invocation} {rs : List Report} :
    reports W.Y isBuiltin ids k inv = some rs ↔ ∃ w r, SyntaxFault W inv w r ∧ Messages w r rs := by
  constructor
  · intro h
    have hx : ∃ w r, SyntaxFault W inv w r := by
      unfold reports at h
      cases hs : syntaxError W.Y isBuiltin ids k inv with
      | none => rw [hs] at h; cases h
      | some x => exact ⟨x.1, x.2, (syntaxError_iff W ids k inv _ _).1 hs⟩
    obtain ⟨w, r, hw⟩ := hx
    obtain ⟨rs', hm⟩ := messages_exist (syntaxFault_place hw)
    rw [reports_of ids hw hm] at h
    cases h
    exact ⟨w, r, hw, hm⟩
  · rintro ⟨w, r, h, hm⟩
    exact reports_of ids h hm

/-! ## Places -/

theorem readsTup_after' {ts : Toks} {a : PTup Alias} {r : Toks} (h : ReadsTup ReadsAlias ts a r) : After ts r := by
  cases h with
  | tup _ _ h _ => exact h.after_rest
  | val _ _ h => cases h with | mk _ h _ => exact h.after_rest

mutual
theorem tupleFault_flat {c : Toks} {w : Why} {p : Toks} : TupleFault c w p → flat p <:+: flat c
  | .here _ h => memberFault_flat h
  | .comma _ h _ => (readsTup_after' h).flat.isInfix
  | .later _ h hr => (tupleFault_flat hr).trans ((readsTup_after' h).trans .cons).flat.isInfix
theorem memberFault_flat {c : Toks} {w : Why} {p : Toks} : MemberFault c w p → flat p <:+: flat c
  | .name _ _ => List.infix_refl _
  | .tuple hf h => (tupleFault_flat h).trans (first_group_flat hf)
end

mutual
theorem tupleFault_why {c : Toks} {w : Why} {p : Toks} : TupleFault c w p → w = .name ∨ w = .comma
  | .here _ h => memberFault_why h
  | .comma _ _ _ => .inr rfl
  | .later _ _ hr => tupleFault_why hr
theorem memberFault_why {c : Toks} {w : Why} {p : Toks} : MemberFault c w p → w = .name ∨ w = .comma
  | .name _ _ => .inl rfl
  | .tuple _ h => tupleFault_why h
end

end Verif
