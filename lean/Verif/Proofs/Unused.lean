import Verif.Spec.Unused
import Verif.Proofs.Inside
import Verif.Proofs.Seed
/-! # Functions that are not named do not matter -/

namespace Verif
open Spec

theorem outerNames_append (a b : Toks) : outerNames (a ++ b) = outerNames a ++ outerNames b := by
  induction a with
  | nil => rfl
  | cons t a ih => simp only [List.cons_append, outerNames, ih, List.append_assoc]

theorem After.names {a b : Toks} (h : After a b) {n : Str} (hn : n ∈ outerNames b) : n ∈ outerNames a := by
  induction h with
  | refl => exact hn
  | tail _ ih => simp only [outerNames, List.mem_append]; exact .inr (ih hn)
  | enter _ ih =>
    have := ih hn
    rw [outerNames_append] at this
    simpa only [outerNames, outerNamesTok] using this

theorem first_group_names {ts c r : Toks} {d : Delim} (h : First ts (.group d c) r) (hd : d ≠ .brace) {n : Str} (hn : n ∈ outerNames c) :
    n ∈ outerNames ts := by
  refine h.after.names ?_
  simp only [outerNames, List.mem_append]
  left
  cases d <;> first | exact absurd rfl hd | simpa only [outerNamesTok] using hn

theorem outerNames_mem {n : Str} : ∀ {ts : Toks}, n ∈ outerNames ts ↔ ∃ t ∈ ts, n ∈ outerNamesTok t
  | [] => by simp [outerNames]
  | t :: ts => by simp [outerNames, outerNames_mem (ts := ts)]

theorem pieces_sub (ts : Toks) : ∀ p ∈ pieces ts, ∀ t ∈ p, t ∈ ts := by
  fun_induction pieces ts with
  | case1 => simp
  | case2 j ts ih =>
    intro p hp t ht
    rcases List.mem_cons.1 hp with rfl | hp
    · cases ht
    · exact List.mem_cons_of_mem _ (ih p hp t ht)
  | case3 t ts hne h ih =>
    intro p hp u hu
    simp only [List.mem_singleton] at hp
    subst hp
    simp only [List.mem_singleton] at hu
    subst hu
    exact List.mem_cons_self
  | case4 t ts hne q qs h ih =>
    intro p hp u hu
    rw [h] at ih
    rcases List.mem_cons.1 hp with rfl | hp
    · rcases List.mem_cons.1 hu with rfl | hu
      · exact List.mem_cons_self
      · exact List.mem_cons_of_mem _ (ih q List.mem_cons_self u hu)
    · exact List.mem_cons_of_mem _ (ih p (List.mem_cons_of_mem _ hp) u hu)

theorem pieces_names {ts p : Toks} (hp : p ∈ pieces ts) {n : Str} (hn : n ∈ outerNames p) : n ∈ outerNames ts := by
  obtain ⟨t, ht, h⟩ := outerNames_mem.1 hn
  exact outerNames_mem.2 ⟨t, pieces_sub ts p hp t ht, h⟩

/-- The two agree on the names in the tokens. -/
def KnownAlike (p q : Str → Bool) (ts : Toks) : Prop := ∀ n ∈ outerNames ts, p n = q n

theorem KnownAlike.symm {p q : Str → Bool} {ts : Toks} (h : KnownAlike p q ts) : KnownAlike q p ts := fun n hn => (h n hn).symm

theorem KnownAlike.after {p q : Str → Bool} {a b : Toks} (h : KnownAlike p q a) (hab : After a b) : KnownAlike p q b := fun n hn => h n (hab.names hn)

theorem KnownAlike.inside {p q : Str → Bool} {ts c r : Toks} {d : Delim} (h : KnownAlike p q ts) (hc : First ts (.group d c) r) (hd : d ≠ .brace) :
    KnownAlike p q c := fun n hn => h n (first_group_names hc hd hn)

section
variable {p q : Str → Bool} {Y : Syn}

theorem callAt_name {ts : Toks} {n : Str} {raw rest : Toks} (h : CallAt p ts n raw rest) : n ∈ outerNames ts := by
  cases h with
  | mk h _ _ _ => exact h.after.names (by simp [outerNames, outerNamesTok])

theorem callAt_raw {ts : Toks} {n : Str} {raw rest : Toks} (h : CallAt p ts n raw rest) {m : Str} (hm : m ∈ outerNames raw) : m ∈ outerNames ts := by
  cases h with
  | mk h _ _ h' => exact h.after_rest.names (first_group_names h' (by simp) hm)

theorem callAt_agree {ts : Toks} {n : Str} {raw rest : Toks} (h : CallAt p ts n raw rest) (ha : KnownAlike p q ts) : CallAt q ts n raw rest := by
  have hn := callAt_name h
  cases h with
  | mk h1 hk h2 h3 => exact .mk h1 (by rw [← ha n hn]; exact hk) h2 h3

mutual
theorem readsExpr_agree {ts : Toks} {e : Expr} {rest : Toks} (h : ReadsExpr p Y ts e rest) (ha : KnownAlike p q ts) : ReadsExpr q Y ts e rest := by
  match h with
  | .call id rid h hp =>
    exact .call id rid (callAt_agree h ha) (readsPieces_agree hp fun x hx n hn => ha n (callAt_raw h (pieces_names hx hn)))
  | .dropped id rid h hp he =>
    exact .dropped id rid (callAt_agree h ha) hp (readsExpr_agree he fun n hn => ha n (callAt_raw h (pieces_names hp hn)))
  | .value id hn h => exact .value id (fun n raw rest hc => hn n raw rest (callAt_agree hc ha.symm)) h
theorem readsPieces_agree {ps : List Toks} {es : List Expr} (h : ReadsPieces p Y ps es) (ha : ∀ x ∈ ps, KnownAlike p q x) : ReadsPieces q Y ps es := by
  match h with
  | .nil => exact .nil
  | .cons h hs =>
    exact .cons (readsExpr_agree h (ha _ List.mem_cons_self)) (readsPieces_agree hs fun x hx => ha x (List.mem_cons_of_mem _ hx))
end

mutual
/-- The names of the functions called are among the names in the tokens. -/
theorem readsExpr_names {ts : Toks} {e : Expr} {rest : Toks} (h : ReadsExpr p Y ts e rest) : ∀ n ∈ calls e, n ∈ outerNames ts := by
  match h with
  | .call id rid h hp =>
    have ih := readsPieces_names hp
    intro n hn
    simp only [calls, List.mem_cons] at hn
    rcases hn with rfl | hn
    · exact callAt_name h
    · obtain ⟨x, hx, hn⟩ := ih n hn
      exact callAt_raw h (pieces_names hx hn)
  | .dropped id rid h hp he =>
    intro n hn
    simp only [calls, callsL, List.mem_cons, List.not_mem_nil, or_false] at hn
    subst hn
    exact callAt_name h
  | .value id hn h => intro n hn; simp [calls] at hn
theorem readsPieces_names {ps : List Toks} {es : List Expr} (h : ReadsPieces p Y ps es) : ∀ n ∈ callsL es, ∃ x ∈ ps, n ∈ outerNames x := by
  match h with
  | .nil => intro n hn; simp [callsL] at hn
  | .cons h hs =>
    have ih := readsExpr_names h
    have ihs := readsPieces_names hs
    intro n hn
    simp only [callsL, List.mem_append] at hn
    rcases hn with hn | hn
    · exact ⟨_, List.mem_cons_self, ih n hn⟩
    · obtain ⟨x, hx, hn⟩ := ihs n hn
      exact ⟨x, List.mem_cons_of_mem _ hx, hn⟩
end

section
variable {α : Type} {R R' : Toks → α → Toks → Prop} (hR : ∀ ts a r, R ts a r → After ts r) (hRR : ∀ ts a r, KnownAlike p q ts → R ts a r → R' ts a r)
include hR hRR

mutual
theorem readsTup_agree {ts : Toks} {t : PTup α} {rest : Toks} (h : ReadsTup R ts t rest) (ha : KnownAlike p q ts) : ReadsTup R' ts t rest := by
  match h with
  | .val id hp h => exact .val id hp (hRR _ _ _ ha h)
  | .tup id tid hp h => exact .tup id tid hp (readsTups_agree h (ha.inside hp (by simp)))
theorem readsTups_agree {ts : Toks} {as : List (PTup α)} (h : CommaList (ReadsTup R) ts as) (ha : KnownAlike p q ts) : CommaList (ReadsTup R') ts as := by
  match h with
  | .nil => exact .nil
  | .last hne h => exact .last hne (readsTup_agree h ha)
  | .cons hne h hs =>
    have h1 := readsTup_agree h ha
    exact .cons hne h1 (readsTups_agree hs (ha.after ((readsTup_rest hR h).trans .cons)))
end

theorem readsElem_agree (hR' : ∀ ts a r, R' ts a r → After ts r) (hRR' : ∀ ts a r, KnownAlike q p ts → R' ts a r → R ts a r) {ts : Toks}
    {e : PLoopElem α} {rest : Toks} (h : ReadsElem R ts e rest) (ha : KnownAlike p q ts) : ReadsElem R' ts e rest := by
  cases h with
  | tuple id hp h => exact .tuple id hp (readsTups_agree hR hRR h (ha.inside hp (by simp)))
  | simple hn h =>
    exact .simple (fun c r as hp h' => hn c r as hp (readsTups_agree hR' hRR' h' (ha.symm.inside hp (by simp)))) (hRR _ _ _ ha h)

theorem commaList_agree {ts : Toks} {as : List α} (h : CommaList R ts as) (ha : KnownAlike p q ts) : CommaList R' ts as := by
  induction h with
  | nil => exact .nil
  | last hne h => exact .last hne (hRR _ _ _ ha h)
  | cons hne h _ ih => exact .cons hne (hRR _ _ _ ha h) (ih (ha.after ((hR _ _ _ h).trans .cons)))
end

theorem loopValues_agree {ts : Toks} {vs : List (PLoopElem Expr)} (h : CommaList (ReadsElem (ReadsExpr p Y)) ts vs) (ha : KnownAlike p q ts) :
    CommaList (ReadsElem (ReadsExpr q Y)) ts vs :=
  commaList_agree (fun _ _ _ h => readsElem_rest (fun _ _ _ h => readsExpr_after h) h)
    (fun _ _ _ ha h => readsElem_agree (fun _ _ _ h => readsExpr_after h) (fun _ _ _ ha h => readsExpr_agree h ha)
      (fun _ _ _ h => readsExpr_after h) (fun _ _ _ ha h => readsExpr_agree h ha) h ha) h ha

theorem readsLoop_agree {ts : Toks} {l : PLoop} {rest : Toks} (h : ReadsLoop p Y ts l rest) (ha : KnownAlike p q ts) : ReadsLoop q Y ts l rest := by
  cases h with
  | mk id lid ha' hb hv =>
    exact .mk id lid ha' hb (loopValues_agree hv (((ha.after .cons).after ((readsElem_after ha').trans .cons)).inside hb (by simp)))

theorem readsLoops_agree {ts : Toks} {ls : List PLoop} {rest : Toks} (h : ReadsLoops p Y ts ls rest) (ha : KnownAlike p q ts) :
    ReadsLoops q Y ts ls rest := by
  induction h with
  | nil h => exact .nil h
  | cons h _ ih => exact .cons (readsLoop_agree h ha) (ih (ha.after (readsLoop_after h)))

theorem readsItem_agree {ts : Toks} {i : PItem} {rest : Toks} (h : ReadsItem p Y ts i rest) (ha : KnownAlike p q ts) : ReadsItem q Y ts i rest := by
  cases h with
  | mk id aid vid h1 hn h he => exact .mk id aid vid h1 hn (readsExpr_agree h (ha.after (h1.after_rest.trans .cons))) he

theorem readsItems_agree {ts : Toks} {is : List PItem} {bs : List Bool} {rest : Toks} (h : ReadsItems p Y ts is bs rest) (ha : KnownAlike p q ts) :
    ReadsItems q Y ts is bs rest := by
  induction h with
  | last h => exact .last (readsItem_agree h ha)
  | lastSep h hs hn => exact .lastSep (readsItem_agree h ha) hs hn
  | cons h hs hm hn _ ih => exact .cons (readsItem_agree h ha) hs hm hn (ih (ha.after ((readsItem_after h).trans .cons)))

theorem readsHeader_agree {ts : Toks} {x : Option PLoops × Option PSpec} {rest : Toks} (h : ReadsHeader p Y ts x rest) (ha : KnownAlike p q ts) :
    ReadsHeader q Y ts x rest := by
  cases h with
  | @mk mid _ ls s hl hs =>
    have hm : KnownAlike p q mid := by
      rcases hl with ⟨-, rfl, -⟩ | ⟨id, l, -, -, hl⟩
      · exact ha
      · exact ha.after (readsLoops_after hl)
    refine .mk (mid := mid) ?_ ?_
    · rcases hl with h | ⟨id, l, h1, h2, h3⟩
      · exact .inl h
      · exact .inr ⟨id, l, h1, h2, readsLoops_agree h3 ha⟩
    · rcases hs with h | ⟨s', h1, h2, h3⟩
      · exact .inl h
      · refine .inr ⟨s', h1, h2, ?_⟩
        cases h3 with
        | mk id h hb => exact .mk id (readsItems_agree h hm) hb

theorem readsInput_agree {ts : Toks} {a : PAst} (h : ReadsInput p Y ts a) (ha : KnownAlike p q ts) : ReadsInput q Y ts a := by
  cases h with
  | mk id h hm hb ht => exact .mk id (readsHeader_agree h ha) hm hb ht

theorem readsAttr_agree {ts : Toks} {a : PAst} (h : ReadsAttr p Y ts a) (ha : KnownAlike p q ts) : ReadsAttr q Y ts a := by
  cases h with
  | mk id h ht => exact .mk id (readsHeader_agree h ha) ht

end

/-! ## Typing -/

section
variable {T T' : Str → Option (List Func)}

mutual
theorem check_unused (Γ : TyEnv) : (e : Expr) → (∀ n ∈ calls e, T n = T' n) → ∀ expected, check T Γ e expected = check T' Γ e expected
  | .value _ _, _, expected => by simp only [check]
  | .call i name args raw, h, expected => by
    have ih := checkArgs_unused Γ args fun n hn => h n (by simp [calls, hn])
    simp only [check, h name (by simp [calls]), ih]
theorem checkArgs_unused (Γ : TyEnv) : (es : List Expr) → (∀ n ∈ callsL es, T n = T' n) → ∀ ps, checkArgs T Γ es ps = checkArgs T' Γ es ps
  | [], _, ps => by simp only [checkArgs]
  | e :: es, _, [] => by simp only [checkArgs]
  | e :: es, h, (t, m) :: ps => by
    have ih := check_unused Γ e fun n hn => h n (by simp [callsL, hn])
    have ihs := checkArgs_unused Γ es fun n hn => h n (by simp [callsL, hn])
    simp only [checkArgs, ih, ihs]
end

mutual
theorem overflows_unused (Γ : TyEnv) : (e : Expr) → (∀ n ∈ calls e, T n = T' n) → ∀ expected, overflows T Γ e expected = overflows T' Γ e expected
  | .value _ _, _, expected => by simp only [overflows]
  | .call i name args raw, h, expected => by
    have ih := overflowsArgs_unused Γ args fun n hn => h n (by simp [calls, hn])
    simp only [overflows, h name (by simp [calls]), ih]
theorem overflowsArgs_unused (Γ : TyEnv) : (es : List Expr) → (∀ n ∈ callsL es, T n = T' n) → ∀ ps c, overflowsArgs T Γ es ps c = overflowsArgs T' Γ es ps c
  | [], _, ps, c => by simp only [overflowsArgs]
  | e :: es, _, [], c => by simp only [overflowsArgs]
  | e :: es, h, (t, m) :: ps, c => by
    have ih := overflows_unused Γ e fun n hn => h n (by simp [callsL, hn])
    have ihs := overflowsArgs_unused Γ es fun n hn => h n (by simp [callsL, hn])
    have hc := check_unused Γ e fun n hn => h n (by simp [callsL, hn])
    simp only [overflowsArgs, ih, ihs, hc]
end

theorem specs_unused : ∀ {ds : List (Str × Expr)} (Γ : TyEnv), (∀ d ∈ ds, ∀ n ∈ calls d.2, T n = T' n) →
    checkSpec T ds Γ = checkSpec T' ds Γ ∧ overflowsSpec T ds Γ = overflowsSpec T' ds Γ
  | [], _, _ => ⟨rfl, rfl⟩
  | (n, e) :: ds, Γ, h => by
    have h1 := check_unused Γ e (h _ List.mem_cons_self)
    have h2 := overflows_unused Γ e (h _ List.mem_cons_self)
    have ih := fun Γ => specs_unused (ds := ds) Γ fun d hd => h d (List.mem_cons_of_mem _ hd)
    have i1 := fun Γ => (ih Γ).1
    have i2 := fun Γ => (ih Γ).2
    simp only [checkSpec, overflowsSpec, h1, h2, i1, i2, and_self]

theorem outcome_unused {E : Ext} {seed : Nat} {ds : List (Str × Expr)} (h : ∀ d ∈ ds, ∀ n ∈ calls d.2, T n = T' n) :
    outcome E ⟨seed, T⟩ ds = outcome E ⟨seed, T'⟩ ds := by
  obtain ⟨h1, h2⟩ := specs_unused (fun _ => none) h
  simp only [outcome, denote, h1, h2]

theorem expansion_unused {W : World} {seed : Nat} {sv : Service} {a : RawAst Str Expr (List Stmt)} (h : ∀ e ∈ exprsIn a, ∀ n ∈ calls e, T n = T' n) :
    expansion W ⟨seed, T⟩ sv a = expansion W ⟨seed, T'⟩ sv a := by
  unfold expansion
  cases hi : iterations a with
  | err => rfl
  | panic => rfl
  | ok its =>
    simp only
    congr 1
    apply List.map_congr_left
    intro ds hd
    have := outcome_unused (T := T) (T' := T') (E := W.E) (seed := seed) fun d hd' => h _ (iterations_mem hi ds hd d hd')
    simp only [copyOf, this]

end

theorem hereditary_names (P : Str → Prop) : Hereditary (fun ts => ∀ n ∈ outerNames ts, P n) where
  after h ha n hn := ha n (h.names hn)
  inside h hd ha n hn := ha n (first_group_names h hd hn)

theorem readsWith_names {T : Str → Option (List Func)} {W : World} {inv : Invocation} {a : PAst} (h : ReadsWith T W inv a) :
    ∀ e ∈ exprsIn (tree a), ∀ n ∈ calls e, n ∈ outerNames (headerToks inv) := by
  have key : ∀ {ls s tail}, ReadsHeader (fun n => (T n).isSome) W.Y (headerToks inv) (ls, s) tail → a.loops = ls → a.spec = s →
      ∀ e ∈ exprsIn (tree a), ∀ n ∈ calls e, n ∈ outerNames (headerToks inv) := by
    intro ls s tail h e1 e2 e he n hn
    subst e1
    subst e2
    obtain ⟨e', ts', r, h1, rfl, h2⟩ := readsHeader_inside (hereditary_names (· ∈ outerNames (headerToks inv))) (a := a) h (fun _ h => h) Expr.erase (·.2) e he
    rw [calls_erase] at hn
    exact h2 n (readsExpr_names h1 n hn)
  cases inv with
  | compose ts => cases h with | mk id h _ _ _ => exact key h rfl rfl
  | composeIdents ts => cases h with | mk id h _ _ _ => exact key h rfl rfl
  | composeItem attr item =>
    have h := h.1
    obtain ⟨id, ls, s, b⟩ := a
    cases h with
    | mk _ h _ => exact key h rfl rfl

theorem readsWith_agree {T T' : Str → Option (List Func)} {W : World} {inv : Invocation} {a : PAst} (h : ReadsWith T W inv a)
    (ha : ∀ n ∈ outerNames (headerToks inv), T n = T' n) : ReadsWith T' W inv a := by
  have ha : KnownAlike (fun n => (T n).isSome) (fun n => (T' n).isSome) (headerToks inv) := fun n hn => by simp only [ha n hn]
  cases inv with
  | compose ts => exact readsInput_agree h ha
  | composeIdents ts => exact readsInput_agree h ha
  | composeItem attr item => exact ⟨readsAttr_agree h.1 ha, h.2⟩

end Verif
