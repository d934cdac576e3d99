import Verif.Props.Normalize
import Verif.Props.FormatString
import Verif.Props.CrossProduct
import Verif.Props.Parse
import Verif.Props.Whole
/-!
# Exact conditions, continued

As `Props/Exact`, for C04, C09, C40, C45, C48, C49 and C55.
-/

namespace Verif.Props
open Verif Spec

/-! ## C04: underscores at the end of `normalize` -/

section Normalize
variable {C : CharClass}

theorem squeeze_append_underscore (p : Bool) (a b : Str) (hb : ∀ d ∈ b, keepable C d = false) :
    (squeeze C p (a ++ '_' :: b)).getLast? = some '_' := by
  have tail : ∀ (b : Str) q, (∀ d ∈ b, keepable C d = false) → squeeze C q b = [] := by
    intro b
    induction b with
    | nil => intro q _; rfl
    | cons d b ih => intro q h; rw [squeeze, if_neg (by simp [h d]), ih _ fun x hx => h x (by simp [hx])]
  induction a generalizing p with
  | nil =>
    rw [List.nil_append, squeeze, if_pos (by simp [keepable]), tail b _ hb]
    simp
  | cons c a ih =>
    rw [List.cons_append, squeeze]
    split
    · rw [List.getLast?_append, List.getLast?_cons, ih]; simp
    · exact ih _

/-- **C04**, exact: the result ends with an underscore, without being one, if and only if the text ends with an underscore, any special characters, and one
last character that is no letter or digit, after some letter or digit. -/
theorem C04_exact (hu : C.alnum '_' = false) (s : Str) :
    (normalize C s ≠ ['_'] ∧ (normalize C s).getLast? = some '_') ↔
    ∃ a b l, s = a ++ '_' :: (b ++ [l]) ∧ (∃ c ∈ a, C.alnum c = true) ∧ C.alnum l = false ∧ ∀ d ∈ b, C.alnum d = false ∧ d ≠ '_' := by
  constructor
  · rintro ⟨h1, h2⟩
    obtain ⟨a, b, l, hs, hl, hb⟩ := C04_normalize_trailing_partial hu s h1 h2
    refine ⟨a, b, l, hs, ?_, hl, hb⟩
    -- otherwise nothing is left
    by_cases hc : ∃ c ∈ a, C.alnum c = true
    · exact hc
    · exfalso
      apply h1
      rw [normalize_eq hu]
      rcases normalized_shape (C := C) s with ⟨h', -⟩ | ⟨c, cs, hc', -, ⟨cs', hd, -⟩, -⟩
      · exact h'
      · exfalso
        have : c ∈ s := by
          obtain ⟨p, hp⟩ := dropWhile_suffix (C := C) s
          rw [hp, hd]; simp
        rw [hs] at this
        simp only [List.mem_append, List.mem_cons, List.not_mem_nil, or_false] at this
        rcases this with h | rfl | h | rfl
        · exact hc ⟨c, h, hc'⟩
        · rw [hu] at hc'; cases hc'
        · rw [(hb c h).1] at hc'; cases hc'
        · rw [hl] at hc'; cases hc'
  · rintro ⟨a, b, l, hs, ⟨x, hx, hxa⟩, hl, hb⟩
    rw [normalize_eq hu]
    have hdrop : ∃ c a', C.alnum c = true ∧ a.dropWhile (fun c => !C.alnum c) = c :: a' := by
      cases h : a.dropWhile (fun c => !C.alnum c) with
      | nil => exact absurd hxa (by rw [dropWhile_nil h x hx]; simp)
      | cons c a' =>
        refine ⟨c, a', ?_, rfl⟩
        have := List.head?_dropWhile_not (fun c => !C.alnum c) a
        rw [h] at this
        simpa using this
    obtain ⟨c, a', hc, ha⟩ := hdrop
    have hd : s.dropWhile (fun c => !C.alnum c) = c :: (a' ++ '_' :: b ++ [l]) := by
      rw [hs, List.dropWhile_append, ha]; simp
    have ht : trimLast C (a' ++ '_' :: b ++ [l]) = a' ++ '_' :: b := by
      rcases trimLast_cases (C := C) (a' ++ '_' :: b ++ [l]) with ⟨-, h⟩ | ⟨l', -, h⟩
      · have := h l (by rw [List.getLast?_append]; rfl)
        rw [hl] at this; cases this
      · exact (List.append_inj_left' h rfl).symm
    have hn : normalized C s = (if C.numeric c then ['_'] else []) ++ c :: squeeze C false (a' ++ '_' :: b) := by
      unfold normalized
      rw [hd]
      simp only [ht]
    have hsq := squeeze_append_underscore (C := C) false a' b (fun d hd => by simp [keepable, hb d hd])
    rw [hn]
    constructor
    · intro h
      have hc_ : c ≠ '_' := by intro e; subst e; rw [hu] at hc; cases hc
      split at h
      · simp at h
      · simp at h; exact hc_ h.1
    · rw [List.getLast?_append, List.getLast?_cons, hsq]; simp

example : S "hello_$$" = S "hello" ++ '_' :: (S "$" ++ ['$']) ∧ (∃ c ∈ S "hello", CharClass.ascii.alnum c = true) ∧
    CharClass.ascii.alnum '$' = false := ⟨by decide, ⟨'h', by decide, by decide⟩, by decide⟩
end Normalize

/-! ## C09: escapes -/

theorem mem_takeWhile_holds {α : Type} {p : α → Bool} {x : α} {l : List α} (h : x ∈ l.takeWhile p) : p x = true :=
  List.all_eq_true.1 List.all_takeWhile x h

section Format
variable {C : CharClass} {look : Str → Option Str}

/-- **C09**, exact: writing every percent as `%%` produces the text if and only if no two percents are adjacent in it. -/
theorem C09_exact (s : Str) : formatString C look (escapePercent s) = s ↔ ¬ HasDoublePercent s := by
  refine ⟨?_, C09_escape_partial s⟩
  -- every run of percents gets longer
  have esc : ∀ n, escapePercent (List.replicate n '%') = List.replicate (2 * n) '%' := by
    intro n
    induction n with
    | zero => rfl
    | succ n ih =>
      rw [List.replicate_succ, escapePercent, List.flatMap_cons, ← escapePercent, ih, show 2 * (n + 1) = (2 * n + 1) + 1 by omega, List.replicate_succ,
        List.replicate_succ]
      rfl
  have app : ∀ a b, escapePercent (a ++ b) = escapePercent a ++ escapePercent b := fun a b => List.flatMap_append ..
  have none : ∀ p : Str, '%' ∉ p → escapePercent p = p := by
    intro p
    induction p with
    | nil => intro _; rfl
    | cons c p ih =>
      intro h
      simp only [List.mem_cons, not_or] at h
      rw [escapePercent, List.flatMap_cons, ← escapePercent, ih h.2, if_neg (fun e => h.1 e.symm)]
      rfl
  have split : ∀ s : Str, '%' ∈ s → ∃ pre n post, s = pre ++ List.replicate (n + 1) '%' ++ post ∧ '%' ∉ pre ∧ post.head? ≠ some '%' := by
    intro s hs
    refine ⟨s.takeWhile (· != '%'), ((s.dropWhile (· != '%')).takeWhile (· == '%')).length - 1, (s.dropWhile (· != '%')).dropWhile (· == '%'), ?_, ?_, ?_⟩
    · have h1 : (s.dropWhile (· != '%')) ≠ [] := by
        intro h
        have := List.takeWhile_append_dropWhile (p := (· != '%')) (l := s)
        rw [h, List.append_nil] at this
        rw [← this] at hs
        have := mem_takeWhile_holds hs
        simp at this
      have h2 : ((s.dropWhile (· != '%')).takeWhile (· == '%')) ≠ [] := by
        cases h : s.dropWhile (· != '%') with
        | nil => exact absurd h h1
        | cons c t =>
          have := List.head?_dropWhile_not (· != '%') s
          rw [h] at this
          simp at this
          subst this
          simp
      have h3 : (s.dropWhile (· != '%')).takeWhile (· == '%') =
          List.replicate ((s.dropWhile (· != '%')).takeWhile (· == '%')).length '%' := by
        apply List.eq_replicate_of_mem
        intro b hb
        have := mem_takeWhile_holds hb
        simpa using this
      have h4 : ((s.dropWhile (· != '%')).takeWhile (· == '%')).length - 1 + 1 = ((s.dropWhile (· != '%')).takeWhile (· == '%')).length := by
        have := List.length_pos_iff.2 h2
        omega
      rw [h4, ← h3, List.append_assoc, List.takeWhile_append_dropWhile, List.takeWhile_append_dropWhile]
    · intro h
      have := mem_takeWhile_holds h
      simp at this
    · intro h
      have := List.head?_dropWhile_not (· == '%') (s.dropWhile (· != '%'))
      rw [h] at this
      simp at this
  have key : ∀ n, ∀ s : Str, s.length ≤ n → s.length ≤ (formatString C look (escapePercent s)).length ∧
      (HasDoublePercent s → s.length < (formatString C look (escapePercent s)).length) := by
    intro n
    induction n with
    | zero =>
      intro s hs
      have : s = [] := List.length_eq_zero_iff.1 (by omega)
      subst this
      exact ⟨by simp, fun ⟨a, b, h⟩ => by simp at h⟩
    | succ n ih =>
      intro s hs
      by_cases hp : '%' ∈ s
      · obtain ⟨pre, m, post, rfl, h1, h2⟩ := split s hp
        have hpost : (escapePercent post).head? ≠ some '%' := by
          cases post with
          | nil => simp [escapePercent]
          | cons c post =>
            simp only [List.head?_cons, ne_eq, Option.some.injEq] at h2
            simp [escapePercent, h2]
        have hr : formatString C look (escapePercent (pre ++ List.replicate (m + 1) '%' ++ post)) =
            pre ++ List.replicate (2 * m + 1) '%' ++ formatString C look (escapePercent post) := by
          rw [app, app, none pre h1, esc, show 2 * (m + 1) = 2 * m + 2 by omega]
          exact C09_percent_run_partial pre _ (2 * m) h1 hpost
        have hl : post.length ≤ n := by simp at hs; omega
        obtain ⟨i1, i2⟩ := ih post hl
        rw [hr]
        simp only [List.length_append, List.length_replicate]
        refine ⟨by omega, fun hdbl => ?_⟩
        cases m with
        | succ m => omega
        | zero =>
          have : HasDoublePercent post := by
            obtain ⟨a, b, e0⟩ := hdbl
            -- the pair is not in `pre`, nor at the single percent
            have e : pre ++ '%' :: post = a ++ '%' :: '%' :: b := by rw [← e0, List.append_assoc]; rfl
            clear e0
            rw [List.append_eq_append_iff] at e
            rcases e with ⟨a', rfl, e⟩ | ⟨c', rfl, e⟩
            · cases a' with
              | nil =>
                have e : post = '%' :: b := by
                  first
                  | exact (List.cons.inj e).2
                  | exact (List.cons.inj e).2.symm
                rw [e] at h2; simp at h2
              | cons x a' =>
                simp only [List.cons_append, List.cons.injEq] at e
                exact ⟨a', b, e.2⟩
            · cases c' with
              | nil =>
                have e : post = '%' :: b := by
                  first
                  | exact (List.cons.inj e).2
                  | exact (List.cons.inj e).2.symm
                rw [e] at h2; simp at h2
              | cons x c' =>
                simp only [List.cons_append, List.cons.injEq] at e
                exact absurd (by rw [← e.1]; simp) h1
          have := i2 this
          omega
      · have : ¬ HasDoublePercent s := fun ⟨a, b, e⟩ => hp (by rw [e]; simp)
        rw [C09_escape_partial s this]
        exact ⟨Nat.le_refl _, fun h => absurd h this⟩
  intro h hd
  have := (key _ s (Nat.le_refl _)).2 hd
  rw [h] at this
  omega

example : HasDoublePercent (S "a%%b") := ⟨S "a", S "b", by decide⟩
end Format

/-! ## C40: reset -/

/-- **C40**, exact: after `reset` the iterator yields what it yielded initially if and only if there is a source. -/
theorem C40_exact {α : Type} (ss : List (List α)) (n : Nat) (it : CrossProduct α) (ha : Spec.After (CrossProduct.fromVecs ss) n it) :
    (∃ xs, Yields (CrossProduct.fromVecs ss) xs ∧ Yields it.reset xs) ↔ ss ≠ [] := by
  constructor
  · rintro ⟨xs, h1, h2⟩ rfl
    have e1 := yields_unique h1 (C40_reset_false (α := α)).1
    subst e1
    clear h1
    have hi : it = CrossProduct.fromVecs [] := by
      generalize hf : CrossProduct.fromVecs ([] : List (List α)) = f at ha
      clear h2
      induction ha with
      | zero => rfl
      | succ h _ ih =>
        subst hf
        cases h
        exact ih rfl
    subst hi
    have := yields_unique h2 (C40_reset_false (α := α)).2
    cases this
  · intro h
    refine ⟨combinations ss, ?_, C40_reset_partial ss h n it ha⟩
    exact C37_cross_product_enumerates ss

/-- Without sources, and after all combinations of two sources. -/
example : (∃ it, Spec.After (CrossProduct.fromVecs ([] : List (List Nat))) 1 it) ∧ ∃ it, Spec.After (CrossProduct.fromVecs [[1, 2], [3]]) 3 it :=
  ⟨after_exists _ _, after_exists _ _⟩

/-! ## C48: arguments -/

section Parse
variable {Y : Syn} {known : Str → Bool} {ids : Nat → Nat}

/-- **C48**, exact: the arguments of a call are what is between the top-level commas, read piece by piece, if and only if nothing is left over after any piece. -/
theorem C48_exact {ts : Toks} {n : Str} {raw rest : Toks} (h : CallAt known ts n raw rest) (k : Nat) :
    (∃ id args rid k', parseE Y known ids ts k = (.ok (.call id n args (some (rid, raw)), rest), k') ∧ ReadsPieces known Y (pieces raw) args) ↔
    ∀ p ∈ pieces raw, ¬ Trailing known Y p := by
  refine ⟨?_, fun hp => C48_arguments_partial Y known ids h hp k⟩
  rintro ⟨id, args, rid, k', -, ha⟩ p hp ⟨e, t, r, h3⟩
  obtain ⟨e', h4⟩ := readsPieces_mem ha hp
  have := ((parseE_exact Y known (fun x => x) _).unique (Nat.le_refl _) h3 h4).1
  cases this
/-- Some pieces are left over and some are not. -/
example : (∃ p ∈ pieces [id' "lower", paren [id' "a"], id' "b", comma, id' "c"], Trailing demoKnown Syn.demo p) ∧
    ∀ p ∈ pieces [id' "a", comma, id' "c"], ¬ Trailing demoKnown Syn.demo p := by
  have hg : ∀ s, ∀ c, Tok.group Delim.none c ≠ .ident s := by simp
  refine ⟨⟨[id' "lower", paren [id' "a"], id' "b"], by decide, ?_⟩, ?_⟩
  · have h := (parseE_ok Syn.demo demoKnown (fun k => k) [id' "lower", paren [id' "a"], id' "b"] 0).cases
    rcases h with ⟨e, r, k', h1, g⟩ | ⟨_, _, _, h⟩
    · cases h1.symm.trans (rfl : parseE Syn.demo demoKnown (fun k => k) [id' "lower", paren [id' "a"], id' "b"] 0 = _)
      exact ⟨_, _, _, g.reads⟩
    · exact h.elim
  · intro p hp
    have : p = [id' "a"] ∨ p = [id' "c"] := by
      have e : pieces [id' "a", comma, id' "c"] = [[id' "a"], [id' "c"]] := by decide
      rw [e] at hp
      simpa using hp
    rintro ⟨e, t, r, h⟩
    have h2 : ∃ k', (parseE Syn.demo demoKnown (fun k => k) p 0) = (.ok (.value 0 (.ident (p.head?.elim [] fun | .ident s => s | _ => [])), []), k') := by
      rcases this with rfl | rfl
      · exact ⟨_, rfl⟩
      · exact ⟨_, rfl⟩
    obtain ⟨k', h2⟩ := h2
    rcases (parseE_ok Syn.demo demoKnown (fun k => k) p 0).cases with ⟨e', r', k2, h3, g⟩ | ⟨_, _, _, h⟩
    · cases h3.symm.trans h2
      have := ((parseE_exact Syn.demo demoKnown (fun x => x) _).unique (Nat.le_refl _) h g.reads).1
      cases this
    · exact h.elim

/-! ## C45: mixed separators in attributes -/

/-- **C45**, exact for attributes: definitions followed by the separators `bs` and then by `rest` are accepted if and only if the separators are all the
same and `rest` is nothing or one separator more, of either kind. -/
theorem C45_exact {ts mid rest : Toks} {ls : Option PLoops} {items : List PItem} {bs : List Bool}
    (hl : ReadsOptLoops Y known ts ls mid) (hi : ReadsItems known Y mid items bs rest) (k : Nat) (sv : Service) (hb : 1 ≤ sv.borrowed) :
    (∃ a, (parseAttr Y known ids ts k (some sv)).1 = .ok a) ↔
      (∀ c ∈ bs, ∀ d ∈ bs, c = d) ∧ (rest = [] ∨ ∃ c t, rest = [t] ∧ IsSep c t) := by
  constructor
  · rintro ⟨a, ha⟩
    have h := (C58_attribute Y known ids ts k sv hb).1 a ha
    cases h with
    | mk id h ht' =>
      rename_i tail' ls' s'
      cases h with
      | mk hl' hs' =>
        rename_i mid'
        obtain ⟨rfl, -⟩ := (optLoops_exact Y known ids _).unique (Nat.le_refl _) hl hl'
        obtain ⟨n, r, hn, hk⟩ := readsItems_head hi
        rcases hs' with ⟨-, -, hs'⟩ | ⟨s2, rfl, -, hs'⟩
        · exact (hk (hs' _ _ hn)).elim
        · cases hs' with
          | mk id2 hi' hb' =>
            rename_i items' bs'
            have := (parseItems_exact Y known ids (tokCount mid' + 1) none mid' 0 (by omega)).cases
            rcases this with ⟨a, r2, k2, -, g⟩ | ⟨e, k2, -, -, -, hno⟩
            · obtain ⟨bs2, -, -, -, hu2⟩ := g.reads
              have e1 := hu2 _ _ _ hi
              have e2 := hu2 _ _ _ hi'
              have hbs : bs' = bs := e2.2.1.trans e1.2.1.symm
              have hr : tail' = rest := e2.1.trans e1.1.symm
              subst hbs hr
              refine ⟨hb', ?_⟩
              rcases ht' with h | ⟨-, h⟩
              · exact .inl h
              · exact .inr h
            · exact (hno _ _ _ hi' (agree_none.mpr hb')).elim
  · rintro ⟨hsame, ht⟩
    obtain ⟨a, h, -⟩ := (C58_attribute Y known ids ts k sv hb).2 ⟨0, ls, some ⟨0, items, bs.head?⟩, []⟩
      (.mk 0 (.mk hl (.inr ⟨_, rfl, readsItems_head hi, .mk 0 hi hsame⟩)) (by
        rcases ht with h | h
        · exact .inl h
        · exact .inr ⟨rfl, h⟩))
    exact ⟨a, h⟩

/-! ## C49: semicolons -/

/-- Definitions followed by semicolons and a block can only be read if all values are calls. -/
theorem semi_calls {j : Bool} {b : Toks} : ∀ {l : List (Str × Toks)} {items : List PItem} {bs : List Bool} {rest : Toks}, l ≠ [] →
    (∀ d ∈ l, d.1 ∉ keywords ∧ ∀ t ∈ d.2, (∀ c, ¬ IsSep c t) ∧ ∀ c, t ≠ .group .none c) →
    ReadsItems known Y (defsToks (.punct ';' j) l [.group .brace b]) items bs rest → rest ≠ [] →
    ∀ d ∈ l, ∃ f raw, CallAt known d.2 f raw []
  | [], _, _, _, hne, _, _, _ => (hne rfl).elim
  | (n, v) :: l, items, bs, rest, _, hv, h, hr => by
    have ih := fun items bs rest => semi_calls (b := b) (j := j) (l := l) (items := items) (bs := bs) (rest := rest)
    obtain ⟨hn, hv0⟩ := hv (n, v) (by simp)
    simp only at hv0
    have hgs : ∀ l : List (Str × Toks), (∀ d ∈ l, d.1 ∉ keywords ∧ ∀ t ∈ d.2, (∀ c, ¬ IsSep c t) ∧ ∀ c, t ≠ .group .none c) →
        ∀ t ∈ defsToks (.punct ';' j) l [.group .brace b], (∀ j', t ≠ .punct ',' j') ∧ ∀ c, t ≠ .group .none c := by
      intro l hl
      induction l with
      | nil => intro t ht; simp [defsToks] at ht; subst ht; simp
      | cons d l ih =>
        intro t ht
        obtain ⟨n, v⟩ := d
        simp only [defsToks, List.mem_cons, List.mem_append] at ht
        rcases ht with rfl | rfl | ht | rfl | ht
        · simp
        · simp
        · have := (hl (n, v) (by simp)).2 t ht
          exact ⟨fun j' e => this.1 true (e ▸ .comma j'), this.2⟩
        · simp
        · exact ih (fun d hd => hl d (by simp [hd])) t ht
    have htail := hgs l (fun d hd => hv d (by simp [hd]))
    -- what the first definition is
    have first : ∀ i mid, ReadsItem known Y (defsToks (.punct ';' j) ((n, v) :: l) [.group .brace b]) i mid → mid = [] ∨
        (mid = .punct ';' j :: defsToks (.punct ';' j) l [.group .brace b] ∧ ∃ f raw, CallAt known v f raw []) := by
      intro i mid hitem
      cases hitem with
      | mk id aid vid ha hn' he hend =>
        rename_i n' j' ts' e
        simp only [defsToks, first_ident] at ha
        obtain ⟨hnn', ha⟩ := ha
        injection ha with ha1 ha2
        subst ha2
        have hplain : ∀ t ∈ v ++ .punct ';' j :: defsToks (.punct ';' j) l [.group .brace b], (∀ j', t ≠ .punct ',' j') ∧ ∀ c, t ≠ .group .none c := by
          intro t ht
          simp only [List.mem_append, List.mem_cons] at ht
          rcases ht with ht | rfl | ht
          · exact ⟨fun j' e => (hv0 t ht).1 true (e ▸ .comma j'), (hv0 t ht).2⟩
          · simp
          · exact htail t ht
        have call : ∀ f raw, CallAt known (v ++ .punct ';' j :: defsToks (.punct ';' j) l [.group .brace b]) f raw mid →
            mid = [] ∨ (mid = .punct ';' j :: defsToks (.punct ';' j) l [.group .brace b] ∧ ∃ f raw, CallAt known v f raw []) := by
          intro f raw hc
          cases hc with
          | mk h1 hk hn1 h2 =>
            rename_i ts1
            cases v with
            | nil =>
              exfalso
              cases h1
            | cons t v =>
              have ht := hplain t (by simp)
              rw [List.cons_append] at h1
              cases h1 with
              | inside => exact (ht.2 _ rfl).elim
              | skip => exact (ht.2 _ rfl).elim
              | here hnn =>
                cases v with
                | nil =>
                  exfalso
                  cases h2
                | cons t2 v =>
                  have ht2 := hplain t2 (by simp)
                  rw [List.cons_append] at h2
                  cases h2 with
                  | inside => exact (ht2.2 _ rfl).elim
                  | skip => exact (ht2.2 _ rfl).elim
                  | here hnn2 =>
                    cases v with
                    | nil => exact .inr ⟨rfl, f, raw, .mk (.here hnn) hk hn1 (.here hnn2)⟩
                    | cons t3 v =>
                      rcases hend with h | ⟨c, t', r, h, hs⟩
                      · cases h
                      · rw [List.cons_append] at h
                        injection h with h3 h4
                        subst h3
                        exact ((hv0 t3 (by simp)).1 c hs).elim
        cases he with
        | call id rid hc ha => exact call _ _ hc
        | dropped id rid hc hp he => exact call _ _ hc
        | value id hnc hval =>
          obtain ⟨h1, h2⟩ := readsValue_ends hval
          cases h1 with
          | nil => exact .inl rfl
          | comma j' r =>
            exfalso
            obtain ⟨u, hu⟩ := h2.suffix (fun c hc => (hplain _ hc).2 c rfl)
            exact (hplain (.punct ',' j') (by rw [← hu]; simp)).1 j' rfl
    cases h with
    | last h => exact (hr rfl).elim
    | lastSep h hs hno =>
      rename_i i b' t
      rcases first _ _ h with h1 | ⟨h1, hc⟩
      · cases h1
      · injection h1 with h1 h2
        subst h2
        intro d hd
        rcases List.mem_cons.1 hd with rfl | hd
        · exact hc
        · exfalso
          cases l with
          | nil => cases hd
          | cons d' l =>
            obtain ⟨n', v'⟩ := d'
            exact (hv (n', v') (by simp)).1 (hno n' _ (.here (by simp)))
    | cons h hs hm hnk hrest =>
      rename_i mid r i b' bs' t n' is
      rcases first _ _ h with h1 | ⟨h1, hc⟩
      · cases h1
      · injection h1 with h1 h2
        subst h2
        intro d hd
        rcases List.mem_cons.1 hd with rfl | hd
        · exact hc
        · exact ih _ _ _ (by rintro rfl; cases hd) (fun d hd => hv d (by simp [hd])) hrest hr d hd

/-- **C49**, exact: definitions with `;` after each of them are accepted if and only if their values are all calls of functions. (The values contain no
separators, except inside brackets, and no fragments inserted by `macro_rules!`.) -/
theorem C49_exact {pre : Toks} {ls : Option PLoops} (hl : ReadsOptLoops Y known pre ls []) {l : List (Str × Toks)} (hne : l ≠ [])
    (hv : ∀ d ∈ l, d.1 ∉ keywords ∧ ∀ t ∈ d.2, (∀ c, ¬ IsSep c t) ∧ ∀ c, t ≠ .group .none c) {b : Toks} {block : List Stmt}
    (hbl : Y.parseBlock b = some block) (k : Nat) (sv : Service) (hb : 1 ≤ sv.borrowed) (j : Bool) :
    (∃ a, (parseRawAst Y known ids (pre ++ defsToks (.punct ';' j) l [.group .brace b]) k (some sv)).1 = .ok a) ↔
      ∀ d ∈ l, ∃ f raw, CallAt known d.2 f raw [] := by
  have hhead : ∃ n r, First (defsToks (.punct ';' j) l [.group .brace b]) (.ident n) r ∧ n ∉ keywords := by
    cases l with
    | nil => exact (hne rfl).elim
    | cons d l =>
      obtain ⟨n, v⟩ := d
      exact ⟨n, _, .here (by simp), (hv (n, v) (by simp)).1⟩
  constructor
  · rintro ⟨a, ha⟩
    have h := (C58_function_like Y known ids _ k sv hb).1 a ha
    cases h with
    | mk id h hf' hbl ht' =>
      rename_i rest' b' tail' ls' s' block
      cases h with
      | mk hl' hs' =>
        rename_i mid'
        have hl2 : ReadsOptLoops Y known (pre ++ defsToks (.punct ';' j) l [.group .brace b]) ls (defsToks (.punct ';' j) l [.group .brace b]) := by
          refine optLoops_ctx (τ := []) (r := []) ?_ (by simpa using hl)
          obtain ⟨n, r, h3, h4⟩ := hhead
          intro r2 e2
          rw [show defsToks (.punct ';' j) l [.group .brace b] = .ident (S "for") :: r2 from e2] at h3
          simp at h3
          rw [← h3.1] at h4
          exact h4 for_keyword
        obtain ⟨e, -⟩ := (optLoops_exact Y known ids _).unique (Nat.le_refl _) hl2 hl'
        rw [e] at hs'
        obtain ⟨n, r, hn, hk⟩ := hhead
        rcases hs' with ⟨-, -, hs'⟩ | ⟨s2, rfl, -, hs'⟩
        · exact (hk (hs' _ _ hn)).elim
        · cases hs' with
          | mk id2 hi' hb' => exact semi_calls hne hv hi' (by rintro rfl; simp at hf')
  · intro h
    obtain ⟨-, a', -, -, -, ha, -⟩ := C49_calls_partial Y known ids hl hne (fun d hd => ⟨(hv d hd).1, h d hd⟩) hbl k sv hb j j
    exact ⟨a', ha⟩

/-- `a = x; b = lower(y);` -/
example : ∀ d ∈ [(S "a", [id' "x"]), (S "b", [id' "lower", paren [id' "y"]])],
    d.1 ∉ keywords ∧ ∀ t ∈ d.2, (∀ c, ¬ IsSep c t) ∧ ∀ c, t ≠ .group .none c := by
  intro d hd
  simp at hd
  rcases hd with rfl | rfl <;> refine ⟨by decide, fun t ht => ?_⟩ <;> simp at ht <;> (try rcases ht with rfl | rfl) <;> (try subst ht) <;>
    exact ⟨fun c h => (by cases h), by simp [id', paren]⟩
end Parse

/-! ## C55: the history of the thread -/

section History
open Classical in
theorem inserts_flat {xs a b} (h : Inserts xs a b) (L : Tok) : (flat b).count L = (flat a).count L + (flat xs.flatten).count L := by
  induction h with
  | nil => rfl
  | keep t h ih => simp only [flat, List.count_append, ih]; omega
  | group d h h' ih ih' => simp only [flat, flatTok, List.count_append, ih, ih', List.flatten_append, flat_append]; omega
  | insert x h ih => simp only [flat_append, List.count_append, ih, List.flatten_cons]; omega

theorem inserts_none {xs a b} (h : Inserts xs a b) (hx : xs = []) : a = b := by
  induction h with
  | nil => rfl
  | keep t h ih => rw [ih hx]
  | group d h h' ih ih' =>
    simp only [List.append_eq_nil_iff] at hx
    rw [ih hx.1, ih' hx.2]
  | insert x h ih => cases hx

/-- The warning about semicolons. -/
abbrev semis : Warning := ⟨S "Using semicolons as separators is deprecated, use commas instead", S "0.0.5"⟩

/-- The literal of the warning with the given prefix. -/
def warningLit (repr : Str → Str) (p : Str) : Tok := .lit (.str (repr (p ++ semis.note)) (p ++ semis.note))

theorem warningLit_ne {repr p p'} (h : p ≠ p') : warningLit repr p ≠ warningLit repr p' := by
  intro e
  simp only [warningLit, Tok.lit.injEq, Lit.str.injEq] at e
  exact h (List.append_cancel_right e.2)

theorem warning_count (repr : Str → Str) (p : Str) : 0 < (flat (warningToks repr p semis)).count (warningLit repr p) := by
  rw [List.count_pos_iff]
  simp [flat, flatTok, warningToks, warningLit]

theorem warning_count_ne {repr : Str → Str} {p p' : Str} (h : p ≠ p') : (flat (warningToks repr p' semis)).count (warningLit repr p) = 0 := by
  rw [List.count_eq_zero]
  intro hm
  have h1 : warningLit repr p ≠ .lit (.str (repr (S "0.0.5")) (S "0.0.5")) := by
    intro e
    simp only [warningLit, Tok.lit.injEq, Lit.str.injEq] at e
    have := congrArg List.length e.2
    rw [List.length_append] at this
    have h2 : 5 < semis.note.length := by decide
    have h3 : (S "0.0.5").length = 5 := by decide
    have h4 : semis.note.length ≤ p.length + semis.note.length := by omega
    rw [this, h3] at h4
    omega
  have h2 := warningLit_ne (repr := repr) h
  simp only [warningToks, flat, flatTok, List.append_nil, List.cons_append, List.nil_append, List.mem_cons, List.not_mem_nil, or_false] at hm
  rcases hm with hm | hm | hm | hm | hm | hm | hm | hm | hm | hm
  all_goals first
    | exact h1 hm
    | exact h2 hm
    | cases hm

/-- What the warnings add to a copy, whatever their prefix. -/
inductive WithPrefix (repr : Str → Str) : Res Toks → (Str → Res Toks) → Prop
  | err (e : Err) {f} (h : ∀ p, f p = .err e) : WithPrefix repr (.err e) f
  | panic {f} (h : ∀ p, f p = .panic) : WithPrefix repr .panic f
  | ok (k : Nat) (t0 : Toks) (t : Str → Toks) {f} (h : ∀ p, f p = .ok (t p))
      (hc : ∀ p L, (flat (t p)).count L = (flat t0).count L + k * (flat (warningToks repr p semis)).count L) (h0 : k = 0 → ∀ p, t p = t0) :
      WithPrefix repr (.ok t0) f

theorem copyOf_withPrefix {W : World} (hl : ∀ k ts, cstsPrint (W.sites k ts) = ts) (env : Env) (block : List Stmt) (defs : List (Str × Expr)) :
    WithPrefix W.E.strRepr (copyOf W env ⟨[], 1, []⟩ block defs) fun p => copyOf W env (serviceFor p true) block defs := by
  unfold copyOf
  cases outcome W.E env defs with
  | err e => exact .err e fun _ => rfl
  | panic => exact .panic fun _ => rfl
  | ok vs =>
    simp only
    cases visitBlock W.E W.Y.toGrammar vs block with
    | err e => exact .err e fun _ => rfl
    | panic => exact .panic fun _ => rfl
    | ok stmts =>
      simp only
      have h0 := C53_only_inserts (repr := W.E.strRepr) hl ⟨[], 1, []⟩ stmts
      simp only [List.take_nil, List.map_nil] at h0
      have h0 := inserts_none h0 rfl
      refine .ok (min 1 (freshCount (nodeAttrs (stmtsCst W.sites stmts)))) _ (fun p => _) (fun p => rfl) ?_ ?_
      · intro p L
        have h := inserts_flat (C53_only_inserts (repr := W.E.strRepr) hl (serviceFor p true) stmts) L
        rw [← h0, h]
        cases freshCount (nodeAttrs (stmtsCst W.sites stmts)) with
        | zero => simp [flat]
        | succ n =>
          have : min 1 (n + 1) = 1 := by omega
          rw [this]
          simp [serviceFor]
      · intro hk p
        have h := C53_only_inserts (repr := W.E.strRepr) hl (serviceFor p true) stmts
        rw [← h0]
        refine (inserts_none h ?_).symm
        have : freshCount (nodeAttrs (stmtsCst W.sites stmts)) = 0 := by omega
        rw [this]
        rfl

theorem joinAll_withPrefix {α : Type} {repr : Str → Str} {f0 : α → Res Toks} {f : α → Str → Res Toks} (h : ∀ x, WithPrefix repr (f0 x) (f x)) :
    ∀ xs : List α, WithPrefix repr (joinAll (xs.map f0)) fun p => joinAll (xs.map fun x => f x p)
  | [] => .ok 0 [] (fun _ => []) (fun _ => rfl) (fun p L => by simp) (fun _ _ => rfl)
  | x :: xs => by
    have ih := joinAll_withPrefix h xs
    have hx := h x
    simp only [List.map_cons]
    generalize f0 x = r0 at hx
    cases hx with
    | err e h => simp only [h, joinAll]; exact .err e fun _ => rfl
    | panic h => simp only [h, joinAll]; exact .panic fun _ => rfl
    | ok k t0 t h1 hc h0 =>
      simp only [h1, joinAll]
      generalize joinAll (xs.map f0) = r at ih
      generalize hg : (fun p => joinAll (xs.map fun x => f x p)) = g at ih
      have hg : ∀ p, joinAll (xs.map fun x => f x p) = g p := fun p => congrFun hg p
      simp only [hg]
      cases ih with
      | err e h => simp only [h]; exact .err e fun _ => rfl
      | panic h => simp only [h]; exact .panic fun _ => rfl
      | ok k' t0' t' h1' hc' h0' =>
        simp only [h1']
        refine .ok (k + k') (t0 ++ t0') (fun p => t p ++ t' p) (fun _ => rfl) ?_ ?_
        · intro p L
          simp only [flat_append, List.count_append, hc, hc', Nat.add_mul]
          omega
        · intro hk p
          rw [h0 (by omega), h0' (by omega)]

theorem expansion_withPrefix {W : World} (hl : ∀ k ts, cstsPrint (W.sites k ts) = ts) (env : Env) (a : RawAst Str Expr (List Stmt)) :
    WithPrefix W.E.strRepr (expansion W env ⟨[], 1, []⟩ a) fun p => expansion W env (serviceFor p true) a := by
  unfold expansion
  cases iterations a with
  | err e => exact .err e fun _ => rfl
  | panic => exact .panic fun _ => rfl
  | ok its => exact joinAll_withPrefix (copyOf_withPrefix hl env a.block) its

/-- **C55**, exact: with the same seed (or without `hash`), the output of an invocation is the same after two histories if and only if the first macro of
the thread is the same one, or the output has no warnings. -/
theorem C55_exact {W : World} (hl : ∀ k ts, cstsPrint (W.sites k ts) = ts) {hist hist' : List (Invocation × Luck)} {inv : Invocation} {l l' : Luck}
    (hs : Scheduled W hist inv l) (hs' : Scheduled W hist' inv l') {a : PAst} (ha : Reads W inv a)
    (hi : l.ids 0 = l'.ids 0 ∨ ∀ e ∈ exprsIn (tree a), S "hash" ∉ calls e) :
    output W hist inv l = output W hist' inv l' ↔
      macroName (firstOn hist inv) = macroName (firstOn hist' inv) ∨
        output W hist inv l = .ofRes (expansion W (Env.builtin (l.ids 0)) ⟨[], 1, []⟩ (tree a)) := by
  have hseed : ∀ sv, expansion W (Env.builtin (l'.ids 0)) sv (tree a) = expansion W (Env.builtin (l.ids 0)) sv (tree a) := by
    intro sv
    rcases hi with hi | hi
    · rw [hi]
    · exact expansion_seed hi
  rw [output_reads hs ha, output_reads hs' ha, hseed]
  by_cases hp : macroName (firstOn hist inv) = macroName (firstOn hist' inv)
  · have : macroPrefix (firstOn hist inv) = macroPrefix (firstOn hist' inv) := congrArg (· ++ S "!: ") hp
    rw [this]
    simp [hp]
  · have hpre : macroPrefix (firstOn hist inv) ≠ macroPrefix (firstOn hist' inv) := fun e => hp (List.append_cancel_right e)
    simp only [hp, false_or]
    cases hsc : withSemicolons a.spec with
    | false =>
      rw [expansion_no_warnings W _ (sv := serviceFor (macroPrefix (firstOn hist inv)) false) (sv' := ⟨[], 1, []⟩) rfl rfl,
        expansion_no_warnings W _ (sv := serviceFor (macroPrefix (firstOn hist' inv)) false) (sv' := ⟨[], 1, []⟩) rfl rfl]
    | true =>
      have h := expansion_withPrefix hl (Env.builtin (l.ids 0)) (tree a)
      generalize expansion W (Env.builtin (l.ids 0)) ⟨[], 1, []⟩ (tree a) = r at h
      generalize hf : (fun p => expansion W (Env.builtin (l.ids 0)) (serviceFor p true) (tree a)) = f at h
      have hf : ∀ p, expansion W (Env.builtin (l.ids 0)) (serviceFor p true) (tree a) = f p := fun p => congrFun hf p
      rw [hf, hf]
      cases h with
      | err e h => simp [h]
      | panic h => simp [h]
      | ok k t0 t h hc h0 =>
        simp only [h, Output.ofRes, Output.tokens.injEq]
        generalize macroPrefix (firstOn hist inv) = p at hpre
        generalize macroPrefix (firstOn hist' inv) = p' at hpre
        have c1 := hc p (warningLit W.E.strRepr p)
        have c2 := hc p' (warningLit W.E.strRepr p)
        have c3 := warning_count W.E.strRepr p
        rw [warning_count_ne hpre] at c2
        constructor
        · intro e
          rw [← e, c1] at c2
          refine h0 ?_ p
          cases k with
          | zero => rfl
          | succ k =>
            rw [Nat.succ_mul] at c2
            omega
        · intro e
          rw [e] at c1
          have : k = 0 := by
            cases k with
            | zero => rfl
            | succ k =>
              rw [Nat.succ_mul] at c1
              omega
          rw [h0 this, h0 this]

/-- The hypotheses hold of the input of `C55_false`. -/
example : Scheduled demoWorld [(.composeIdents [], demoLuck 2 0)] (.compose demoSemi) (demoLuck 2 1) ∧
    Scheduled demoWorld [] (.compose demoSemi) (demoLuck 2 1) ∧ (∃ a, Reads demoWorld (.compose demoSemi) a) :=
  ⟨demo_scheduled _ _ (by decide +kernel), demo_scheduled _ _ (by decide +kernel), _, reads_of_parse (ids := fun k => k) (k := 0) rfl⟩
end History

end Verif.Props
